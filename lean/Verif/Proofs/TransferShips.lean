import Verif.Proofs.TransferSender
import Verif.Proofs.Replica

/-!
# What a replica sends of snapshots
-/

namespace TCP.Replica

open TCP TCP.Drv TCP.Comm.Spec TCP.Replica.Spec TCP.Snap

variable {ν Y P S E H σ : Type} {A : Actor σ} {N : NodeT ν Y} {ops : Comm.Ops S E H} {V : Env P S E H} {codecs : Codecs}

/-! ## Records -/

theorem given_append (r : Nat) (a b : List (Comm.Spec.Ev S H)) : given r (a ++ b) = given r a ++ given r b := by
  simp [given, accepted, List.filterMap_append]

theorem received_append (r : Nat) (a b : List (Comm.Spec.Ev S H)) : received r (a ++ b) = received r a ++ received r b := by
  simp [received, List.filterMap_append]

theorem pieces_append (a b : List Comm.Data) : pieces codecs (a ++ b) = pieces codecs a ++ pieces codecs b := by
  simp [pieces, List.filterMap_append]

theorem Spec.Smooth.left {a b : List (Comm.Spec.Ev S H)} (h : Smooth (a ++ b)) : Smooth a :=
  fun u f e hm => h u f e (List.mem_append_left _ hm)

theorem Spec.Offers.mono {t : List (Drv.Ev H)} {p : Nat} {s : RaftSnapshot} (h : Offers t p s) (u : List (Drv.Ev H)) : Offers (t ++ u) p s := by
  obtain ⟨m, h1, h2⟩ := h
  exact ⟨m, h1.mono u, h2⟩

/-- The record of an outgoing message. -/
theorem processOut_log {c c' : Channels P S E H} {u x} (h : Channels.processOut ops V c u = .ok (c', x)) :
    (x = .ok () ∧ ∃ f, c'.log = c.log ++ [.out u f (.ok ())]) ∨ (∃ f e, c'.log = c.log ++ [.out u f (.error e)]) ∧ ∀ a, x ≠ .ok a := by
  simp only [Channels.processOut, Run.bind_eq_ok, Run.ok.injEq, Prod.mk.injEq] at h
  obtain ⟨⟨m, y⟩, _, rfl, hx⟩ := h
  cases y with
  | error e => exact Or.inr ⟨⟨_, e, rfl⟩, by rw [← hx]; simp [palResult]⟩
  | ok y => exact Or.inl ⟨hx.symm, _, rfl⟩

theorem given_out_ok (r : Nat) (u : Comm.Outgoing) (f : Option S) :
    given r [(.out u f (.ok ()) : Comm.Spec.Ev S H)] = if u.data.recipient = r then [u.data] else [] := by
  unfold given accepted
  by_cases h : u.data.recipient = r <;> simp [h]

theorem given_out_error (r : Nat) (u : Comm.Outgoing) (f : Option S) (e) : given r [(.out u f (.error e) : Comm.Spec.Ev S H)] = [] := rfl

/-! ## The invariant -/

/-- What a replica has sent of snapshots, where the requests `qs` have been made but not been sent yet. -/
structure Ships (codecs : Codecs) (qs : List Request) (d : Driver σ (Simple ν Y) (Channels P S E H) H) : Prop where
  stash : ∀ m ∈ d.snapshots, m.type = .snapshot ∧ DrvSpec.Posted d.trace m
  plain : ∀ r, ∀ x ∈ given r d.comm.log, x.kind = .system → ∃ m : RaftMsg, m.type ≠ .snapshot ∧ x.payload = some ⟨codecs.encRaft m, []⟩
  sends : (d.snap.role = .unknown ∧ d.snap.sender = .new ∧ (∀ r, pieces codecs (given r d.comm.log) = []) ∧ qs = []) ∨
    (d.snap.role ≠ .unknown ∧ ∃ cs F, Fed codecs.encMeta cs F d.snap.sender ∧ (∀ x ∈ F, Offers d.trace x.2.1 x.2.2) ∧
      (∀ r, ∀ c ∈ pieces codecs (given r d.comm.log), Shipped codecs.encMeta cs F r c) ∧
      (∀ q ∈ qs, ∃ c, q.payload = some (some c) ∧ Shipped codecs.encMeta cs F q.recipient c) ∧
      (Smooth d.comm.log → Aligned d.snap.sender fun r => pieces codecs (given r d.comm.log) ++ contentsTo r qs))

theorem Ships.keep {qs : List Request} {d d' : Driver σ (Simple ν Y) (Channels P S E H) H} (h : Ships codecs qs d)
    (hl : ∃ l, d'.comm.log = d.comm.log ++ l ∧ ∀ r, given r l = []) (hs : d'.snapshots = d.snapshots) (ht : ∃ t, d'.trace = d.trace ++ t)
    (hn : d'.snap.sender = d.snap.sender) (hr : d'.snap.role = d.snap.role) : Ships codecs qs d' := by
  obtain ⟨l, hl, hg⟩ := hl
  obtain ⟨t, ht⟩ := ht
  have hgv : ∀ r, given r d'.comm.log = given r d.comm.log := fun r => by rw [hl, given_append, hg r, List.append_nil]
  refine ⟨fun m hm => ?_, fun r => by rw [hgv r]; exact h.plain r, ?_⟩
  · rw [hs] at hm
    rw [ht]
    exact ⟨(h.stash m hm).1, (h.stash m hm).2.mono t⟩
  · rcases h.sends with ⟨h1, h2, h3, h4⟩ | ⟨h1, cs, F, h2, h3, h4, h5, h6⟩
    · exact Or.inl ⟨hr.trans h1, hn.trans h2, fun r => by rw [hgv r]; exact h3 r, h4⟩
    · refine Or.inr ⟨by rw [hr]; exact h1, cs, F, by rw [hn]; exact h2, fun x hx => by rw [ht]; exact (h3 x hx).mono t,
        fun r => by rw [hgv r]; exact h4 r, h5, fun hsm => ?_⟩
      have := h6 (by rw [hl] at hsm; exact hsm.left)
      rw [hn]
      simp only [hgv]
      exact this

theorem Ships.keep0 {qs : List Request} {d d' : Driver σ (Simple ν Y) (Channels P S E H) H} (h : Ships codecs qs d)
    (hl : d'.comm = d.comm) (hs : d'.snapshots = d.snapshots) (ht : ∃ t, d'.trace = d.trace ++ t)
    (hn : d'.snap.sender = d.snap.sender) (hr : d'.snap.role = d.snap.role) : Ships codecs qs d' :=
  h.keep ⟨[], by rw [hl, List.append_nil], fun _ => rfl⟩ hs ht hn hr

/-- The sender changes. -/
theorem Ships.sender {d : Driver σ (Simple ν Y) (Channels P S E H) H} (h : Ships codecs [] d) {s : Sender} {p : Processor} (hp : p.sender = s)
    (hrole : (d.snap.role = .unknown ∧ p.role = .unknown) ∨ (d.snap.role ≠ .unknown ∧ p.role ≠ .unknown))
    (hnew : d.snap.sender = .new → d.snap.role = .unknown → s = .new) (hfed : ∀ {cs F}, Fed codecs.encMeta cs F d.snap.sender → Fed codecs.encMeta cs F s)
    (hal : ∀ {outs}, Aligned d.snap.sender outs → Aligned s outs) : Ships codecs [] { d with snap := p } := by
  refine ⟨h.stash, h.plain, ?_⟩
  rcases h.sends with ⟨h1, h2, h3, h4⟩ | ⟨h1, cs, F, h2, h3, h4, h5, h6⟩
  · rcases hrole with ⟨_, hr⟩ | ⟨hr, _⟩
    · exact Or.inl ⟨hr, hp.trans (hnew h2 h1), h3, h4⟩
    · exact absurd h1 hr
  · rcases hrole with ⟨hr, _⟩ | ⟨_, hr⟩
    · exact absurd hr h1
    · exact Or.inr ⟨hr, cs, F, by rw [hp]; exact hfed h2, h3, h4, h5, fun hsm => by rw [hp]; exact hal (h6 hsm)⟩

theorem heard_new {s : Sender} (h : Heard .new s) : s = .new := by
  generalize hn : Sender.new = n at h
  cases h with
  | complete => subst hn; rfl
  | response h =>
    subst hn
    unfold Sender.processResponse at h
    simp only [Sender.new, AMap.get_nil, Run.ok.injEq] at h
    exact h.symm

/-- What a message of the driver that is not a request looks like. -/
theorem plain_data {Sy : Sys σ (Simple ν Y) (Channels P S E H) H} {id : Nat} {u : Comm.Outgoing} (h : Plain Sy id u) :
    pieceOf Sy.E u.data = none ∧ (u.data.kind = .system → ∃ m : RaftMsg, m.type ≠ .snapshot ∧ u.data.payload = some ⟨Sy.E.encRaft m, []⟩) := by
  cases h with
  | raft h => exact ⟨rfl, fun _ => ⟨_, h, rfl⟩⟩
  | response r => exact ⟨rfl, fun h => by simp [ofResponse] at h⟩

theorem ships_out {d : Driver σ (Simple ν Y) (Channels P S E H) H} {u c' x} (hu : Plain (sys A N ops V codecs) d.id u)
    (hc : (sys A N ops V codecs).C.processOut d.comm u = .ok (c', x)) (h : Ships codecs [] d) :
    Ships codecs [] { d with comm := c', trace := d.trace ++ [.commOut u] } := by
  obtain ⟨hp, hsys⟩ := plain_data hu
  rcases processOut_log hc with ⟨_, f, hl⟩ | ⟨⟨f, e, hl⟩, _⟩
  · have hpc : ∀ r, pieces codecs (given r c'.log) = pieces codecs (given r d.comm.log) := by
      intro r
      rw [hl, given_append, pieces_append, given_out_ok]
      split
      · simp only [pieces, List.filterMap_cons, List.filterMap_nil]
        rw [show pieceOf codecs u.data = none from hp]
        simp
      · simp [pieces]
    have hsm : Smooth c'.log → Smooth d.comm.log := fun h => by rw [hl] at h; exact h.left
    refine ⟨fun m hm => ⟨(h.stash m hm).1, (h.stash m hm).2.mono _⟩, fun r x hx hk => ?_, ?_⟩
    · simp only [hl, given_append, given_out_ok, List.mem_append] at hx
      rcases hx with hx | hx
      · exact h.plain r x hx hk
      · split at hx
        · simp only [List.mem_singleton] at hx
          subst hx
          exact hsys hk
        · simp at hx
    · rcases h.sends with ⟨h1, h2, h3, h4⟩ | ⟨h1, cs, F, h2, h3, h4, h5, h6⟩
      · exact Or.inl ⟨h1, h2, fun r => (hpc r).trans (h3 r), h4⟩
      · refine Or.inr ⟨h1, cs, F, h2, fun x hx => (h3 x hx).mono _, fun r => by rw [hpc r]; exact h4 r, h5, fun hs => ?_⟩
        simp only [hpc]
        exact h6 (hsm hs)
  · exact h.keep ⟨_, hl, fun r => given_out_error r u f e⟩ rfl ⟨_, rfl⟩ rfl rfl

/-! ## Sending -/

theorem drain_fed {cs : Nat} {F : Transfers} {n : Nat} {s s' : Sender} {qs : List Request} (h : Fed codecs.encMeta cs F s)
    (hd : drainSender codecs.encMeta n s = .ok (s', qs)) :
    Fed codecs.encMeta cs F s' ∧ (∀ q ∈ qs, ∃ c, q.payload = some (some c) ∧ Shipped codecs.encMeta cs F q.recipient c) ∧
      ∀ outs, Aligned s outs → Aligned s' fun r => outs r ++ contentsTo r qs := by
  induction n generalizing s s' qs with
  | zero =>
    simp only [drainSender, Run.ok.injEq, Prod.mk.injEq] at hd
    obtain ⟨rfl, rfl⟩ := hd
    exact ⟨h, by simp, fun outs ha => by simpa [contentsTo] using ha⟩
  | succ n ih =>
    simp only [drainSender, Run.bind_eq_ok] at hd
    obtain ⟨⟨s1, o⟩, h1, h2⟩ := hd
    obtain ⟨f1, hnone, hsome⟩ := h.next h1
    cases o with
    | none =>
      simp only [Run.ok.injEq, Prod.mk.injEq] at h2
      obtain ⟨rfl, rfl⟩ := h2
      refine ⟨f1, by simp, fun outs ha => ?_⟩
      rw [hnone rfl]
      simpa [contentsTo] using ha
    | some q =>
      simp only [Run.bind_eq_ok, Run.ok.injEq, Prod.mk.injEq] at h2
      obtain ⟨⟨s2, qs2⟩, h3, rfl, rfl⟩ := h2
      obtain ⟨c, hc, hsh, hal⟩ := hsome q rfl
      obtain ⟨f2, hq2, hal2⟩ := ih f1 h3
      refine ⟨f2, fun q' hq' => ?_, fun outs ha => ?_⟩
      · rcases List.mem_cons.1 hq' with rfl | hq'
        · exact ⟨c, hc, hsh⟩
        · exact hq2 q' hq'
      · have := hal2 _ (hal outs ha)
        have he : (fun r => outs r ++ contentsTo r [q] ++ contentsTo r qs2) = fun r => outs r ++ contentsTo r (q :: qs2) := by
          funext r
          rw [List.append_assoc]
          congr 1
          simp only [contentsTo]
          rw [← List.filterMap_append, ← List.filter_append]
          rfl
        rw [← he]
        exact this

theorem ships_startAll {ms : List RaftMsg} {d d' : Driver σ (Simple ν Y) (Channels P S E H) H} {r} (h : Ships codecs [] d)
    (hr : d.snap.role ≠ .unknown) (hms : ∀ m ∈ ms, m.type = .snapshot ∧ DrvSpec.Posted d.trace m) (hd : startAll ms d = .ok (d', r)) :
    Ships codecs [] d' ∧ d'.snap.role = d.snap.role := by
  induction ms generalizing d with
  | nil =>
    simp only [startAll, M.pure_def, M.pure, Run.ok.injEq, Prod.mk.injEq] at hd
    rw [← hd.1]; exact ⟨h, rfl⟩
  | cons m ms ih =>
    have key : ∀ d1 x, callSnap (fun p => (Run.unwrap m.snapshot).bind fun s => (p.sender.start m.to s).bind fun x => .ok ({ p with sender := x }, ())) d
        = .ok (d1, x) → Ships codecs [] d1 ∧ d1.snap.role = d.snap.role ∧ d1.trace = d.trace := by
      intro d1 x hx
      obtain ⟨p, b, hp, rfl, _⟩ := callSnap_eq hx
      simp only [Run.bind_eq_ok, Run.ok.injEq, Prod.mk.injEq] at hp
      obtain ⟨sn, hsn, s1, hs1, rfl, _⟩ := hp
      have hsn : m.snapshot = some sn := by
        cases hm : m.snapshot with
        | none => simp [hm, Run.unwrap] at hsn
        | some y => simp only [hm, Run.unwrap, Run.ok.injEq] at hsn; rw [hsn]
      refine ⟨⟨h.stash, h.plain, ?_⟩, rfl, rfl⟩
      rcases h.sends with ⟨h1, _⟩ | ⟨h1, cs, F, h2, h3, h4, h5, h6⟩
      · exact absurd h1 hr
      · refine Or.inr ⟨h1, cs, _, h2.start hs1, fun y hy => ?_, fun r c hc => (h4 r c hc).mono _, by simp, fun hsm => (h6 hsm).start hs1⟩
        rw [List.mem_append, List.mem_singleton] at hy
        rcases hy with hy | rfl
        · exact h3 y hy
        · exact ⟨m, (hms m (by simp)).2, (hms m (by simp)).1, rfl, hsn⟩
    rcases M.bind_ok hd with ⟨e, hm, _⟩ | ⟨d1, a, hm, hf⟩
    · exact ⟨(key _ _ hm).1, (key _ _ hm).2.1⟩
    · obtain ⟨k1, k2, k3⟩ := key _ _ hm
      obtain ⟨j1, j2⟩ := ih k1 (by rw [k2]; exact hr) (fun m' hm' => by rw [k3]; exact hms m' (by simp [hm'])) hf
      exact ⟨j1, j2.trans k2⟩

theorem Ships.done {qs : List Request} {d : Driver σ (Simple ν Y) (Channels P S E H) H} (h : Ships codecs qs d)
    (hq : qs = [] ∨ ¬ Smooth d.comm.log) : Ships codecs [] d := by
  rcases hq with rfl | hq
  · exact h
  · refine ⟨h.stash, h.plain, ?_⟩
    rcases h.sends with ⟨h1, h2, h3, _⟩ | ⟨h1, cs, F, h2, h3, h4, _, _⟩
    · exact Or.inl ⟨h1, h2, h3, rfl⟩
    · exact Or.inr ⟨h1, cs, F, h2, h3, h4, by simp, fun hs => absurd hs hq⟩

theorem ships_sendAll (hf : Faithful codecs) {qs : List Request} {d d' : Driver σ (Simple ν Y) (Channels P S E H) H} {r}
    (h : Ships codecs qs d) (hd : sendAll (sys A N ops V codecs) (qs.map (ofRequest (sys A N ops V codecs))) d = .ok (d', r)) :
    Ships codecs [] d' := by
  induction qs generalizing d with
  | nil =>
    simp only [sendAll, List.map_nil, M.pure_def, M.pure, Run.ok.injEq, Prod.mk.injEq] at hd
    rw [← hd.1]; exact h
  | cons q qs ih =>
    simp only [List.map_cons, sendAll] at hd
    have key : ∀ d1 x, callComm (fun c => (sys A N ops V codecs).C.processOut c (ofRequest (sys A N ops V codecs) q))
        (.commOut (ofRequest (sys A N ops V codecs) q)) d = .ok (d1, x) → (Ships codecs qs d1 ∧ x = .ok ()) ∨ (Ships codecs [] d1 ∧ ∀ a, x ≠ .ok a) := by
      intro d1 x hx
      obtain ⟨c', hc, rfl⟩ := callComm_eq hx
      rcases processOut_log hc with ⟨rfl, f, hl⟩ | ⟨⟨f, e, hl⟩, hne⟩
      · left
        refine ⟨⟨fun m hm => ⟨(h.stash m hm).1, (h.stash m hm).2.mono _⟩, fun r x hx hk => ?_, ?_⟩, rfl⟩
        · simp only [hl, given_append, given_out_ok, List.mem_append] at hx
          rcases hx with hx | hx
          · exact h.plain r x hx hk
          · split at hx
            · simp only [List.mem_singleton] at hx
              subst hx
              simp [ofRequest] at hk
            · simp at hx
        · rcases h.sends with ⟨_, _, _, h4⟩ | ⟨h1, cs, F, h2, h3, h4, h5, h6⟩
          · simp at h4
          · obtain ⟨c, hqc, hsh⟩ := h5 q (by simp)
            have hpc : pieceOf codecs (ofRequest (sys A N ops V codecs) q).data = some c := by
              simp only [ofRequest, hqc, pieceOf, Option.map_some]
              exact hf.content c
            have hg : ∀ r, pieces codecs (given r c'.log) = pieces codecs (given r d.comm.log) ++ contentsTo r [q] := by
              intro r
              rw [hl, given_append, pieces_append, given_out_ok]
              congr 1
              have hrc : (ofRequest (sys A N ops V codecs) q).data.recipient = q.recipient := rfl
              rw [hrc]
              by_cases hqr : q.recipient = r
              · simp [hqr, pieces, hpc, contentsTo, Request.content?, hqc]
              · simp [hqr, pieces, contentsTo]
            refine Or.inr ⟨h1, cs, F, h2, fun x hx => (h3 x hx).mono _, fun r x hx => ?_, fun q' hq' => h5 q' (by simp [hq']), fun hs => ?_⟩
            · rw [hg r, List.mem_append] at hx
              rcases hx with hx | hx
              · exact h4 r x hx
              · by_cases hqr : q.recipient = r
                · subst hqr
                  simp only [contentsTo, Request.content?, hqc, decide_true, List.filter_cons, List.filter_nil, if_true, List.filterMap_cons,
                    List.filterMap_nil, Option.join_some, List.mem_singleton] at hx
                  subst hx
                  exact hsh
                · simp [contentsTo, hqr] at hx
            · have := h6 (by rw [hl] at hs; exact hs.left)
              have he : (fun r => pieces codecs (given r c'.log) ++ contentsTo r qs) =
                  fun r => pieces codecs (given r d.comm.log) ++ contentsTo r (q :: qs) := by
                funext r
                rw [hg r, List.append_assoc]
                congr 1
                simp only [contentsTo]
                rw [← List.filterMap_append, ← List.filter_append]
                rfl
              rw [he]
              exact this
      · right
        refine ⟨(h.keep (d' := { d with comm := c', trace := d.trace ++ [.commOut (ofRequest (sys A N ops V codecs) q)] })
          ⟨_, hl, fun r => given_out_error r _ f e⟩ rfl ⟨_, rfl⟩ rfl rfl).done (Or.inr fun hs => ?_), hne⟩
        refine hs (ofRequest (sys A N ops V codecs) q) f e ?_
        rw [show _ = _ from hl]
        simp
    rcases M.bind_ok hd with ⟨e, hm, _⟩ | ⟨d1, a, hm, hf2⟩
    · rcases key _ _ hm with ⟨_, h2⟩ | h2
      · simp at h2
      · exact h2.1
    · rcases key _ _ hm with ⟨h1, _⟩ | h2
      · exact ih h1 hf2
      · exact absurd rfl (h2.2 a)

theorem ships_reportAll {Sy : Sys σ (Simple ν Y) (Channels P S E H) H} {rs : List (Nat × Status)}
    {d d' : Driver σ (Simple ν Y) (Channels P S E H) H} {r} (h : Ships codecs [] d) (hd : reportAll Sy rs d = .ok (d', r)) : Ships codecs [] d' := by
  refine Keep.run (I := Ships codecs []) ?_ h _ _ hd
  clear h hd
  induction rs generalizing d with
  | nil => exact keep_pure
  | cons e es ih =>
    refine keep_bind ⟨?_⟩ fun _ _ _ => ih
    intro hi d' r hd
    obtain ⟨r', b, _, rfl, _⟩ := callRaft_eq hd
    exact hi.keep0 rfl rfl ⟨_, rfl⟩ rfl rfl

theorem ships_sending (hf : Faithful codecs) {d d' : Driver σ (Simple ν Y) (Channels P S E H) H} {r} (h : Ships codecs [] d)
    (hd : processSnapshotSending (sys A N ops V codecs) d = .ok (d', r)) : Ships codecs [] d' := by
  unfold processSnapshotSending at hd
  rw [M.bind_run (d1 := d) (a := d) rfl, M.bind_run (d1 := { d with snapshots := [] }) (a := ()) rfl] at hd
  have h0 : Ships codecs [] { d with snapshots := [] } := ⟨by simp, h.plain, h.sends⟩
  rcases M.bind_ok hd with ⟨e, hm, _⟩ | ⟨d1, a, hm, hf1⟩
  · obtain ⟨p, b, hp, rfl, _⟩ := callSnap_eq hm
    rw [isSender_eq hp]; exact h0
  · obtain ⟨p, b, hp, rfl, hb⟩ := callSnap_eq hm
    simp only [Except.ok.injEq] at hb
    subst hb
    have hp' := isSender_eq hp
    subst hp'
    cases a with
    | false => exact ships_reportAll h0 hf1
    | true =>
      have hrole : d.snap.role ≠ .unknown := by
        intro hu
        simp [isSender, hu] at hp
      simp only [if_true] at hf1
      rcases M.bind_ok hf1 with ⟨e, hm, _⟩ | ⟨d2, _, hm, hf2⟩
      · exact (ships_startAll h0 hrole h.stash hm).1
      · obtain ⟨h2, hr2⟩ := ships_startAll h0 hrole h.stash hm
        have hr2 : d2.snap.role ≠ .unknown := by rw [hr2]; exact hrole
        have key : ∀ d3 x, callSnap (fun p => (drainSender (sys A N ops V codecs).E.encMeta (p.sender.maxPending + 1) p.sender).bind fun x =>
            .ok ({ p with sender := x.1 }, x.2)) d2 = .ok (d3, x) → ∃ qs, x = .ok qs ∧ Ships codecs qs d3 := by
          intro d3 x hx
          obtain ⟨p, qs, hp, rfl, rfl⟩ := callSnap_eq hx
          simp only [Run.bind_eq_ok, Run.ok.injEq, Prod.mk.injEq] at hp
          obtain ⟨⟨s3, qs3⟩, hdr, rfl, rfl⟩ := hp
          refine ⟨_, rfl, h2.stash, h2.plain, ?_⟩
          rcases h2.sends with ⟨h1, _⟩ | ⟨h1, cs, F, k2, k3, k4, _, k6⟩
          · exact absurd h1 hr2
          · obtain ⟨f1, f2, f3⟩ := drain_fed k2 hdr
            refine Or.inr ⟨h1, cs, F, f1, k3, k4, f2, fun hs => ?_⟩
            refine f3 _ ?_
            have := k6 hs
            simpa [contentsTo] using this
        rcases M.bind_ok hf2 with ⟨e, hm, _⟩ | ⟨d3, qs, hm, hf3⟩
        · obtain ⟨_, he, _⟩ := key _ _ hm
          simp at he
        · obtain ⟨qs', he, h3⟩ := key _ _ hm
          simp only [Except.ok.injEq] at he
          subst he
          exact ships_sendAll hf h3 hf3

theorem processIn_log {c c' : Channels P S E H} {m x} (h : Channels.processIn ops V c m = .ok (c', x)) :
    ∃ f y, c'.log = c.log ++ [.inn m f y] ∧ x = palResult y := by
  simp only [Channels.processIn, Run.bind_eq_ok, Run.ok.injEq, Prod.mk.injEq] at h
  obtain ⟨⟨m, y⟩, _, rfl, hx⟩ := h
  exact ⟨_, y, rfl, hx.symm⟩

theorem takeOut_log {c c' : Channels P S E H} {out} (h : Channels.takeOut ops V c = .ok (c', out)) :
    c'.log = c.log ++ [.shuffle, .take out] := by
  simp only [Channels.takeOut, Run.bind_eq_ok, Run.ok.injEq, Prod.mk.injEq] at h
  obtain ⟨⟨m, y⟩, _, rfl, rfl⟩ := h
  simp

theorem clusterChange_sender {p p' : Processor} {l t rs u} (h : p.clusterChange l t rs = .ok (p', u)) :
    p.role ≠ .unknown ∧ p'.role ≠ .unknown ∧ (p'.sender = p.sender ∨ p'.sender = p.sender.reset.1) := by
  unfold Processor.clusterChange at h
  simp only at h
  split at h
  · simp at h
  · rename_i hr
    simp only [Run.ok.injEq, Prod.mk.injEq] at h
    obtain ⟨rfl, _⟩ := h
    refine ⟨by rw [hr]; simp, ?_, ?_⟩
    · repeat' split
      all_goals simp_all
    · repeat' split
      all_goals exact Or.inl rfl
  · rename_i hr
    simp only [Run.ok.injEq, Prod.mk.injEq] at h
    obtain ⟨rfl, _⟩ := h
    refine ⟨by rw [hr]; simp, ?_, ?_⟩
    · repeat' split
      all_goals simp_all
    · repeat' split
      all_goals first | exact Or.inl rfl | exact Or.inr rfl

theorem ships_leaves (hf : Faithful codecs) : Leaves (sys A N ops V codecs) (Ships (σ := σ) (ν := ν) (Y := Y) (P := P) (S := S) (E := E) codecs []) where
  quiet hc h := h.keep0 hc.comm hc.snapshots ⟨[], by rw [hc.trace, List.append_nil]⟩ (by rw [hc.snap]) (by rw [hc.snap])
  actor _ h := h.keep0 rfl rfl ⟨_, rfl⟩ rfl rfl
  host _ h := h.keep0 rfl rfl ⟨_, rfl⟩ rfl rfl
  raft _ _ _ h := h.keep0 rfl rfl ⟨_, rfl⟩ rfl rfl
  init _ _ h := h.keep0 rfl rfl ⟨_, rfl⟩ rfl rfl
  started {d retry timeout _} _ _ h := by
    refine ⟨h.stash, fun r x hx => by simp [sys, commT, given, accepted] at hx, ?_⟩
    rcases h.sends with ⟨h1, h2, _, _⟩ | ⟨h1, cs, F, k2, k3, _, _, _⟩
    · exact Or.inl ⟨h1, h2, fun r => rfl, rfl⟩
    · exact Or.inr ⟨h1, cs, F, k2, k3, fun r c hc => by simp [sys, commT, given, accepted, pieces] at hc, by simp,
        fun _ => Aligned.blank fun r => rfl⟩
  stopped h := h.keep0 rfl rfl ⟨[], by simp⟩ rfl rfl
  snapInit {d cfg p} _ hp h := by
    unfold Processor.init at hp
    split at hp
    · simp at hp
    · rename_i hr
      simp only [ne_eq, Decidable.not_not] at hr
      simp only [Run.ok.injEq] at hp
      subst hp
      refine ⟨h.stash, h.plain, ?_⟩
      rcases h.sends with ⟨h1, h2, h3, _⟩ | ⟨h1, _⟩
      · obtain ⟨cs, hfed⟩ := Fed.init codecs.encMeta d.id cfg
        refine Or.inr ⟨by simp, cs, [], by simp only [h2]; exact hfed, by simp, fun r c hc => ?_, by simp, fun _ => Aligned.blank fun r => ?_⟩
        · rw [show pieces codecs (given r d.comm.log) = [] from h3 r] at hc
          simp at hc
        · rw [show pieces codecs (given r d.comm.log) = [] from h3 r]
          rfl
      · exact absurd hr h1
  snapCluster {d l t rs p u} hp h := by
    obtain ⟨h1, h2, h3⟩ := clusterChange_sender hp
    refine h.sender rfl (Or.inr ⟨h1, h2⟩) (fun _ hu => absurd hu h1) (fun hfed => ?_) fun ha => ?_
    · rcases h3 with h3 | h3 <;> rw [h3]
      · exact hfed
      · exact hfed.reset
    · rcases h3 with h3 | h3 <;> rw [h3]
      · exact ha
      · exact ha.reset
  sender {d s} hs h := by
    refine h.sender rfl ?_ (fun hn _ => ?_) (fun hfed => ?_) fun ha => ?_
    · by_cases hr : d.snap.role = .unknown
      · exact Or.inl ⟨hr, hr⟩
      · exact Or.inr ⟨hr, hr⟩
    · rw [hn] at hs; exact heard_new hs
    · cases hs with
      | complete => exact hfed.complete
      | response hs => exact hfed.response hs
    · cases hs with
      | complete => exact ha.complete
      | response hs => exact ha.response hs
  stashed {d m} hm hp h := by
    refine ⟨fun m' hm' => ?_, h.plain, h.sends⟩
    rcases List.mem_append.1 hm' with hm' | hm'
    · exact h.stash m' hm'
    · rw [List.mem_singleton.1 hm']; exact ⟨hm, hp⟩
  sending hd h := ships_sending hf h hd
  commOut hu hc h := ships_out hu hc h
  commIn _ hc h := by
    obtain ⟨f, y, hl, _⟩ := processIn_log hc
    exact h.keep ⟨_, hl, fun _ => rfl⟩ rfl ⟨_, rfl⟩ rfl rfl
  commTick h := h.keep ⟨[.tick], rfl, fun _ => rfl⟩ rfl ⟨_, rfl⟩ rfl rfl
  commCluster {d} h := h.keep ⟨[.cluster d.conf.voters], rfl, fun _ => rfl⟩ rfl ⟨_, rfl⟩ rfl rfl
  take hc h := h.keep ⟨_, takeOut_log hc, fun _ => rfl⟩ rfl ⟨_, rfl⟩ rfl rfl
  system hc _ _ h := by
    obtain ⟨f, y, hl, _⟩ := processIn_log hc
    exact h.keep ⟨_, hl, fun _ => rfl⟩ rfl ⟨_, by rw [List.append_assoc]⟩ rfl rfl
  chunk _ _ hc _ h := by
    obtain ⟨f, y, hl, _⟩ := processIn_log hc
    exact h.keep ⟨_, hl, fun _ => rfl⟩ rfl ⟨_, rfl⟩ rfl rfl
  complete _ h := h.keep0 rfl rfl ⟨[], by simp⟩ rfl rfl
  install _ _ h := h.keep0 rfl rfl ⟨_, rfl⟩ rfl rfl

theorem ships_fresh (a : σ) (p : P) : Ships (ν := ν) (Y := Y) (S := S) (E := E) (H := H) codecs [] (fresh a p) :=
  ⟨by simp [fresh, Driver.new], by simp [fresh, Driver.new, Channels.new, given, accepted], Or.inl ⟨rfl, rfl, fun _ => rfl, rfl⟩⟩

end TCP.Replica
