import Verif.Proofs.TransferShips

/-!
# What a replica assembles
-/

namespace TCP.Replica

open TCP TCP.Drv TCP.Comm.Spec TCP.Replica.Spec TCP.Snap

variable {ν Y P S E H σ : Type} {A : Actor σ} {N : NodeT ν Y} {ops : Comm.Ops S E H} {V : Env P S E H} {codecs : Codecs}

/-- A partial snapshot consists of the header that was received last and of chunks received since. -/
def Held (cs : List Content) (st : Incoming) : Prop :=
  ∃ a first b, cs = a ++ ⟨st.snapshotId, some (.header st.size st.metadata first)⟩ :: b ∧ (∀ c ∈ b, opens c = false) ∧
    chunkCount st.size first.length = .ok st.chunkCount ∧
    ∀ k x, st.chunks.get k = some x → (k = 0 ∧ x = first) ∨ ∃ id, ⟨id, some (.chunk k x)⟩ ∈ b

/-- A snapshot was put together from what was received. -/
def Assembled (codecs : Codecs) (cs : List Content) (s : RaftSnapshot) : Prop :=
  ∃ st pre, pre <+: cs ∧ Held pre st ∧ codecs.decMeta st.metadata = some s.metadata ∧ assemble st.chunks st.chunkCount = .ok s.data

theorem Assembled.mono {cs cs' : List Content} {s : RaftSnapshot} (h : Assembled codecs cs s) (hp : cs <+: cs') : Assembled codecs cs' s := by
  obtain ⟨st, pre, h1, h2⟩ := h
  exact ⟨st, pre, h1.trans hp, h2⟩

theorem Held.complete {cs : List Content} {r r' : Receiver} {snd : Nat} {sn : RaftSnapshot}
    (hs : ∀ st, r.state = some st → Held cs st) (h : r.tryComplete codecs.decMeta = .ok (r', some (.ok (snd, sn)))) :
    Assembled codecs cs sn := by
  unfold Receiver.tryComplete at h
  cases hst : r.state with
  | none => simp [hst] at h
  | some st =>
    simp only [hst, Run.bind_eq_ok] at h
    obtain ⟨res, h1, h2⟩ := h
    cases res with
    | none => simp at h2
    | some x =>
      simp only [Run.ok.injEq, Prod.mk.injEq, Option.some.injEq] at h2
      obtain ⟨_, rfl⟩ := h2
      unfold Incoming.tryComplete at h1
      split at h1
      · simp at h1
      · cases hm : codecs.decMeta st.metadata with
        | none => simp [hm] at h1
        | some m =>
          simp only [hm, Run.bind_eq_ok, Run.ok.injEq, Option.some.injEq, Except.ok.injEq, Prod.mk.injEq] at h1
          obtain ⟨data, h3, rfl, rfl⟩ := h1
          exact ⟨st, cs, List.prefix_refl _, hs st hst, hm, h3⟩

theorem tryComplete_sender {r r' : Receiver} {snd : Nat} {sn : RaftSnapshot}
    (h : r.tryComplete codecs.decMeta = .ok (r', some (.ok (snd, sn)))) : ∃ st, r.state = some st ∧ st.sender = snd ∧ r'.state = none := by
  unfold Receiver.tryComplete at h
  cases hst : r.state with
  | none => simp [hst] at h
  | some st =>
    simp only [hst, Run.bind_eq_ok] at h
    obtain ⟨res, h1, h2⟩ := h
    cases res with
    | none => simp at h2
    | some x =>
      simp only [Run.ok.injEq, Prod.mk.injEq, Option.some.injEq] at h2
      obtain ⟨rfl, rfl⟩ := h2
      unfold Incoming.tryComplete at h1
      split at h1
      · simp at h1
      · cases hm : codecs.decMeta st.metadata with
        | none => simp [hm] at h1
        | some m =>
          simp only [hm, Run.bind_eq_ok, Run.ok.injEq, Option.some.injEq, Except.ok.injEq, Prod.mk.injEq] at h1
          obtain ⟨data, h3, rfl, rfl⟩ := h1
          exact ⟨st, rfl, rfl, rfl⟩

/-- More that does not open a transfer. -/
theorem Held.more {cs : List Content} {st : Incoming} (h : Held cs st) {c : Content} (hc : opens c = false) : Held (cs ++ [c]) st := by
  obtain ⟨a, first, b, h1, h2, h3, h4⟩ := h
  refine ⟨a, first, b ++ [c], by rw [h1]; simp, fun x hx => ?_, h3, fun k x hx => ?_⟩
  · rcases List.mem_append.1 hx with hx | hx
    · exact h2 x hx
    · rw [List.mem_singleton.1 hx]; exact hc
  · rcases h4 k x hx with h | ⟨id, h⟩
    · exact Or.inl h
    · exact Or.inr ⟨id, List.mem_append_left _ h⟩

/-- One request. -/
theorem Held.request {parts : Nat → List Content} {r r' : Receiver} {rcp snd did : Nat} {o : Option Content} {resp}
    (hs : ∀ st, r.state = some st → Held (parts st.sender) st) (h : r.processRequest ⟨rcp, snd, did, some o⟩ = .ok (r', resp)) :
    ∀ st, r'.state = some st → Held (parts st.sender ++ if snd = st.sender then o.toList else []) st := by
  unfold Receiver.processRequest at h
  simp only at h
  have idle : ∀ c : Option Content, (∀ x, c = some x → opens x = false) → r'.state = r.state →
      ∀ st, r'.state = some st → Held (parts st.sender ++ if snd = st.sender then c.toList else []) st := by
    intro c hc he st hst
    rw [he] at hst
    split
    · cases c with
      | none => simpa using hs st hst
      | some x => exact (hs st hst).more (hc x rfl)
    · simpa using hs st hst
  cases o with
  | none =>
    simp only [Run.ok.injEq, Prod.mk.injEq] at h
    exact idle none (by simp) (by rw [← h.1])
  | some c =>
    obtain ⟨sid, it⟩ := c
    cases it with
    | none =>
      simp only [Run.ok.injEq, Prod.mk.injEq] at h
      exact idle (some ⟨sid, none⟩) (by simp [opens]) (by rw [← h.1])
    | some it =>
      cases it with
      | header size metadata chunk =>
        simp only [Run.bind_eq_ok, Run.ok.injEq, Prod.mk.injEq] at h
        obtain ⟨st, h1, h2, _⟩ := h
        intro st' hst'
        rw [← h2] at hst'
        simp only [Option.some.injEq] at hst'
        subst hst'
        unfold Incoming.new at h1
        simp only [Run.bind_eq_ok, Run.ok.injEq] at h1
        obtain ⟨count, hcount, rfl⟩ := h1
        refine ⟨parts snd, chunk, [], by simp, by simp, hcount, fun k x hx => ?_⟩
        simp only [AMap.get_cons, AMap.get_nil] at hx
        split at hx
        · rename_i hi
          simp only [Option.some.injEq] at hx
          exact Or.inl ⟨by simpa using hi.symm, hx.symm⟩
        · simp at hx
      | chunk index contents =>
        cases hst : r.state with
        | none =>
          simp only [hst, Run.ok.injEq, Prod.mk.injEq] at h
          rw [← h.1, hst]; simp
        | some st =>
          simp only [hst, Run.ok.injEq, Prod.mk.injEq] at h
          intro st' hst'
          rw [← h.1] at hst'
          simp only [Option.some.injEq] at hst'
          have hopen : opens ⟨sid, some (.chunk index contents)⟩ = false := rfl
          by_cases hsnd : snd = st.sender
          · have hm : Held (parts st.sender ++ [⟨sid, some (.chunk index contents)⟩]) st := (hs st hst).more hopen
            unfold Incoming.acceptChunk at hst'
            rw [if_neg (by simpa using hsnd)] at hst'
            split at hst'
            · subst hst'
              simp only [hsnd, if_true, Option.toList_some]
              exact hm
            · subst hst'
              simp only [hsnd, if_true, Option.toList_some]
              obtain ⟨a, first, b, h1, h2, h3, h4⟩ := hm
              refine ⟨a, first, b, h1, h2, h3, fun k x hx => ?_⟩
              simp only [AMap.get_set] at hx
              split at hx
              · rename_i hi
                simp only [Option.some.injEq] at hx
                subst hx; subst hi
                right
                refine ⟨sid, ?_⟩
                rcases List.eq_nil_or_concat b with rfl | ⟨b', y, rfl⟩
                · obtain ⟨_, he⟩ := List.append_inj' h1 rfl
                  simp at he
                · have : parts st.sender ++ [(⟨sid, some (.chunk index contents)⟩ : Content)] =
                      (a ++ ⟨st.snapshotId, some (.header st.size st.metadata first)⟩ :: b') ++ [y] := by simpa using h1
                  obtain ⟨_, he⟩ := List.append_inj' this rfl
                  simp only [List.cons.injEq, and_true] at he
                  rw [he]; simp
              · exact h4 k x hx
          · unfold Incoming.acceptChunk at hst'
            rw [if_pos (by simpa using hsnd)] at hst'
            subst hst'
            simp only [hsnd, if_false, List.append_nil]
            exact hs st hst

/-! ## The invariant -/

/-- Where a snapshot given to consensus comes from. -/
def Brought (codecs : Codecs) (log : List (Comm.Spec.Ev S H)) (m : RaftMsg) : Prop :=
  (∃ to q s, m = ⟨to, q, .snapshot, some s, []⟩ ∧ Assembled codecs (pieces codecs (received q log)) s) ∨
  ∃ q, ∃ x ∈ received q log, x.kind = .system ∧ ∃ p : Comm.Payload, x.payload = some p ∧ codecs.decRaft p.contents = some m

theorem Brought.mono {log : List (Comm.Spec.Ev S H)} {m : RaftMsg} (h : Brought codecs log m) (l : List (Comm.Spec.Ev S H)) :
    Brought codecs (log ++ l) m := by
  rcases h with ⟨to, q, s, h1, h2⟩ | ⟨q, x, h1, h2⟩
  · refine Or.inl ⟨to, q, s, h1, h2.mono ?_⟩
    rw [received_append, pieces_append]
    exact List.prefix_append _ _
  · exact Or.inr ⟨q, x, by rw [received_append]; exact List.mem_append_left _ h1, h2⟩

theorem received_inn {q : Nat} {m : Comm.InMsg H} {f : Option S} {y : Except Comm.PalErr (Option (Comm.InMsg H))} :
    received q [(.inn m f y : Comm.Spec.Ev S H)] = match y with
      | .ok (some (.data x)) => if x.sender = q then [x] else []
      | _ => [] := by
  unfold received
  cases y with
  | error e => rfl
  | ok y =>
    cases y with
    | none => rfl
    | some y =>
      cases y with
      | data x => by_cases hq : x.sender = q <;> simp [hq]
      | handshake a b => rfl
      | other => rfl

/-- The channel layer has not been started and passed nothing up. -/
def Deaf (c : Channels P S E H) : Prop := Blank c ∧ ∀ q, received q c.log = []

theorem deaf_out {c c' : Channels P S E H} {u x} (hd : Deaf c) (h : Channels.processOut ops V c u = .ok (c', x)) : Deaf c' := by
  refine ⟨blank_processOut hd.1 h, fun q => ?_⟩
  rcases processOut_log h with ⟨_, f, hl⟩ | ⟨⟨f, e, hl⟩, _⟩ <;> rw [hl, received_append, hd.2 q] <;> rfl

theorem deaf_take {c c' : Channels P S E H} {out} (hd : Deaf c) (h : Channels.takeOut ops V c = .ok (c', out)) : Deaf c' :=
  ⟨(blank_takeOut hd.1 h).1, fun q => by rw [takeOut_log h, received_append, hd.2 q]; rfl⟩

theorem deaf_in {c c' : Channels P S E H} {m x} (hd : Deaf c) (h : Channels.processIn ops V c m = .ok (c', x)) :
    Deaf c' ∧ ∀ up, x ≠ .ok (some up) := by
  obtain ⟨h1, h2⟩ := blank_processIn hd.1 h
  refine ⟨⟨h1, fun q => ?_⟩, h2⟩
  obtain ⟨f, y, hl, hy⟩ := processIn_log h
  rw [hl, received_append, hd.2 q, received_inn]
  split
  · rename_i x
    exact absurd hy (h2 _)
  · rfl

/-- What is known about the snapshots a replica receives. -/
structure Coll (codecs : Codecs) (d : Driver σ (Simple ν Y) (Channels P S E H) H) : Prop where
  unknown : d.snap.role = .unknown → d.snap.leaderId = 0
  leading : d.snap.replicaId ≠ 0 → d.snap.role = .leader → d.snap.receiver.state = none
  following : d.snap.replicaId ≠ 0 → d.snap.role = .follower → d.snap.leaderId ≠ d.snap.replicaId
  deaf : d.state = .created → Deaf d.comm
  named : d.state ≠ .created → d.ephemeral = false → d.snap.replicaId = d.id ∨ Deaf d.comm ∧ stepped d.trace = [] ∧ d.snap.receiver.state = none
  held : d.snap.replicaId ≠ 0 → ∀ st, d.snap.receiver.state = some st → Held (pieces codecs (received st.sender d.comm.log)) st
  steps : d.snap.replicaId ≠ 0 → ∀ m ∈ stepped d.trace, m.type = .snapshot → Brought codecs d.comm.log m

/-- Nothing about snapshots changed. -/
theorem Coll.keep {d d' : Driver σ (Simple ν Y) (Channels P S E H) H} (h : Coll codecs d)
    (hl : ∃ l, d'.comm.log = d.comm.log ++ l ∧ ∀ r, pieces codecs (received r l) = []) (ht : ∃ t, d'.trace = d.trace ++ t ∧ stepped t = [])
    (hn : d'.snap.replicaId = d.snap.replicaId) (hr : d'.snap.role = d.snap.role) (hi : d'.snap.leaderId = d.snap.leaderId)
    (hrec : d'.snap.receiver.state = none ∨ d'.snap.receiver.state = d.snap.receiver.state)
    (hk : d'.state = d.state ∧ (d.state ≠ .created → d'.id = d.id ∧ d'.ephemeral = d.ephemeral)) (hdeaf : Deaf d.comm → Deaf d'.comm) :
    Coll codecs d' := by
  obtain ⟨l, hl, hg⟩ := hl
  obtain ⟨t, ht, hst⟩ := ht
  refine ⟨fun hu => hi.trans (h.unknown (hr ▸ hu)), fun h0 hle => ?_, fun h0 hfo => ?_, fun hs => hdeaf (h.deaf (hk.1 ▸ hs)),
    fun hs he => ?_, fun h0 st hst => ?_, fun h0 m hm hty => ?_⟩
  · rcases hrec with hrec | hrec
    · exact hrec
    · exact hrec.trans (h.leading (hn ▸ h0) (hr ▸ hle))
  · rw [hi, hn]; exact h.following (hn ▸ h0) (hr ▸ hfo)
  · have hs : d.state ≠ .created := hk.1 ▸ hs
    rcases h.named hs ((hk.2 hs).2 ▸ he) with h1 | h1
    · exact Or.inl (by rw [hn, h1, (hk.2 hs).1])
    · exact Or.inr ⟨hdeaf h1.1, by rw [ht, stepped_append, h1.2.1, hst]; rfl, hrec.elim id fun e => e.trans h1.2.2⟩
  · rcases hrec with hrec | hrec
    · rw [hrec] at hst; simp at hst
    · rw [hl, received_append, pieces_append, hg, List.append_nil]
      exact h.held (hn ▸ h0) st (hrec ▸ hst)
  · rw [ht, stepped_append, hst, List.append_nil] at hm
    rw [hl]
    exact (h.steps (hn ▸ h0) m hm hty).mono l

/-- Only the trace, the messages and the like. -/
theorem Coll.keep0 {d d' : Driver σ (Simple ν Y) (Channels P S E H) H} (h : Coll codecs d) (hc : d'.comm = d.comm)
    (ht : ∃ t, d'.trace = d.trace ++ t ∧ stepped t = []) (hn : d'.snap.replicaId = d.snap.replicaId) (hr : d'.snap.role = d.snap.role)
    (hi : d'.snap.leaderId = d.snap.leaderId)
    (hrec : d'.snap.receiver.state = none ∨ d'.snap.receiver.state = d.snap.receiver.state)
    (hk : d'.state = d.state ∧ (d.state ≠ .created → d'.id = d.id ∧ d'.ephemeral = d.ephemeral)) : Coll codecs d' :=
  h.keep ⟨[], by rw [hc, List.append_nil], fun _ => rfl⟩ ht hn hr hi hrec hk (by rw [hc]; exact id)

theorem step_one (m : RaftMsg) : stepped [(.step m : Drv.Ev H)] = [m] := rfl

theorem noRequest_piece {x : Comm.Data} (h : NoRequest (.data x : Comm.InMsg H)) : pieceOf codecs x = none := by
  obtain ⟨k, a, b, p⟩ := x
  cases k with
  | snapshotRequest i => exact h.elim
  | _ => rfl

/-- An answer without a request says nothing about transfers. -/
theorem dry_pieces {q : Nat} {m : Comm.InMsg H} {f : Option S} {y : Except Comm.PalErr (Option (Comm.InMsg H))}
    (h : Dry (palResult y)) : pieces codecs (received q [(.inn m f y : Comm.Spec.Ev S H)]) = [] := by
  rw [received_inn]
  split
  · rename_i x
    have := noRequest_piece (codecs := codecs) (h (.data x) rfl)
    split
    · simp [pieces, this]
    · rfl
  · rfl

theorem noRequest_dry {c c' : Channels P S E H} {m x} (hb : Recorded ops c) (hm : NoRequest m)
    (h : Channels.processIn ops V c m = .ok (c', x)) : Dry x := by
  obtain ⟨me, R, T, hh⟩ := hb
  simp only [Channels.processIn, Run.bind_eq_ok, Run.ok.injEq, Prod.mk.injEq] at h
  obtain ⟨⟨m', y⟩, h1, _, rfl⟩ := h
  intro up hup
  cases y with
  | error e => simp [palResult] at hup
  | ok y =>
    simp only [palResult, Except.ok.injEq] at hup
    subst hup
    obtain ⟨d, cipher, e, b, rfl, _, _, _, _, rfl⟩ := Comm.C19_only_decrypted hh h1
    obtain ⟨k, a, b, p⟩ := d
    cases k with
    | snapshotRequest i => exact hm.elim
    | _ => trivial

theorem palResult_ok {α : Type} {y : Except Comm.PalErr α} {a : α} (h : palResult y = .ok a) : y = .ok a := by
  cases y with
  | error e => simp [palResult] at h
  | ok b => simpa [palResult] using h

theorem clusterChange_facts {p p' : Processor} {l t rs u} (h : p.clusterChange l t rs = .ok (p', u)) :
    p'.replicaId = p.replicaId ∧ p'.leaderId = l ∧ p'.role ≠ .unknown ∧ (p'.role = .leader ↔ p.replicaId = l) ∧
    (p.role = .follower → p.leaderId ≠ l → p'.receiver.state = none) := by
  unfold Processor.clusterChange at h
  simp only at h
  split at h
  · simp at h
  · rename_i hr
    simp only [Run.ok.injEq, Prod.mk.injEq] at h
    obtain ⟨rfl, _⟩ := h
    by_cases h2 : (p.leaderId ≠ l ∨ p.leaderTerm ≠ t ∨ p.replicaId ∉ rs)
    · simp only [if_pos h2]
      by_cases h1 : p.replicaId = l
      · simp only [if_pos h1]
        exact ⟨by simp, by simp, by simp, by simp [h1], fun _ _ => rfl⟩
      · simp only [if_neg h1]
        exact ⟨by simp, by simp, by simp [hr], by simp [h1, hr], fun _ _ => rfl⟩
    · have h3 : p.leaderId = l := by
        by_cases h3 : p.leaderId = l
        · exact h3
        · exact absurd (Or.inl h3) h2
      simp only [if_neg h2]
      by_cases h1 : p.replicaId = l
      · simp only [if_pos h1]
        exact ⟨by simp, by simp, by simp, by simp [h1], fun _ h => absurd h3 h⟩
      · simp only [if_neg h1]
        exact ⟨by simp, by simp, by simp [hr], by simp [h1, hr], fun _ h => absurd h3 h⟩
  · rename_i hr
    simp only [Run.ok.injEq, Prod.mk.injEq] at h
    obtain ⟨rfl, _⟩ := h
    by_cases h1 : p.replicaId = l
    · simp only [ne_eq, h1, not_true_eq_false, if_false]
      exact ⟨trivial, trivial, by simp [hr], by simp [hr], by simp [hr]⟩
    · simp only [ne_eq, h1, not_false_eq_true, if_true]
      exact ⟨trivial, trivial, by simp, by simp, by simp [hr]⟩

theorem coll_cluster {d : Driver σ (Simple ν Y) (Channels P S E H) H} {l t rs p u} (hp : d.snap.clusterChange l t rs = .ok (p, u))
    (h : Coll codecs d) : Coll codecs { d with snap := p } := by
  obtain ⟨h1, h2, h3, h4, h5⟩ := clusterChange_facts hp
  have hst := clusterChange_state hp
  have hrole := (clusterChange_sender hp).1
  refine ⟨fun hu => absurd hu h3, fun h0 hle => ?_, fun h0 hfo hl => ?_, h.deaf, fun hs he => (h.named hs he).imp (fun h => h1.trans h) fun hd => ⟨hd.1, hd.2.1, hst.elim id fun e => e.trans hd.2.2⟩, fun h0 st hs => ?_,
    fun h0 => h.steps (h1 ▸ h0)⟩
  · have h0 : d.snap.replicaId ≠ 0 := h1 ▸ h0
    have hl : d.snap.replicaId = l := h4.1 hle
    cases hr : d.snap.role with
    | unknown => exact absurd hr hrole
    | leader =>
      rcases hst with hst | hst
      · exact hst
      · exact hst.trans (h.leading h0 hr)
    | follower => exact h5 hr (by rw [← hl]; exact h.following h0 hr)
  · simp only at hfo hl
    have : p.role = .leader := h4.2 (by rw [← h1, ← hl, h2])
    rw [hfo] at this
    simp at this
  · rcases hst with hst | hst
    · simp only at hs
      rw [hst] at hs; simp at hs
    · exact h.held (h1 ▸ h0) st (hst ▸ hs)

theorem guarded_busy {d : Driver σ (Simple ν Y) (Channels P S E H) H} {m c' up} (h : Guarded ops codecs d)
    (hc : (sys A N ops V codecs).C.processIn d.comm m = .ok (c', .ok (some up))) : Recorded ops d.comm := by
  rcases h.either with q | b
  · exact absurd rfl ((blank_processIn q.blank hc).2 up)
  · exact b.recorded

theorem stepped_out (ms : List (Comm.OutMsg H)) : stepped (ms.map fun m => (.out (.comm m) : Drv.Ev H)) = [] := by
  induction ms with
  | nil => rfl
  | cons a l ih => simp [stepped]

/-- The messages passed up in one call. -/
theorem inn_received {c c' : Channels P S E H} {m x up} (hc : Channels.processIn ops V c m = .ok (c', x)) (hx : x = .ok (some (.data up))) :
    ∃ l, c'.log = c.log ++ l ∧ ∀ q, received q l = if up.sender = q then [up] else [] := by
  obtain ⟨f, y, hl, hy⟩ := processIn_log hc
  rw [hx] at hy
  have := palResult_ok hy.symm
  subst this
  exact ⟨_, hl, fun q => received_inn⟩

theorem deaf_tick {c : Channels P S E H} (h : Deaf c) : Deaf ((sys A N ops V codecs).C.tick c) :=
  ⟨by show c.module.tick = _; rw [h.1]; rfl, fun q => by
    show received q (c.log ++ [.tick]) = []
    rw [received_append, h.2 q]; rfl⟩

theorem deaf_cluster (ids : List Nat) {c : Channels P S E H} (h : Deaf c) : Deaf ((sys A N ops V codecs).C.clusterChange c ids) :=
  ⟨by
    show c.module.clusterChange ids = _
    rw [h.1]
    unfold Comm.Module.clusterChange
    split <;> rfl, fun q => by
    show received q (c.log ++ [.cluster ids]) = []
    rw [received_append, h.2 q]; rfl⟩

theorem coll_leaves : Leaves (sys A N ops V codecs) (fun d => Guarded (σ := σ) (ν := ν) (Y := Y) (P := P) ops codecs d ∧ Coll codecs d) where
  quiet {d d'} hc h := by
    refine ⟨guarded_leaves (A := A) (N := N) (V := V) |>.quiet hc h.1, h.2.keep0 hc.comm ⟨[], by rw [hc.trace, List.append_nil], rfl⟩ (by rw [hc.snap])
      (by rw [hc.snap]) (by rw [hc.snap]) (by rw [hc.snap]; exact Or.inr rfl) ⟨hc.state, fun hs => ?_⟩⟩
    exact ⟨hc.id.resolve_right hs, hc.ephemeral.resolve_right hs⟩
  actor he h := ⟨guarded_leaves (A := A) (N := N) (V := V) |>.actor he h.1,
    h.2.keep0 rfl ⟨_, rfl, (ActorEv.mute he).step⟩ rfl rfl rfl (Or.inr rfl) ⟨rfl, fun _ => ⟨rfl, rfl⟩⟩⟩
  host he h := ⟨guarded_leaves (A := A) (N := N) (V := V) |>.host he h.1,
    h.2.keep0 rfl ⟨_, rfl, rfl⟩ rfl rfl rfl (Or.inr rfl) ⟨rfl, fun _ => ⟨rfl, rfl⟩⟩⟩
  raft hc hl hr h := ⟨guarded_leaves (A := A) (N := N) (V := V) |>.raft hc hl hr h.1,
    h.2.keep0 rfl ⟨_, rfl, (RaftCall.mute hc).step⟩ rfl rfl rfl (Or.inr rfl) ⟨rfl, fun _ => ⟨rfl, rfl⟩⟩⟩
  init hs hc h := ⟨guarded_leaves (A := A) (N := N) (V := V) |>.init hs hc h.1,
    h.2.keep0 rfl ⟨_, rfl, rfl⟩ rfl rfl rfl (Or.inr rfl) ⟨rfl, fun _ => ⟨rfl, rfl⟩⟩⟩
  started {d retry timeout _} hs hn h := by
    have q := h.1.created hs
    refine ⟨guarded_leaves (A := A) (N := N) (V := V) |>.started hs hn h.1, h.2.unknown, h.2.leading, h.2.following, fun hx => by simp at hx, fun _ he => Or.inl (hn he),
      fun _ st hst => ?_, fun _ m hm => ?_⟩
    · rw [show d.snap.receiver.state = none from q.receiver] at hst; simp at hst
    · rw [show stepped _ = _ from q.steps] at hm; simp at hm
  stopped {d} h := by
    refine ⟨guarded_leaves (A := A) (N := N) (V := V) |>.stopped h.1, h.2.unknown, h.2.leading, h.2.following, fun hx => by simp at hx, fun _ he => ?_, h.2.held, h.2.steps⟩
    by_cases hs : d.state = .created
    · exact Or.inr ⟨h.2.deaf hs, (h.1.created hs).steps, (h.1.created hs).receiver⟩
    · exact h.2.named hs he
  snapInit {d cfg p} hs hp h := by
    refine ⟨guarded_leaves (A := A) (N := N) (V := V) |>.snapInit hs hp h.1, ?_⟩
    have q := h.1.created hs
    unfold Processor.init at hp
    split at hp
    · simp at hp
    · rename_i hr
      simp only [ne_eq, Decidable.not_not] at hr
      simp only [Run.ok.injEq] at hp
      subst hp
      refine ⟨by simp, by simp, fun h0 _ => ?_, h.2.deaf, fun hne => absurd hs hne, fun _ st hst => ?_, fun _ m hm => ?_⟩
      · simp only [h.2.unknown hr]
        exact Ne.symm h0
      · rw [show (d.snap.receiver.init d.id).state = none from q.receiver] at hst; simp at hst
      · rw [show stepped _ = _ from q.steps] at hm; simp at hm
  snapCluster hp h := ⟨guarded_leaves (A := A) (N := N) (V := V) |>.snapCluster hp h.1, coll_cluster hp h.2⟩
  sender hs h := ⟨guarded_leaves (A := A) (N := N) (V := V) |>.sender hs h.1,
    h.2.keep0 rfl ⟨[], by simp, rfl⟩ rfl rfl rfl (Or.inr rfl) ⟨rfl, fun _ => ⟨rfl, rfl⟩⟩⟩
  stashed hm hp h := ⟨guarded_leaves (A := A) (N := N) (V := V) |>.stashed hm hp h.1,
    h.2.keep0 rfl ⟨[], by simp, rfl⟩ rfl rfl rfl (Or.inr rfl) ⟨rfl, fun _ => ⟨rfl, rfl⟩⟩⟩
  sending hd h := Sending.run (I := fun d => Guarded ops codecs d ∧ Coll codecs d)
    { drop := fun h => ⟨h.1.same rfl rfl rfl (Or.inr rfl) id, h.2.keep0 rfl ⟨[], by simp, rfl⟩ rfl rfl rfl (Or.inr rfl) ⟨rfl, fun _ => ⟨rfl, rfl⟩⟩⟩
      sender := fun h => ⟨h.1.same rfl rfl rfl (Or.inr rfl) id, h.2.keep0 rfl ⟨[], by simp, rfl⟩ rfl rfl rfl (Or.inr rfl) ⟨rfl, fun _ => ⟨rfl, rfl⟩⟩⟩
      report := fun _ h => ⟨h.1.same rfl (by rw [stepped_append]; simp [stepped])
        (by rw [dataMessages_append]; simp [dataMessages, DrvSpec.outMessages]) (Or.inr rfl) id,
        h.2.keep0 rfl ⟨_, rfl, rfl⟩ rfl rfl rfl (Or.inr rfl) ⟨rfl, fun _ => ⟨rfl, rfl⟩⟩⟩
      commOut := fun hc h => ⟨guarded_out hc h.1, by
        rcases processOut_log hc with ⟨_, f, hl⟩ | ⟨⟨f, e, hl⟩, _⟩
        · exact h.2.keep ⟨_, hl, fun _ => rfl⟩ ⟨_, rfl, rfl⟩ rfl rfl rfl (Or.inr rfl) ⟨rfl, fun _ => ⟨rfl, rfl⟩⟩ (fun hd => deaf_out hd hc)
        · exact h.2.keep ⟨_, hl, fun _ => rfl⟩ ⟨_, rfl, rfl⟩ rfl rfl rfl (Or.inr rfl) ⟨rfl, fun _ => ⟨rfl, rfl⟩⟩ (fun hd => deaf_out hd hc)⟩ } hd h
  commOut _ hc h := ⟨guarded_out hc h.1, by
    rcases processOut_log hc with ⟨_, f, hl⟩ | ⟨⟨f, e, hl⟩, _⟩
    · exact h.2.keep ⟨_, hl, fun _ => rfl⟩ ⟨_, rfl, rfl⟩ rfl rfl rfl (Or.inr rfl) ⟨rfl, fun _ => ⟨rfl, rfl⟩⟩ (fun hd => deaf_out hd hc)
    · exact h.2.keep ⟨_, hl, fun _ => rfl⟩ ⟨_, rfl, rfl⟩ rfl rfl rfl (Or.inr rfl) ⟨rfl, fun _ => ⟨rfl, rfl⟩⟩ (fun hd => deaf_out hd hc)⟩
  commIn {d m c' x} hm hc h := by
    refine ⟨guarded_leaves (A := A) (N := N) (V := V) |>.commIn hm hc h.1, ?_⟩
    have dry : Dry x → Coll codecs { d with comm := c', trace := d.trace ++ [.commIn m] } := fun hd => by
      obtain ⟨f, y, hl, hy⟩ := processIn_log hc
      exact h.2.keep ⟨_, hl, fun r => dry_pieces (hy ▸ hd)⟩ ⟨_, rfl, rfl⟩ rfl rfl rfl (Or.inr rfl) ⟨rfl, fun _ => ⟨rfl, rfl⟩⟩ fun hd => (deaf_in hd hc).1
    rcases hm with hm | hm | hm
    · refine dry ?_
      rcases h.1.either with q | b
      · exact fun up hup => absurd hup ((blank_processIn q.blank hc).2 up)
      · exact noRequest_dry b.recorded hm hc
    · exact dry hm
    · obtain ⟨f, y, hl, hy⟩ := processIn_log hc
      refine ⟨h.2.unknown, h.2.leading, h.2.following, fun hs => (deaf_in (h.2.deaf hs) hc).1,
        fun hs he => (h.2.named hs he).imp id fun hd => ⟨(deaf_in hd.1 hc).1, by simp only [stepped_append, hd.2.1]; rfl, hd.2.2⟩, fun h0 st hst => ?_, fun h0 m' hm' hty => ?_⟩
      · rw [show d.snap.receiver.state = none from h.2.leading h0 hm] at hst; simp at hst
      · simp only [stepped_append] at hm'
        rw [show stepped [(Drv.Ev.commIn m : Drv.Ev H)] = [] from rfl, List.append_nil] at hm'
        show Brought codecs c'.log m'
        rw [hl]
        exact (h.2.steps h0 m' hm' hty).mono _
  commTick h := ⟨guarded_leaves (A := A) (N := N) (V := V) |>.commTick h.1,
    h.2.keep ⟨[.tick], rfl, fun _ => rfl⟩ ⟨_, rfl, rfl⟩ rfl rfl rfl (Or.inr rfl) ⟨rfl, fun _ => ⟨rfl, rfl⟩⟩ (deaf_tick (A := A) (N := N) (ops := ops) (V := V) (codecs := codecs))⟩
  commCluster {d} h := ⟨guarded_leaves (A := A) (N := N) (V := V) |>.commCluster h.1,
    h.2.keep ⟨[.cluster d.conf.voters], rfl, fun _ => rfl⟩ ⟨_, rfl, rfl⟩ rfl rfl rfl (Or.inr rfl) ⟨rfl, fun _ => ⟨rfl, rfl⟩⟩ (deaf_cluster (A := A) (N := N) (ops := ops) (V := V) (codecs := codecs) _)⟩
  take {d c' out} hc h := ⟨guarded_leaves (A := A) (N := N) (V := V) |>.take hc h.1,
    h.2.keep ⟨_, takeOut_log hc, fun _ => rfl⟩ ⟨_, rfl, stepped_out out⟩ rfl rfl rfl (Or.inr rfl) ⟨rfl, fun _ => ⟨rfl, rfl⟩⟩ fun hd => deaf_take hd hc⟩
  system {d m c' rcp snd p rm r' y} hc hd hr h := by
    refine ⟨guarded_leaves (A := A) (N := N) (V := V) |>.system hc hd hr h.1, ?_⟩
    obtain ⟨l, hl, hg⟩ := inn_received hc rfl
    have hp : ∀ q, pieces codecs (received q l) = [] := fun q => by
      rw [hg q]
      split <;> rfl
    have h1 : Coll codecs { d with comm := c', trace := d.trace ++ [.commIn m] } :=
      h.2.keep ⟨_, hl, hp⟩ ⟨_, rfl, rfl⟩ rfl rfl rfl (Or.inr rfl) ⟨rfl, fun _ => ⟨rfl, rfl⟩⟩ fun hd => (deaf_in hd hc).1
    refine ⟨h1.unknown, h1.leading, h1.following, h1.deaf, fun hs he => (h.2.named hs he).imp id fun hd => absurd rfl ((deaf_in hd.1 hc).2 _), h1.held, fun h0 m' hm' hty => ?_⟩
    simp only [stepped_append, step_one, List.mem_append, List.mem_singleton] at hm'
    rcases hm' with hm' | rfl
    · exact h1.steps h0 m' (by simpa [stepped_append] using hm') hty
    · refine Or.inr ⟨snd, ⟨.system, rcp, snd, some p⟩, ?_, rfl, p, rfl, hd⟩
      show _ ∈ received snd c'.log
      rw [hl, received_append, hg]
      simp
  chunk {d m c' did rcp snd pl r resp} he hro hc hr h := by
    refine ⟨guarded_leaves (A := A) (N := N) (V := V) |>.chunk he hro hc hr h.1, ?_⟩
    obtain ⟨l, hl, hg⟩ := inn_received hc rfl
    obtain ⟨_, _, h3⟩ := recorded_processIn (guarded_busy h.1 hc) hc
    obtain ⟨b, rfl, _⟩ := h3 _ _ _ _ rfl
    have hp : ∀ q, pieces codecs (received q l) = if snd = q then (codecs.decContent b).toList else [] := fun q => by
      rw [hg q]
      simp only
      split
      · simp only [pieces, List.filterMap_cons, List.filterMap_nil, pieceOf]
        cases codecs.decContent b <;> rfl
      · rfl
    refine ⟨h.2.unknown, fun _ hle => ?_, h.2.following, fun hs => (deaf_in (h.2.deaf hs) hc).1,
      fun hs he => (h.2.named hs he).imp id fun hd => absurd rfl ((deaf_in hd.1 hc).2 _), fun h0 st hst => ?_, fun h0 m' hm' hty => ?_⟩
    · simp only at hle
      rw [hro] at hle; simp at hle
    · show Held (pieces codecs (received st.sender c'.log)) st
      rw [hl, received_append, pieces_append, hp]
      exact Held.request (parts := fun q => pieces codecs (received q d.comm.log)) (h.2.held h0) hr st hst
    · simp only [stepped_append] at hm'
      rw [show stepped [(Drv.Ev.commIn m : Drv.Ev H)] = [] from rfl, List.append_nil] at hm'
      show Brought codecs c'.log m'
      rw [hl]
      exact (h.2.steps h0 m' hm' hty).mono _
  complete hp h := ⟨guarded_leaves (A := A) (N := N) (V := V) |>.complete hp h.1,
    h.2.keep0 rfl ⟨[], by simp, rfl⟩ rfl rfl rfl (tryComplete_state hp) ⟨rfl, fun _ => ⟨rfl, rfl⟩⟩⟩
  install {d r snd sn r' y} hp hr h := by
    refine ⟨guarded_leaves (A := A) (N := N) (V := V) |>.install hp hr h.1, ?_⟩
    obtain ⟨st, hst, hsnd, hnone⟩ := tryComplete_sender hp
    refine ⟨h.2.unknown, fun _ _ => hnone, h.2.following, h.2.deaf, fun hs he => (h.2.named hs he).imp id fun hd => (by rw [hst] at hd; simp at hd), fun _ st' hst' => ?_, fun h0 m' hm' hty => ?_⟩
    · simp only [hnone] at hst'; simp at hst'
    · simp only [stepped_append, step_one, List.mem_append, List.mem_singleton] at hm'
      rcases hm' with hm' | rfl
      · exact h.2.steps h0 m' hm' hty
      · refine Or.inl ⟨d.id, snd, sn, rfl, Held.complete (r := d.snap.receiver) (fun st' hst' => ?_) hp⟩
        have := h.2.held h0 st' hst'
        rw [hst] at hst'
        simp only [Option.some.injEq] at hst'
        rw [← hst', hsnd] at this
        rw [← hst']
        exact this

theorem coll_fresh (a : σ) (p : P) : Coll (ν := ν) (Y := Y) (S := S) (E := E) (H := H) codecs (fresh a p) :=
  ⟨fun _ => rfl, fun h => absurd rfl h, fun h => absurd rfl h, fun _ => ⟨rfl, fun _ => rfl⟩, fun h => absurd rfl h, fun h => absurd rfl h, fun h => absurd rfl h⟩

end TCP.Replica
