import Verif.Proofs.DriverCalls
import Verif.Spec.DriverLog

/-! # The log reaches the actor in order, exactly once -/

namespace TCP.Drv

open TCP TCP.ActorSpec TCP.DrvSpec

variable {σ ρ κ H α β s : Type} {S : Sys σ ρ κ H}

/-! ## Trails -/

theorem trail_append {R : Ev H → s → s → Prop} {a b : List (Ev H)} {x z : s} :
    Trail R (a ++ b) x z ↔ ∃ y, Trail R a x y ∧ Trail R b y z := by
  induction a generalizing x with
  | nil => simp [Trail]
  | cons e a ih =>
    simp only [List.cons_append, Trail, ih]
    constructor
    · rintro ⟨y, h1, w, h2, h3⟩; exact ⟨w, ⟨y, h1, h2⟩, h3⟩
    · rintro ⟨w, ⟨y, h1, h2⟩, h3⟩; exact ⟨y, h1, w, h2, h3⟩

/-- Kinds of interactions that deliver the log. -/
def feedKinds : List K := [.raftInit, .ready, .light]
/-- Kinds of interactions in which the actor sees the log. -/
def obsKinds : List K := [.apply, .load]
/-- Kinds of interactions about proposals. -/
def proposalKinds : List K := [.command, .propose]

theorem feed_other {dec : Bytes → Option LogEntry} {id : Nat} {e : Ev H} (h : kind e ∉ feedKinds) (x : List Obs × Nat) : Feed dec id e x x := by
  cases e with
  | raftInit => exact absurd (by simp [kind, feedKinds]) h
  | ready => exact absurd (by simp [kind, feedKinds]) h
  | light => exact absurd (by simp [kind, feedKinds]) h
  | _ => rfl

theorem trail_other {dec : Bytes → Option LogEntry} {id : Nat} {t : List (Ev H)} (h : ∀ e ∈ t, kind e ∉ feedKinds) (x : List Obs × Nat) :
    Trail (Feed dec id) t x x := by
  induction t with
  | nil => rfl
  | cons e t ih => exact ⟨x, feed_other (h e List.mem_cons_self) x, ih fun y hy => h y (List.mem_cons_of_mem _ hy)⟩

theorem observed_append (a b : List (Ev H)) : observed (a ++ b) = observed a ++ observed b := List.filterMap_append

theorem observed_none {t : List (Ev H)} (h : ∀ e ∈ t, kind e ∉ obsKinds) : observed t = [] := by
  induction t with
  | nil => rfl
  | cons e t ih =>
    rw [show e :: t = [e] ++ t from rfl, observed_append, ih fun y hy => h y (List.mem_cons_of_mem _ hy), List.append_nil]
    have he := h e List.mem_cons_self
    cases e with
    | actor c =>
      cases c with
      | apply => exact absurd (by simp [kind, obsKinds]) he
      | load => exact absurd (by simp [kind, obsKinds]) he
      | _ => rfl
    | _ => rfl

theorem requested_none {t : List (Ev H)} (h : ∀ e ∈ t, kind e ∉ proposalKinds) :
    t.filterMap requested = [] ∧ t.filterMap proposal = [] := by
  induction t with
  | nil => exact ⟨rfl, rfl⟩
  | cons e t ih =>
    obtain ⟨h1, h2⟩ := ih fun y hy => h y (List.mem_cons_of_mem _ hy)
    have he := h e List.mem_cons_self
    have : requested e = none ∧ proposal e = none := by
      cases e with
      | actor c =>
        cases c with
        | command => exact absurd (by simp [kind, proposalKinds]) he
        | _ => exact ⟨rfl, rfl⟩
      | propose => exact absurd (by simp [kind, proposalKinds]) he
      | _ => exact ⟨rfl, rfl⟩
    simp [this.1, this.2, h1, h2]

/-- Kinds of interactions in which the actor may fail and that do not concern the log. -/
def failKinds : List K := [.save, .actorInit]

/-- A call of the actor that did not fail, or any other interaction. -/
def Clean : Ev H → Prop
  | .actor (.command _ _ (.error _)) | .actor (.apply _ _ _ (.error _)) | .actor (.save _ (.error _)) | .actor (.load _ _ (.error _))
  | .actorInit _ (.error _) => False
  | _ => True

theorem clean_of_kind {e : Ev H} (h : kind e ∉ obsKinds ++ proposalKinds ++ failKinds) : Clean e := by
  cases e with
  | actor c => cases c <;> exact absurd (by simp [kind, obsKinds, proposalKinds, failKinds]) h
  | actorInit => exact absurd (by simp [kind, failKinds]) h
  | _ => trivial

/-! ## What a step does to the log -/

/-- The encoding of a proposal of a replica. -/
def encode (S : Sys σ ρ κ H) (id : Nat) (ev : ActorEvent) : Bytes := S.E.encEntry ⟨some (id, ev.correlationId), ev.contents⟩

/-- What happened between two states agrees with what was delivered and requested. -/
structure Moves (S : Sys σ ρ κ H) (d d' : Driver σ ρ κ H) : Prop where
  id : d'.id = d.id
  run : ∃ new, d'.trace = d.trace ++ new ∧
    (∀ o, Trail (Feed S.E.decEntry d.id) new (o, d.applied) (o ++ observed new, d'.applied)) ∧
    d.proposals ++ (new.filterMap requested).map (encode S d.id) = new.filterMap proposal ++ d'.proposals ∧ ∀ e ∈ new, Clean e

theorem Moves.trans {a b c : Driver σ ρ κ H} (h : Moves S a b) (g : Moves S b c) : Moves S a c := by
  obtain ⟨i1, n1, t1, f1, p1, c1⟩ := h
  obtain ⟨i2, n2, t2, f2, p2, c2⟩ := g
  refine ⟨i2.trans i1, n1 ++ n2, by rw [t2, t1, List.append_assoc], fun o => ?_, ?_,
    fun e he => (List.mem_append.1 he).elim (c1 e) (c2 e)⟩
  · refine trail_append.2 ⟨_, f1 o, ?_⟩
    have := f2 (o ++ observed n1)
    rw [i1] at this
    rw [observed_append, ← List.append_assoc]
    exact this
  · rw [i1] at p2
    rw [List.filterMap_append, List.filterMap_append, List.map_append, ← List.append_assoc, p1, List.append_assoc, p2, List.append_assoc]

/-- Index reached, identity and pending proposals. -/
def Mark (x y : Nat) (p : List Bytes) (d : Driver σ ρ κ H) : Prop := d.applied = x ∧ d.id = y ∧ d.proposals = p

/-- A method that has nothing to do with the log. -/
structure Neutral (m : M (Driver σ ρ κ H) α) : Prop where
  pres : ∀ x y p, Pres (Mark x y p) m
  adds : ∃ L, Adds L m ∧ ∀ k ∈ feedKinds ++ obsKinds ++ proposalKinds ++ failKinds, k ∉ L

theorem moves_plain {d d' : Driver σ ρ κ H} {new : List (Ev H)} (ha : d'.applied = d.applied) (hi : d'.id = d.id)
    (hp : d'.proposals = d.proposals) (ht : d'.trace = d.trace ++ new)
    (hn : ∀ e ∈ new, kind e ∉ feedKinds ++ obsKinds ++ proposalKinds ++ failKinds) : Moves S d d' := by
  have h1 : ∀ e ∈ new, kind e ∉ feedKinds := fun e he h => hn e he (by simp [h])
  have h2 : ∀ e ∈ new, kind e ∉ obsKinds := fun e he h => hn e he (by simp [h])
  have h3 : ∀ e ∈ new, kind e ∉ proposalKinds := fun e he h => hn e he (by simp [h])
  obtain ⟨r1, r2⟩ := requested_none h3
  refine ⟨hi, new, ht, fun o => ?_, by simp [r1, r2, hp], fun e he => clean_of_kind fun h => hn e he ?_⟩
  rotate_left
  · simp only [List.mem_append] at h ⊢
    rcases h with (h | h) | h <;> simp [h]
  rw [observed_none h2, List.append_nil, ha]
  exact trail_other h1 _

theorem Neutral.moves {m : M (Driver σ ρ κ H) α} (h : Neutral m) {d d' : Driver σ ρ κ H} {r} (hr : m d = .ok (d', r)) : Moves S d d' := by
  obtain ⟨ha, hi, hp⟩ := (h.pres d.applied d.id d.proposals).run _ _ _ ⟨rfl, rfl, rfl⟩ hr
  obtain ⟨L, hL, hk⟩ := h.adds
  obtain ⟨new, ht, hn⟩ := hL.run _ _ _ hr
  exact moves_plain ha hi hp ht fun e he hk' => hk _ hk' (hn e he)

/-! ## Sorting -/

theorem insertByIndex_perm (e : Entry) (es : List Entry) : (insertByIndex e es).Perm (e :: es) := by
  induction es with
  | nil => exact .refl _
  | cons x xs ih =>
    unfold insertByIndex
    split
    · exact .refl _
    · exact (List.Perm.cons _ ih).trans (List.Perm.swap ..)

theorem insertByIndex_sorted {e : Entry} {es : List Entry} (h : es.Pairwise fun a b => a.index ≤ b.index) :
    (insertByIndex e es).Pairwise fun a b => a.index ≤ b.index := by
  induction es with
  | nil => simp [insertByIndex]
  | cons x xs ih =>
    unfold insertByIndex
    rw [List.pairwise_cons] at h
    split
    · rename_i hlt
      rw [List.pairwise_cons, List.pairwise_cons]
      refine ⟨fun y hy => ?_, h⟩
      rcases List.mem_cons.1 hy with rfl | hy
      · omega
      · have := h.1 y hy; omega
    · rename_i hge
      rw [List.pairwise_cons]
      refine ⟨fun y hy => ?_, ih h.2⟩
      rcases List.mem_cons.1 ((insertByIndex_perm e xs).mem_iff.1 hy) with rfl | hy
      · omega
      · exact h.1 y hy

theorem sortByIndex_inOrder (es : List Entry) : InOrder (sortByIndex es) es := by
  unfold sortByIndex
  have key : ∀ (l acc : List Entry), (acc.Pairwise fun a b => a.index ≤ b.index) →
      InOrder (l.foldl (fun acc e => insertByIndex e acc) acc) (l ++ acc) := by
    intro l
    induction l with
    | nil => exact fun acc h => ⟨.refl _, h⟩
    | cons e l ih =>
      intro acc h
      obtain ⟨h1, h2⟩ := ih (insertByIndex e acc) (insertByIndex_sorted h)
      refine ⟨h1.trans ?_, h2⟩
      exact ((insertByIndex_perm e acc).append_left l).trans List.perm_middle
  have := key es [] .nil
  rwa [List.append_nil] at this

/-! ## Applying entries -/

theorem orFail_ok {ε : Type} {r : Except ε α} {e : PalErr} {d d' : Driver σ ρ κ H} {a : α} (h : M.orFail r e d = .ok (d', .ok a)) :
    d' = d ∧ r = .ok a := by
  cases r with
  | ok x =>
    simp only [M.orFail, M.pure, Run.ok.injEq, Prod.mk.injEq, Except.ok.injEq] at h
    exact ⟨h.1.symm, by rw [h.2]⟩
  | error x => simp [M.orFail, M.fail] at h

theorem callRaft_ok {f : ρ → Run (ρ × β)} {ev : β → Ev H} {d d' : Driver σ ρ κ H} {b : β} (h : callRaft f ev d = .ok (d', .ok b)) :
    ∃ r, f d.raft = .ok (r, b) ∧ d' = { d with raft := r, trace := d.trace ++ [ev b] } := by
  simp only [callRaft, Run.bind_eq_ok, Run.ok.injEq, Prod.mk.injEq, Except.ok.injEq] at h
  obtain ⟨⟨r, x⟩, h1, h2, h3⟩ := h
  simp only at h2 h3
  subst h3
  exact ⟨r, h1, h2.symm⟩

theorem callActor_ok {f : ActorCtx → σ → Run (σ × β)} {ev : ActorCtx → β → Ev H} {d d' : Driver σ ρ κ H} {b : β}
    (h : callActor f ev d = .ok (d', .ok b)) :
    ∃ a, f d.ctx d.actor = .ok (a, b) ∧ d' = { d with actor := a, trace := d.trace ++ [ev d.ctx b] } := by
  simp only [callActor, Run.bind_eq_ok, Run.ok.injEq, Prod.mk.injEq, Except.ok.injEq] at h
  obtain ⟨⟨r, x⟩, h1, h2, h3⟩ := h
  simp only at h2 h3
  subst h3
  exact ⟨r, h1, h2.symm⟩

theorem modify_ok {f : Driver σ ρ κ H → Driver σ ρ κ H} {d d' : Driver σ ρ κ H} {a : Unit} (h : M.modify f d = .ok (d', .ok a)) :
    d' = f d := by
  simp only [M.modify, Run.ok.injEq, Prod.mk.injEq] at h
  exact h.1.symm

/-- Applying an entry shows the actor its payload. -/
theorem applyEntry_ok {e : Entry} {d d' : Driver σ ρ κ H} (h : applyEntry S e d = .ok (d', .ok ())) :
    d'.applied = e.index ∧ d'.id = d.id ∧ d'.proposals = d.proposals ∧ ∃ new, d'.trace = d.trace ++ new ∧
      payload S.E.decEntry d.id e = some (observed new) ∧ (∀ x ∈ new, kind x ∈ [K.applyChange, .apply, .oApp]) ∧ ∀ x ∈ new, Clean x := by
  unfold applyEntry at h
  obtain ⟨d1, _, h1, h2⟩ := M.bind_okOk h
  have e1 := modify_ok h1
  unfold payload
  by_cases hemp : e.data = []
  · rw [if_pos (List.isEmpty_iff.2 hemp)] at h2
    simp only [M.pure_def, M.pure, Run.ok.injEq, Prod.mk.injEq, and_true] at h2
    rw [if_pos hemp, ← h2, e1]
    exact ⟨rfl, rfl, rfl, [], by simp, rfl, by simp, by simp⟩
  · rw [if_neg fun hc => hemp (List.isEmpty_iff.1 hc)] at h2
    rw [if_neg hemp]
    by_cases hconf : e.type = .confChange
    · rw [if_pos hconf] at h2
      rw [if_pos hconf]
      rcases hdc : S.E.decConf e.data with _ | cc
      · rw [hdc] at h2; simp [M.fail] at h2
      · rw [hdc] at h2
        obtain ⟨d3, res, h3, h4⟩ := M.bind_okOk h2
        obtain ⟨d4, cs, h5, h6⟩ := M.bind_okOk h4
        obtain ⟨r, _, e3⟩ := callRaft_ok h3
        have e4 := (orFail_ok h5).1
        have e6 := modify_ok h6
        rw [e6, e4, e3, e1]
        exact ⟨rfl, rfl, rfl, [.applyChange cc res], rfl, rfl, by simp [kind], by simp [Clean]⟩
    · rw [if_neg hconf] at h2
      rw [if_neg hconf]
      rcases hde : S.E.decEntry e.data with _ | ⟨lid, lc⟩
      · rw [hde] at h2; simp [M.fail] at h2
      · rw [hde] at h2
        rcases lid with _ | ⟨replica, corr⟩
        · simp [M.panic] at h2
        · simp only at h2
          rw [M.bind_run (d1 := d1) (a := d1) rfl] at h2
          obtain ⟨d3, res, h3, h4⟩ := M.bind_okOk h2
          obtain ⟨d4, o, h5, h6⟩ := M.bind_okOk h4
          obtain ⟨r, _, e3⟩ := callActor_ok h3
          obtain ⟨e4, r4⟩ := orFail_ok h5
          rw [stashCommands_run] at h6
          simp only [Run.ok.injEq, Prod.mk.injEq, and_true] at h6
          rw [← h6, e4, e3, e1]
          refine ⟨rfl, rfl, rfl, [.actor (.apply d.ctx ⟨e.index, decide (replica = d.id)⟩ ⟨corr, lc⟩ res)] ++
            o.commands.map fun c => .out (.appMessage c), by simp, ?_, ?_, ?_⟩
          · rw [observed_append]
            have hout : observed (o.commands.map fun c => (.out (.appMessage c) : Ev H)) = [] :=
              observed_none fun x hx => by
                obtain ⟨c, _, rfl⟩ := List.mem_map.1 hx
                simp [kind, obsKinds]
            rw [hout]
            rfl
          · intro x hx
            rcases List.mem_append.1 hx with hx | hx
            · rw [List.mem_singleton.1 hx]; simp [kind]
            · obtain ⟨c, _, rfl⟩ := List.mem_map.1 hx
              simp [kind]
          · intro x hx
            rcases List.mem_append.1 hx with hx | hx
            · rw [List.mem_singleton.1 hx, r4]; trivial
            · obtain ⟨c, _, rfl⟩ := List.mem_map.1 hx
              trivial

theorem applyEntries_ok {es : List Entry} {d d' : Driver σ ρ κ H} (h : applyEntries S es d = .ok (d', .ok ())) :
    d'.applied = lastIndex d.applied es ∧ d'.id = d.id ∧ d'.proposals = d.proposals ∧ ∃ new, d'.trace = d.trace ++ new ∧
      payloads S.E.decEntry d.id es = some (observed new) ∧ (∀ x ∈ new, kind x ∈ [K.applyChange, .apply, .oApp]) ∧ ∀ x ∈ new, Clean x := by
  induction es generalizing d with
  | nil =>
    simp only [applyEntries, M.pure_def, M.pure, Run.ok.injEq, Prod.mk.injEq, and_true] at h
    subst h
    exact ⟨rfl, rfl, rfl, [], by simp, rfl, by simp, by simp⟩
  | cons e es ih =>
    unfold applyEntries at h
    obtain ⟨d1, _, h1, h2⟩ := M.bind_okOk h
    obtain ⟨a1, i1, p1, n1, t1, o1, k1, c1⟩ := applyEntry_ok h1
    obtain ⟨a2, i2, p2, n2, t2, o2, k2, c2⟩ := ih h2
    refine ⟨?_, i2.trans i1, p2.trans p1, n1 ++ n2, by rw [t2, t1, List.append_assoc], ?_,
      fun x hx => (List.mem_append.1 hx).elim (k1 x) (k2 x), fun x hx => (List.mem_append.1 hx).elim (c1 x) (c2 x)⟩
    · rw [a2, a1]; rfl
    · rw [i1] at o2
      rw [observed_append, payloads, o1, o2]

/-- Loading a snapshot. -/
theorem restore_ok {sn : Snap.RaftSnapshot} {d d' : Driver σ ρ κ H} (h : restoreRaftSnapshot S sn d = .ok (d', .ok ())) :
    d'.applied = loadIndex sn d.applied ∧ d'.id = d.id ∧ d'.proposals = d.proposals ∧ ∃ new, d'.trace = d.trace ++ new ∧
      observed new = loads sn ∧ (∀ x ∈ new, kind x ∈ [K.storeApply, .load]) ∧ ∀ x ∈ new, Clean x := by
  unfold restoreRaftSnapshot at h
  unfold loadIndex loads
  by_cases hz : sn.metadata.index = 0
  · rw [if_pos hz] at h
    rw [if_pos hz, if_pos hz]
    simp only [M.pure_def, M.pure, Run.ok.injEq, Prod.mk.injEq, and_true] at h
    subst h
    exact ⟨rfl, rfl, rfl, [], by simp, rfl, by simp, by simp⟩
  · rw [if_neg hz] at h
    rw [if_neg hz, if_neg hz]
    obtain ⟨d1, _, h1, g1⟩ := M.bind_okOk h
    obtain ⟨d2, res, h2, g2⟩ := M.bind_okOk g1
    obtain ⟨d3, _, h3, g3⟩ := M.bind_okOk g2
    obtain ⟨d4, res4, h4, g4⟩ := M.bind_okOk g3
    obtain ⟨d5, _, h5, g5⟩ := M.bind_okOk g4
    have e1 := modify_ok h1
    obtain ⟨_, _, e2⟩ := callRaft_ok h2
    have e3 := (orFail_ok h3).1
    obtain ⟨_, _, e4⟩ := callActor_ok h4
    obtain ⟨e5, r5⟩ := orFail_ok h5
    have e6 := modify_ok g5
    rw [e6, e5, e4, e3, e2, e1]
    exact ⟨rfl, rfl, rfl, [.storeApply sn res, .actor (.load d.ctx sn.data res4)], by simp, rfl, by simp [kind], by simp [Clean, r5]⟩

/-! ## Methods without a connection to the log -/

theorem neutral_sendRaftMessages (ms : List RaftMsg) : Neutral (sendRaftMessages S ms) := by
  refine ⟨fun x y p => ?_, _, adds_sendRaftMessages ms, by decide⟩
  induction ms with
  | nil => exact pres_pure
  | cons b bs ih => exact pres_bind (by unfold sendRaftMessage; pres) fun _ => ih
theorem mark_reportAll {x y p} (rs : List (Nat × Snap.Status)) : Pres (Mark x y p) (reportAll S rs) := by
  induction rs with
  | nil => exact pres_pure
  | cons b bs ih => exact pres_bind (pres_raftU fun _ _ h => h) fun _ => ih
theorem neutral_processSnapshotProgress : Neutral (processSnapshotProgress S) := by
  refine ⟨fun x y p => ?_, _, adds_processSnapshotProgress, by decide⟩
  unfold processSnapshotProgress; pres
theorem mark_startAll {x y p} (ms : List RaftMsg) : Pres (Mark x y p) (startAll ms : M (Driver σ ρ κ H) Unit) := by
  induction ms with
  | nil => exact pres_pure
  | cons b bs ih => exact pres_bind (pres_snap fun _ _ _ h _ => h) fun _ => ih
theorem mark_sendAll {x y p} (ms : List Comm.Outgoing) : Pres (Mark x y p) (sendAll S ms) := by
  induction ms with
  | nil => exact pres_pure
  | cons b bs ih => exact pres_bind (pres_comm fun _ _ h => h) fun _ => ih
theorem neutral_processSnapshotSending : Neutral (processSnapshotSending S) := by
  refine ⟨fun x y p => ?_, _, adds_processSnapshotSending, by decide⟩
  unfold processSnapshotSending
  refine pres_bind pres_get fun _ => ?_
  refine pres_bind (pres_modify fun _ h => h) fun _ => ?_
  refine pres_bind (pres_snap fun _ _ _ h _ => h) fun _ => ?_
  split
  · exact pres_bind (mark_startAll _) fun _ => pres_bind (pres_snap fun _ _ _ h _ => h) fun _ => mark_sendAll _
  · exact mark_reportAll _
theorem neutral_stashLeaderState : Neutral (stashLeaderState S) := by
  refine ⟨fun x y p => ?_, _, adds_stashLeaderState, by decide⟩
  unfold stashLeaderState
  refine pres_bind (by unfold getRaftState; pres) fun _ => ?_
  refine pres_bind (pres_modify fun _ h => h) fun _ => pres_bind pres_get fun _ => ?_
  split
  · exact pres_pure
  · refine pres_bind (pres_modify fun _ h => h) fun _ => ?_
    refine pres_bind ?_ fun _ => by pres
    unfold updateSnapshotClusterChange
    refine pres_bind pres_get fun _ => ?_
    split
    · pres
    · exact pres_bind (pres_snap fun _ _ _ h _ => h) fun _ => mark_reportAll _
/-- A snapshot is what the actor saved, at the index applied. -/
theorem maybeCreateSnapshot_ok {d d' : Driver σ ρ κ H} (h : maybeCreateSnapshot S d = .ok (d', .ok ())) :
    d'.applied = d.applied ∧ d'.id = d.id ∧ d'.proposals = d.proposals ∧
    ((d'.trace = d.trace ∧ d'.actor = d.actor) ∨ ∃ data, S.A.onSaveSnapshot d.ctx d.actor = .ok (d'.actor, .ok data) ∧
      d'.trace = d.trace ++ [.actor (.save d.ctx (.ok data)), .storeCreate d.applied d.conf data]) := by
  unfold maybeCreateSnapshot at h
  rw [M.bind_run (d1 := d) (a := d) rfl] at h
  obtain ⟨d1, b, h1, g1⟩ := M.bind_okOk h
  have e1 : d1 = d := by
    simp only [askRaft, Run.bind_eq_ok, Run.ok.injEq, Prod.mk.injEq] at h1
    obtain ⟨_, _, h1, _⟩ := h1
    exact h1.symm
  subst e1
  cases b with
  | false =>
    simp only [Bool.false_eq_true, if_false, M.pure_def, M.pure, Run.ok.injEq, Prod.mk.injEq, and_true] at g1
    subst g1
    exact ⟨rfl, rfl, rfl, .inl ⟨rfl, rfl⟩⟩
  | true =>
    rw [if_pos rfl] at g1
    obtain ⟨d2, res, h2, g2⟩ := M.bind_okOk g1
    obtain ⟨a, f2, e2⟩ := callActor_ok h2
    obtain ⟨d3, data, h3, g3⟩ := M.bind_okOk g2
    obtain ⟨e3, r3⟩ := orFail_ok h3
    rw [M.bind_run (d1 := d3) (a := d3) rfl] at g3
    obtain ⟨d4, res4, h4, g4⟩ := M.bind_okOk g3
    obtain ⟨_, _, e4⟩ := callRaft_ok h4
    have e5 := (orFail_ok g4).1
    subst r3
    rw [e5, e4, e3, e2]
    exact ⟨rfl, rfl, rfl, .inr ⟨data, f2, by simp⟩⟩

theorem moves_maybeCreateSnapshot {d d' : Driver σ ρ κ H} (h : maybeCreateSnapshot S d = .ok (d', .ok ())) : Moves S d d' := by
  obtain ⟨a, i, p, ⟨t, _⟩ | ⟨data, _, t⟩⟩ := maybeCreateSnapshot_ok h
  · exact moves_plain (new := []) a i p (by rw [t]; simp) (by simp)
  · refine ⟨i, _, t, fun o => ?_, by rw [p]; exact List.append_nil _, by simp [Clean]⟩
    rw [a]
    have : observed [.actor (.save d.ctx (.ok data)), (.storeCreate d.applied d.conf data : Ev H)] = [] := rfl
    rw [this, List.append_nil]
    exact trail_other (by simp [kind, feedKinds]) _

theorem neutral_triggerRaftTick : Neutral (triggerRaftTick S) := by
  refine ⟨fun x y p => ?_, _, adds_triggerRaftTick, by decide⟩
  unfold triggerRaftTick; pres

theorem neutral_dispatch {m : InMsg H} (hm : ∀ r, m ≠ .startReplica r) : Neutral (dispatch S m) := by
  have cs : ∀ {x y p l}, Pres (Mark x y p) (checkState l : M (Driver σ ρ κ H) Unit) := by intro x y p l; unfold checkState; pres
  have ce : ∀ {x y p}, Pres (Mark x y p) (checkNonEphemeral : M (Driver σ ρ κ H) Unit) := by intro x y p; unfold checkNonEphemeral; pres
  have key : ∀ {L : List K} {z : M (Driver σ ρ κ H) Unit}, Adds L z → (∀ k ∈ feedKinds ++ obsKinds ++ proposalKinds ++ failKinds, k ∉ L) →
      (∀ x y p, Pres (Mark x y p) z) →
      Neutral (z >>= fun _ => Pure.pure (none : Option ActorCommand)) := fun hx hL hp =>
    ⟨fun x y p => pres_bind (hp x y p) fun _ => pres_pure, _, adds_bind hx fun _ => adds_pure, hL⟩
  cases m with
  | startReplica r => exact absurd rfl (hm r)
  | checkCluster =>
    refine key adds_processCheckCluster (by decide) (fun x y p => ?_)
    unfold processCheckCluster
    exact pres_bind cs fun _ => pres_bind ce fun _ => pres_modify fun _ h => h
  | stopReplica =>
    refine key adds_processStop (by decide) (fun x y p => ?_)
    unfold processStop; pres
  | enterLameduck =>
    refine key (L := []) (z := M.modify fun d => { d with lameduck := true }) (adds_modify ?_) (by decide)
      (fun x y p => pres_modify fun _ h => h)
    intro _; rfl
  | changeCluster a b c =>
    refine key (adds_processChangeCluster a b c) (by decide) (fun x y p => ?_)
    unfold processChangeCluster changeStatus makeConfChangeProposal
    refine pres_bind cs fun _ => pres_bind ce fun _ => ?_
    pres
  | systemMessage a b pl =>
    refine key (adds_processSystemMessage a b pl) (by decide) (fun x y p => ?_)
    unfold processSystemMessage
    refine pres_bind cs fun _ => pres_bind ce fun _ => ?_
    refine pres_bind (pres_comm fun _ _ h => h) fun up => ?_
    split
    · pres
    · unfold makeRaftStep; pres
    · pres
    · pres
  | snapshotRequest a b c pl =>
    refine key (adds_processSnapshotRequest a b c pl) (by decide) (fun x y p => ?_)
    unfold processSnapshotRequest
    refine pres_bind ce fun _ => ?_
    refine pres_bind (pres_comm fun _ _ h => h) fun up => ?_
    split
    · pres
    · exact pres_bind (pres_snap fun _ _ _ h _ => h) fun _ => pres_comm fun _ _ h => h
    · pres
  | snapshotResponse a b c pl =>
    refine key (adds_processSnapshotResponse a b c pl) (by decide) (fun x y p => ?_)
    unfold processSnapshotResponse
    refine pres_bind ce fun _ => ?_
    refine pres_bind (pres_comm fun _ _ h => h) fun up => ?_
    split
    · pres
    · exact pres_snap fun _ _ _ h _ => h
    · pres
  | snapshotFailure a b =>
    refine key (adds_processSnapshotFailure a b) (by decide) (fun x y p => ?_)
    unfold processSnapshotFailure
    exact pres_bind ce fun _ => pres_snap fun _ _ _ h _ => h
  | getReplicaState =>
    refine key adds_processGetReplicaState (by decide) (fun x y p => ?_)
    unfold processGetReplicaState
    refine pres_bind cs fun _ => ?_
    pres
  | handshake a hs =>
    refine key (adds_processHandshake a hs) (by decide) (fun x y p => ?_)
    unfold processHandshake
    refine pres_bind cs fun _ => ?_
    pres
  | appMessage c => exact ⟨fun _ _ _ => pres_pure, [], adds_pure, by decide⟩

/-! ## The state machine -/

theorem moves_delivery {d d' : Driver σ ρ κ H} {e : Ev H} {mid : List (Ev H)} (hi : d'.id = d.id) (hp : d'.proposals = d.proposals)
    (ht : d'.trace = d.trace ++ (e :: mid)) (he : kind e ∉ obsKinds ++ proposalKinds) (hm : ∀ x ∈ mid, kind x ∉ feedKinds ++ proposalKinds)
    (hce : Clean e) (hc : ∀ x ∈ mid, Clean x)
    (hf : ∀ o, Feed S.E.decEntry d.id e (o, d.applied) (o ++ observed mid, d'.applied)) : Moves S d d' := by
  refine ⟨hi, e :: mid, ht, fun o => ⟨_, hf o, ?_⟩, ?_, fun x hx => (List.mem_cons.1 hx).elim (fun h => h ▸ hce) (hc x)⟩
  · have : observed (e :: mid) = observed mid := by
      rw [show e :: mid = [e] ++ mid from rfl, observed_append, observed_none (t := [e]), List.nil_append]
      intro x hx; rw [List.mem_singleton.1 hx]; exact fun h => he (by simp [h])
    rw [this]
    exact trail_other (fun x hx h => hm x hx (by simp [h])) _
  · obtain ⟨r1, r2⟩ := requested_none (t := e :: mid) (fun x hx h => by
      rcases List.mem_cons.1 hx with rfl | hx
      · exact he (by simp [h])
      · exact hm x hx (by simp [h]))
    simp [r1, r2, hp]

theorem neutral_get {f : Driver σ ρ κ H → M (Driver σ ρ κ H) β} {d d' : Driver σ ρ κ H} {r} (h : (M.get >>= f) d = .ok (d', r)) : f d d = .ok (d', r) := by
  rwa [M.bind_run (d1 := d) (a := d) rfl] at h

theorem neutral_storeHardState (h : Option Storage.HardState) :
    Neutral (M.opt h fun h => callRaftU (fun r => S.R.setHardState r h) (.storeHardState h) : M (Driver σ ρ κ H) Unit) :=
  ⟨fun _ _ _ => pres_opt fun _ => pres_raftU fun _ _ h => h, [.hardState], by adds, by decide⟩

theorem Moves.refl (d : Driver σ ρ κ H) : Moves S d d := moves_plain (new := []) rfl rfl rfl (by simp) (by simp)

/-- What a method without a connection to the log does. -/
theorem Neutral.plain {m : M (Driver σ ρ κ H) α} (h : Neutral m) {d d' : Driver σ ρ κ H} {r} (hr : m d = .ok (d', r)) :
    d'.applied = d.applied ∧ d'.id = d.id ∧ d'.proposals = d.proposals ∧ ∃ new, d'.trace = d.trace ++ new ∧
      observed new = [] ∧ (∀ x ∈ new, kind x ∉ feedKinds ++ proposalKinds) ∧ ∀ x ∈ new, Clean x := by
  obtain ⟨ha, hi, hp⟩ := (h.pres d.applied d.id d.proposals).run _ _ _ ⟨rfl, rfl, rfl⟩ hr
  obtain ⟨L, hL, hk⟩ := h.adds
  obtain ⟨new, ht, hn⟩ := hL.run _ _ _ hr
  refine ⟨ha, hi, hp, new, ht, observed_none fun e he hk' => hk _ (by simp [hk']) (hn e he),
    fun e he hk' => hk _ ?_ (hn e he), fun e he => clean_of_kind fun hk' => hk _ ?_ (hn e he)⟩
  · rcases List.mem_append.1 hk' with h | h <;> simp [h]
  · simp only [List.mem_append] at hk' ⊢
    rcases hk' with (h | h) | h <;> simp [h]

theorem moves_processReady {d d' : Driver σ ρ κ H} (h : processReady S d = .ok (d', .ok ())) : Moves S d d' := by
  unfold processReady at h
  obtain ⟨d1, ready, h1, g1⟩ := M.bind_okOk h
  obtain ⟨_, _, e1⟩ := callRaft_ok h1
  obtain ⟨d2, _, h2, g2⟩ := M.bind_okOk g1
  obtain ⟨a2, i2, p2, n2, t2, o2, k2, z2⟩ := (neutral_sendRaftMessages _).plain h2
  obtain ⟨d3, _, h3, g3⟩ := M.bind_okOk g2
  obtain ⟨a3, i3, p3, n3, t3, o3, k3, z3⟩ := (neutral_storeHardState _).plain h3
  obtain ⟨d4, _, h4, g4⟩ := M.bind_okOk g3
  obtain ⟨a4, i4, p4, n4, t4, o4, k4, z4⟩ := restore_ok h4
  obtain ⟨d5, _, h5, g5⟩ := M.bind_okOk g4
  obtain ⟨a5, i5, p5, n5, t5, o5, k5, z5⟩ := applyEntries_ok (es := sortByIndex ready.committed) h5
  obtain ⟨d6, _, h6, g6⟩ := M.bind_okOk g5
  obtain ⟨d7, _, h7, g7⟩ := M.bind_okOk g6
  obtain ⟨d8, light, h8, g8⟩ := M.bind_okOk g7
  obtain ⟨_, _, e8⟩ := callRaft_ok h8
  obtain ⟨d9, _, h9, g9⟩ := M.bind_okOk g8
  obtain ⟨a9, i9, p9, n9, t9, o9, k9, z9⟩ := (neutral_sendRaftMessages _).plain h9
  obtain ⟨d10, _, h10, g10⟩ := M.bind_okOk g9
  obtain ⟨a10, i10, p10, n10, t10, o10, k10, z10⟩ := applyEntries_ok (es := sortByIndex light.committed) h10
  have i1 : d1.id = d.id := by rw [e1]
  have m1 : Moves S d d5 := by
    refine moves_delivery (e := .ready ready) (mid := n2 ++ n3 ++ n4 ++ n5) ?_ ?_ ?_ (by simp [kind, obsKinds, proposalKinds]) ?_ trivial ?_ ?_
    · rw [i5, i4, i3, i2, i1]
    · rw [p5, p4, p3, p2, e1]
    · rw [t5, t4, t3, t2, e1]; simp
    · intro x hx
      rcases List.mem_append.1 hx with hx | hx
      · rcases List.mem_append.1 hx with hx | hx
        · rcases List.mem_append.1 hx with hx | hx
          · exact k2 x hx
          · exact k3 x hx
        · have := k4 x hx
          generalize kind x = k at this
          revert this; revert k; decide
      · have := k5 x hx
        generalize kind x = k at this
        revert this; revert k; decide
    · intro x hx
      rcases List.mem_append.1 hx with hx | hx
      · rcases List.mem_append.1 hx with hx | hx
        · exact (List.mem_append.1 hx).elim (z2 x) (z3 x)
        · exact z4 x hx
      · exact z5 x hx
    · intro o
      rw [i4, i3, i2, i1] at o5
      refine ⟨_, _, sortByIndex_inOrder _, o5, ?_⟩
      simp only [observed_append, o2, o3, o4, List.nil_append, List.append_assoc, Prod.mk.injEq, true_and]
      rw [a5, a4, a3, a2, e1]
  have m2 : Moves S d5 d6 := (neutral_sendRaftMessages _).moves h6
  have m3 : Moves S d6 d7 := by
    refine Neutral.moves (m := _) ⟨fun x y p => ?_, [.append], ?_, by decide⟩ h7
    · pres
    · adds
  have m4 : Moves S d7 d10 := by
    refine moves_delivery (e := .light light) (mid := n9 ++ n10) ?_ ?_ ?_ (by simp [kind, obsKinds, proposalKinds]) ?_ trivial (fun x hx => (List.mem_append.1 hx).elim (z9 x) (z10 x)) ?_
    · rw [i10, i9, e8]
    · rw [p10, p9, e8]
    · rw [t10, t9, e8]; simp
    · intro x hx
      rcases List.mem_append.1 hx with hx | hx
      · exact k9 x hx
      · have := k10 x hx
        generalize kind x = k at this
        revert this; revert k; decide
    · intro o
      rw [i9, e8] at o10
      refine ⟨_, _, sortByIndex_inOrder _, o10, ?_⟩
      simp only [observed_append, o9, List.nil_append, Prod.mk.injEq, true_and]
      rw [a10, a9, e8]
  have m5 : Moves S d10 d' :=
    Neutral.moves ⟨fun _ _ _ => pres_raftU fun _ _ h => h, [.advanceApply], by adds, by decide⟩ g10
  exact m1.trans (m2.trans (m3.trans (m4.trans m5)))

theorem moves_when {b : Bool} {m : M (Driver σ ρ κ H) Unit} {d d' : Driver σ ρ κ H} (hm : m d = .ok (d', .ok ()) → Moves S d d')
    (h : M.when b m d = .ok (d', .ok ())) : Moves S d d' := by
  unfold M.when at h
  split at h
  · exact hm h
  · simp only [M.pure, Run.ok.injEq, Prod.mk.injEq, and_true] at h
    rw [h]; exact .refl _

theorem moves_advanceRaft {d d' : Driver σ ρ κ H} (h : advanceRaft S d = .ok (d', .ok ())) : Moves S d d' := by
  unfold advanceRaft at h
  have h := neutral_get h
  obtain ⟨d1, _, h1, g1⟩ := M.bind_okOk h
  obtain ⟨d2, b, h2, g2⟩ := M.bind_okOk g1
  have e2 : d2 = d1 := by
    simp only [askRaft, Run.bind_eq_ok, Run.ok.injEq, Prod.mk.injEq] at h2
    obtain ⟨_, _, h2, _⟩ := h2
    exact h2.symm
  subst e2
  exact (moves_when neutral_triggerRaftTick.moves h1).trans (moves_when moves_processReady g2)

theorem moves_processStateMachine {d d' : Driver σ ρ κ H} (h : processStateMachine S d = .ok (d', .ok ())) : Moves S d d' := by
  unfold processStateMachine at h
  have h := neutral_get h
  split at h
  · obtain ⟨d1, _, h1, g1⟩ := M.bind_okOk h
    obtain ⟨d2, _, h2, g2⟩ := M.bind_okOk g1
    exact (moves_advanceRaft h1).trans ((moves_maybeCreateSnapshot h2).trans (neutral_stashLeaderState.moves g2))
  · simp only [M.pure_def, M.pure, Run.ok.injEq, Prod.mk.injEq, and_true] at h
    rw [h]; exact .refl _

theorem proposeAll_ok {bs : List Bytes} {d d' : Driver σ ρ κ H} (h : proposeAll S bs d = .ok (d', .ok ())) :
    d'.applied = d.applied ∧ d'.id = d.id ∧ d'.proposals = d.proposals ∧ d'.trace = d.trace ++ bs.map .propose := by
  induction bs generalizing d with
  | nil =>
    simp only [proposeAll, M.pure_def, M.pure, Run.ok.injEq, Prod.mk.injEq, and_true] at h
    rw [h]; simp
  | cons b bs ih =>
    unfold proposeAll at h
    obtain ⟨d1, _, h1, h2⟩ := M.bind_okOk h
    obtain ⟨a, i, p, t⟩ := ih h2
    unfold makeRaftProposal at h1
    obtain ⟨d2, res, h3, h4⟩ := M.bind_okOk h1
    obtain ⟨_, _, e3⟩ := callRaft_ok h3
    cases res with
    | error => simp [M.panic] at h4
    | ok =>
      simp only [M.pure_def, M.pure, Run.ok.injEq, Prod.mk.injEq, and_true] at h4
      subst h4
      rw [a, i, p, t, e3]
      simp

theorem moves_processProposals {d d' : Driver σ ρ κ H} (h : processProposals S d = .ok (d', .ok ())) : Moves S d d' := by
  unfold processProposals at h
  have h := neutral_get h
  obtain ⟨d1, _, h1, h2⟩ := M.bind_okOk h
  have e1 := modify_ok h1
  obtain ⟨a, i, p, t⟩ := proposeAll_ok h2
  rw [e1] at a i p t
  refine ⟨i, _, t, fun o => ?_, ?_, fun e he => by obtain ⟨_, _, rfl⟩ := List.mem_map.1 he; trivial⟩
  · have hk : ∀ e ∈ d.proposals.map (Ev.propose (H := H)), kind e = .propose := by
      intro e he; obtain ⟨_, _, rfl⟩ := List.mem_map.1 he; rfl
    rw [observed_none fun e he => by rw [hk e he]; decide, List.append_nil, a]
    exact trail_other (fun e he => by rw [hk e he]; decide) _
  · rw [p]
    have h1 : (d.proposals.map (Ev.propose (H := H))).filterMap requested = [] := by
      rw [List.filterMap_eq_nil_iff]; intro e he; obtain ⟨_, _, rfl⟩ := List.mem_map.1 he; rfl
    have h2 : (d.proposals.map (Ev.propose (H := H))).filterMap proposal = d.proposals := by
      rw [List.filterMap_map]
      exact List.filterMap_some
    rw [h1, h2]
    simp

theorem moves_runRaft {d d' : Driver σ ρ κ H} (h : runRaft S d = .ok (d', .ok ())) : Moves S d d' := by
  unfold runRaft at h
  have h := neutral_get h
  split at h
  · simp only [M.pure_def, M.pure, Run.ok.injEq, Prod.mk.injEq, and_true] at h
    rw [h]; exact .refl _
  · obtain ⟨d1, _, h1, g1⟩ := M.bind_okOk h
    obtain ⟨d2, _, h2, g2⟩ := M.bind_okOk g1
    obtain ⟨d3, _, h3, g3⟩ := M.bind_okOk g2
    exact (moves_processProposals h1).trans ((neutral_processSnapshotProgress.moves h2).trans
      ((moves_processStateMachine h3).trans (neutral_processSnapshotSending.moves g3)))

theorem moves_runActor {c : Option ActorCommand} {d d' : Driver σ ρ κ H} (he : d.ephemeral = false)
    (h : runActor S c d = .ok (d', .ok ())) : Moves S d d' := by
  unfold runActor at h
  have h := neutral_get h
  split at h
  · obtain ⟨d1, _, h1, g1⟩ := M.bind_okOk h
    have m2 : Moves S d1 d' := Neutral.moves ⟨fun _ _ _ => pres_changeComm fun _ _ h => h, [.commTick], by adds, by decide⟩ g1
    refine Moves.trans ?_ m2
    unfold processAppMessage at h1
    obtain ⟨d2, _, h2, g2⟩ := M.bind_okOk h1
    have e2 := (checkState_ok h2).1
    obtain ⟨d3, res, h3, g3⟩ := M.bind_okOk g2
    obtain ⟨_, _, e3⟩ := callActor_ok h3
    obtain ⟨d4, o, h4, g4⟩ := M.bind_okOk g3
    obtain ⟨e4, r4⟩ := orFail_ok h4
    obtain ⟨d5, _, h5, g5⟩ := M.bind_okOk g4
    rw [stashCommands_run] at h5
    simp only [Run.ok.injEq, Prod.mk.injEq, and_true] at h5
    subst r4
    have hout : ∀ {t : List (Ev H)}, t = o.commands.map (fun c => (.out (.appMessage c) : Ev H)) → ∀ x ∈ t, kind x = .oApp := by
      intro t ht x hx; subst ht
      obtain ⟨c, _, rfl⟩ := List.mem_map.1 hx
      rfl
    have core : ∀ {d6 : Driver σ ρ κ H}, d6.id = d.id → d6.applied = d.applied →
        d6.trace = d.trace ++ (.actor (.command d.ctx c (.ok o)) :: o.commands.map fun c => .out (.appMessage c)) →
        d6.proposals = d.proposals ++ (o.event.toList).map (encode S d.id) → Moves S d d6 := by
      intro d6 i a t p
      have hk := hout rfl
      refine ⟨i, _, t, fun q => ?_, ?_, fun e he => ?_⟩
      rotate_right
      · rcases List.mem_cons.1 he with rfl | he
        · trivial
        · exact clean_of_kind (by rw [hk e he]; decide)
      · rw [a]
        have ho : observed (.actor (.command d.ctx c (.ok o)) :: o.commands.map fun c => (.out (.appMessage c) : Ev H)) = [] := by
          refine observed_none fun e he => ?_
          rcases List.mem_cons.1 he with rfl | he
          · simp [kind, obsKinds]
          · rw [hk e he]; decide
        rw [ho, List.append_nil]
        refine trail_other (fun e he => ?_) _
        rcases List.mem_cons.1 he with rfl | he
        · simp [kind, feedKinds]
        · rw [hk e he]; decide
      · obtain ⟨r1, r2⟩ := requested_none (t := o.commands.map fun c => (.out (.appMessage c) : Ev H)) fun e he => by rw [hk e he]; decide
        rw [p, List.filterMap_cons, List.filterMap_cons, r1, r2]
        cases hev : o.event <;> simp [requested, proposal, hev]
    have base : d5.id = d.id ∧ d5.applied = d.applied ∧ d5.ephemeral = d.ephemeral ∧ d5.proposals = d.proposals ∧
        d5.trace = d.trace ++ (.actor (.command d.ctx c (.ok o)) :: o.commands.map fun c => .out (.appMessage c)) := by
      rw [← h5, e4, e3, e2]
      exact ⟨rfl, rfl, rfl, rfl, by simp⟩
    obtain ⟨b1, b2, b3, b4, b5⟩ := base
    cases hev : o.event with
    | none =>
      rw [hev] at g5
      simp only [M.pure_def, M.pure, Run.ok.injEq, Prod.mk.injEq, and_true] at g5
      rw [← g5]
      exact core b1 b2 b5 (by rw [b4, hev]; simp)
    | some ev =>
      rw [hev] at g5
      have g5 := neutral_get g5
      rw [b3, he, if_neg (by simp)] at g5
      have e6 := modify_ok g5
      exact core (by rw [e6, ← b1]) (by rw [e6, ← b2]) (by rw [e6, ← b5]) (by rw [e6, hev]; simp [encode, b1, b4])
  · simp only [M.pure_def, M.pure, Run.ok.injEq, Prod.mk.injEq, and_true] at h
    rw [h]; exact .refl _

/-! ## Starting -/

/-- What a successful start of a replica that takes part in replication did. -/
theorem processStart_ok {r : StartReq} {d d' : Driver σ ρ κ H} (h : processStart S r d = .ok (d', .ok ())) (he : d'.ephemeral = false) :
    ∃ ctx a1 a2 b, S.A.onInit ctx d.actor = .ok (a1, .ok ()) ∧ S.A.onSaveSnapshot ctx a1 = .ok (a2, .ok b) ∧ d'.actor = a2 ∧
      d'.applied = (if r.isLeader then 1 else d.applied) ∧ d'.id = r.idHint ∧ d'.proposals = d.proposals ∧
      d'.trace = d.trace ++ [.actorInit ctx (.ok ()), .actor (.save ctx (.ok b)), .raftInit r.idHint b r.isLeader (.ok ()), .out (.startReplica r.idHint)] := by
  unfold processStart at h
  obtain ⟨d1, _, h1, g1⟩ := M.bind_okOk h
  have e1 := (checkState_ok h1).1
  obtain ⟨d2, _, h2, g2⟩ := M.bind_okOk g1
  have e2 := modify_ok h2
  obtain ⟨d3, res, h3, g3⟩ := M.bind_okOk g2
  obtain ⟨a1, f3, e3⟩ := callActor_ok h3
  obtain ⟨d4, _, h4, g4⟩ := M.bind_okOk g3
  obtain ⟨e4, r4⟩ := orFail_ok h4
  obtain ⟨d5, _, h5, g5⟩ := M.bind_okOk g4
  have e5 := modify_ok h5
  obtain ⟨d6, _, h6, g6⟩ := M.bind_okOk g5
  obtain ⟨d7, _, h7, g7⟩ := M.bind_okOk g6
  have e7 : d7 = d6 := by
    unfold M.when at h7
    split at h7
    · simp [M.panic] at h7
    · simp only [M.pure, Run.ok.injEq, Prod.mk.injEq, and_true] at h7
      exact h7.symm
  obtain ⟨d8, _, h8, g8⟩ := M.bind_okOk g7
  have e8 := modify_ok h8
  obtain ⟨d9, _, h9, g9⟩ := M.bind_okOk g8
  have e9 := modify_ok h9
  have g9 := neutral_get g9
  have e10 := modify_ok g9
  subst r4
  have hep : d6.ephemeral = false := by rw [← he, e10, e9, e8, e7]
  have hd5 : d5.ephemeral = r.isEphemeral := by rw [e5]
  unfold M.when at h6
  cases hr : r.isEphemeral with
  | true =>
    rw [hr] at h6 hd5
    simp only [Bool.not_true, Bool.false_eq_true, if_false, M.pure, Run.ok.injEq, Prod.mk.injEq, and_true] at h6
    rw [← h6, hd5] at hep
    cases hep
  | false =>
    rw [hr] at h6
    simp only [Bool.not_false, if_true] at h6
    unfold startConsensus at h6
    obtain ⟨c1, res, k1, l1⟩ := M.bind_okOk h6
    obtain ⟨a2, f1, q1⟩ := callActor_ok k1
    obtain ⟨c2, b, k2, l2⟩ := M.bind_okOk l1
    obtain ⟨q2, s2⟩ := orFail_ok k2
    have l2 := neutral_get l2
    obtain ⟨c3, _, k3, l3⟩ := M.bind_okOk l2
    have q3 : ∃ p, c3 = { c2 with snap := p } := by
      simp only [callSnap, Run.bind_eq_ok, Run.ok.injEq, Prod.mk.injEq] at k3
      obtain ⟨x, _, k3, _⟩ := k3
      exact ⟨_, k3.symm⟩
    obtain ⟨pp, q3⟩ := q3
    subst s2
    unfold initializeRaftNode at l3
    obtain ⟨c4, _, k4, l4⟩ := M.bind_okOk l3
    have q4 := modify_ok k4
    have l4 := neutral_get l4
    obtain ⟨c5, res5, k5, l5⟩ := M.bind_okOk l4
    obtain ⟨_, _, q5⟩ := callRaft_ok k5
    obtain ⟨c6, _, k6, l6⟩ := M.bind_okOk l5
    obtain ⟨q6, s6⟩ := orFail_ok k6
    obtain ⟨c7, _, k7, l7⟩ := M.bind_okOk l6
    have q7 := modify_ok k7
    obtain ⟨c8, _, k8, l8⟩ := M.bind_okOk l7
    have q8 := modify_ok k8
    obtain ⟨c9, _, k9, l9⟩ := M.bind_okOk l8
    have q9 : c9 = c8 := by
      unfold getRaftState at k9
      obtain ⟨y, _, z1, z2⟩ := M.bind_okOk k9
      have z2 := neutral_get z2
      simp only [askRaft, Run.bind_eq_ok, Run.ok.injEq, Prod.mk.injEq] at z1
      obtain ⟨_, _, z1, _⟩ := z1
      simp only [M.pure_def, M.pure, Run.ok.injEq, Prod.mk.injEq] at z2
      rw [← z2.1, z1]
    have q10 := modify_ok l9
    subst s6
    have f4 : c4.actor = c3.actor ∧ c4.applied = c3.applied ∧ c4.id = c3.id ∧ c4.proposals = c3.proposals ∧ c4.trace = c3.trace := by
      rw [q4]
      unfold configure
      split <;> exact ⟨rfl, rfl, rfl, rfl, rfl⟩
    have f7 : c7.actor = c6.actor ∧ c7.applied = (if r.isLeader then 1 else c6.applied) ∧ c7.id = c6.id ∧ c7.proposals = c6.proposals ∧
        c7.trace = c6.trace := by
      rw [q7]
      cases r.isLeader <;> exact ⟨rfl, rfl, rfl, rfl, rfl⟩
    have f3' : c3.actor = a2 ∧ c3.applied = d.applied ∧ c3.id = r.idHint ∧ c3.proposals = d.proposals ∧
        c3.trace = d.trace ++ [.actorInit d2.ctx (.ok ()), .actor (.save d2.ctx (.ok b))] := by
      rw [q3, q2, q1, e5, e4, e3]
      refine ⟨rfl, ?_, ?_, ?_, ?_⟩ <;> rw [e2, e1]
      simp
    have f6 : c6.actor = a2 ∧ c6.applied = d.applied ∧ c6.id = r.idHint ∧ c6.proposals = d.proposals ∧
        c6.trace = d.trace ++ [.actorInit d2.ctx (.ok ()), .actor (.save d2.ctx (.ok b)), .raftInit r.idHint b r.isLeader (.ok ())] := by
      rw [q6, q5]
      refine ⟨f4.1.trans f3'.1, f4.2.1.trans f3'.2.1, f4.2.2.1.trans f3'.2.2.1, f4.2.2.2.1.trans f3'.2.2.2.1, ?_⟩
      simp only [f4.2.2.2.2, f3'.2.2.2.2, f4.2.2.1, f3'.2.2.1]
      simp
    have f10 : d6.actor = a2 ∧ d6.applied = (if r.isLeader then 1 else d.applied) ∧ d6.id = r.idHint ∧ d6.proposals = d.proposals ∧
        d6.trace = d.trace ++ [.actorInit d2.ctx (.ok ()), .actor (.save d2.ctx (.ok b)), .raftInit r.idHint b r.isLeader (.ok ())] := by
      rw [q10, q9, q8]
      refine ⟨f7.1.trans f6.1, ?_, f7.2.2.1.trans f6.2.2.1, f7.2.2.2.1.trans f6.2.2.2.1, f7.2.2.2.2.trans f6.2.2.2.2⟩
      simp only [f7.2.1, f6.2.1]
    refine ⟨d2.ctx, a1, a2, b, ?_, ?_, ?_, ?_, ?_, ?_, ?_⟩
    · 
      have : d2.actor = d.actor := by rw [e2, e1]
      rw [← this, f3]
    · have h1 : d5.ctx = d2.ctx := by rw [e5, e4, e3]
      have h2 : d5.actor = a1 := by rw [e5, e4, e3]
      rw [← h1, ← h2, f1]
    · rw [e10, e9, e8, e7]; exact f10.1
    · rw [e10, e9, e8, e7]; exact f10.2.1
    · rw [e10, e9, e8, e7]; exact f10.2.2.1
    · rw [e10, e9, e8, e7]; exact f10.2.2.2.1
    · rw [e10, e9, e8, e7]
      simp only [f10.2.2.2.2, f10.2.2.1]
      simp

end TCP.Drv
