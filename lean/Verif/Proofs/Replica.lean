import Verif.Spec.Replica
import Verif.Proofs.DriverLeaves
import Verif.Props.Comm

/-!
# Invariants of a whole replica
-/

namespace TCP.Replica

open TCP TCP.Drv TCP.Comm.Spec TCP.Replica.Spec

variable {ν Y P S E H σ : Type} {A : Actor σ} {N : NodeT ν Y} {ops : Comm.Ops S E H} {V : Env P S E H} {codecs : Codecs}

/-! ## Facts about records only grow -/

theorem accepted_mono {log : List (Comm.Spec.Ev S H)} {p : Nat} {u : Comm.Outgoing} (h : u ∈ accepted p log) (ev : Comm.Spec.Ev S H) :
    u ∈ accepted p (log ++ [ev]) := by
  unfold accepted at *
  rw [List.filterMap_append, List.mem_append]
  exact Or.inl h

theorem Spec.Sealed.mono {log : List (Comm.Spec.Ev S H)} {x : Comm.Data} (h : Sealed ops log x) (ev : Comm.Spec.Ev S H) :
    Sealed ops (log ++ [ev]) x := by
  obtain ⟨u, e, h1, h2, h3⟩ := h
  exact ⟨u, e, accepted_mono h1 ev, h2.mono ev, h3⟩

theorem Spec.Authentic.mono {log : List (Comm.Spec.Ev S H)} {k : Comm.Kind} {p : Nat} {b : Bytes} (h : Authentic ops log k p b)
    (ev : Comm.Spec.Ev S H) : Authentic ops (log ++ [ev]) k p b := by
  obtain ⟨d, c, f, up, e, h1, h2, h3, h4, h5, h6⟩ := h
  exact ⟨d, c, f, up, e, List.mem_append.2 (Or.inl h1), h2, h3, h4, h5.mono ev, h6⟩

theorem Spec.HeaderFrom.mono {log : List (Comm.Spec.Ev S H)} {p : Nat} {m f : Bytes} (h : HeaderFrom ops codecs log p m f)
    (ev : Comm.Spec.Ev S H) : HeaderFrom ops codecs (log ++ [ev]) p m f := by
  obtain ⟨did, b, id, size, h1, h2⟩ := h
  exact ⟨did, b, id, size, h1.mono ev, h2⟩

theorem Spec.ChunkFrom.mono {log : List (Comm.Spec.Ev S H)} {p i : Nat} {b : Bytes} (h : ChunkFrom ops codecs log p i b)
    (ev : Comm.Spec.Ev S H) : ChunkFrom ops codecs (log ++ [ev]) p i b := by
  rcases h with ⟨h1, m, h2⟩ | ⟨did, x, id, h1, h2⟩
  · exact Or.inl ⟨h1, m, h2.mono ev⟩
  · exact Or.inr ⟨did, x, id, h1.mono ev, h2⟩

theorem Spec.SnapshotFrom.mono {log : List (Comm.Spec.Ev S H)} {p : Nat} {s : Snap.RaftSnapshot} (h : SnapshotFrom ops codecs log p s)
    (ev : Comm.Spec.Ev S H) : SnapshotFrom ops codecs (log ++ [ev]) p s := by
  obtain ⟨⟨m, f, h1, h2⟩, ps, h3, h4⟩ := h
  exact ⟨⟨m, f, h1.mono ev, h2⟩, ps, h3, fun i b hb => (h4 i b hb).mono ev⟩

theorem Spec.Genuine.mono {log : List (Comm.Spec.Ev S H)} {m : RaftMsg} (h : Genuine ops codecs log m) (ev : Comm.Spec.Ev S H) :
    Genuine ops codecs (log ++ [ev]) m := by
  rcases h with ⟨p, b, h1, h2⟩ | ⟨to, p, s, h1, h2⟩
  · exact Or.inl ⟨p, b, h1.mono ev, h2⟩
  · exact Or.inr ⟨to, p, s, h1, h2.mono ev⟩

/-! ## Partial snapshots -/

/-- Everything in a partial snapshot was authentically sent by its sender. -/
structure Sourced (ops : Comm.Ops S E H) (codecs : Codecs) (log : List (Comm.Spec.Ev S H)) (st : Snap.Incoming) : Prop where
  header : ∃ first, HeaderFrom ops codecs log st.sender st.metadata first
  chunks : ∀ i b, st.chunks.get i = some b → ChunkFrom ops codecs log st.sender i b

theorem Sourced.mono {log : List (Comm.Spec.Ev S H)} {st : Snap.Incoming} (h : Sourced ops codecs log st) (ev : Comm.Spec.Ev S H) :
    Sourced ops codecs (log ++ [ev]) st :=
  ⟨by obtain ⟨f, h1⟩ := h.header; exact ⟨f, h1.mono ev⟩, fun i b hb => (h.chunks i b hb).mono ev⟩

theorem assemble_pieces {chunks : AMap Nat Bytes} {n : Nat} {data : Bytes} (h : Snap.assemble chunks n = .ok data) :
    ∃ pieces : List Bytes, pieces.length = n ∧ data = pieces.flatten ∧ ∀ i b, pieces[i]? = some b → chunks.get i = some b := by
  induction n generalizing data with
  | zero => simp only [Snap.assemble, Run.ok.injEq] at h; exact ⟨[], rfl, by rw [← h]; rfl, by simp⟩
  | succ n ih =>
    simp only [Snap.assemble, Run.bind_eq_ok] at h
    obtain ⟨pre, h1, h2⟩ := h
    obtain ⟨ps, hl, hd, hp⟩ := ih h1
    cases hc : chunks.get n with
    | none => simp [hc] at h2
    | some c =>
      simp only [hc, Run.ok.injEq] at h2
      refine ⟨ps ++ [c], by simp [hl], by rw [← h2, hd]; simp, fun i b hb => ?_⟩
      rw [List.getElem?_append] at hb
      split at hb
      · exact hp i b hb
      · rename_i hi
        have hin : i = n := by
          have : i - ps.length < 1 := by
            have := (List.getElem?_eq_some_iff.1 hb).1
            simpa using this
          omega
        subst hin
        have : i - ps.length = 0 := by omega
        rw [this] at hb
        simp only [List.getElem?_cons_zero, Option.some.injEq] at hb
        rw [hc, hb]

theorem Sourced.complete {log : List (Comm.Spec.Ev S H)} {r r' : Snap.Receiver} {snd : Nat} {sn : Snap.RaftSnapshot}
    (hs : ∀ st, r.state = some st → Sourced ops codecs log st) (h : r.tryComplete codecs.decMeta = .ok (r', some (.ok (snd, sn)))) :
    SnapshotFrom ops codecs log snd sn := by
  unfold Snap.Receiver.tryComplete at h
  cases hst : r.state with
  | none => simp [hst] at h
  | some st =>
    have hs := hs st hst
    simp only [hst, Run.bind_eq_ok] at h
    obtain ⟨res, h1, h2⟩ := h
    cases res with
    | none => simp at h2
    | some x =>
      simp only [Run.ok.injEq, Prod.mk.injEq, Option.some.injEq] at h2
      obtain ⟨_, rfl⟩ := h2
      unfold Snap.Incoming.tryComplete at h1
      split at h1
      · simp at h1
      · cases hm : codecs.decMeta st.metadata with
        | none => simp [hm] at h1
        | some m =>
          simp only [hm, Run.bind_eq_ok, Run.ok.injEq, Option.some.injEq, Except.ok.injEq, Prod.mk.injEq] at h1
          obtain ⟨data, h3, rfl, rfl⟩ := h1
          obtain ⟨f, hf⟩ := hs.header
          obtain ⟨ps, _, hd, hp⟩ := assemble_pieces h3
          exact ⟨⟨st.metadata, f, hf, hm⟩, ps, hd, fun i b hb => hs.chunks i b (hp i b hb)⟩

theorem tryComplete_state {dm : Bytes → Option Snap.Meta} {r r' : Snap.Receiver} {x} (h : r.tryComplete dm = .ok (r', x)) :
    r'.state = none ∨ r'.state = r.state := by
  unfold Snap.Receiver.tryComplete at h
  cases hst : r.state with
  | none => simp only [hst, Run.ok.injEq, Prod.mk.injEq] at h; rw [← h.1]; exact Or.inl hst
  | some st =>
    simp only [hst, Run.bind_eq_ok] at h
    obtain ⟨res, _, h2⟩ := h
    cases res with
    | none => simp only [Run.ok.injEq, Prod.mk.injEq] at h2; rw [← h2.1]; exact Or.inr hst
    | some x => simp only [Run.ok.injEq, Prod.mk.injEq] at h2; rw [← h2.1]; exact Or.inl rfl

theorem clusterChange_state {p p' : Snap.Processor} {l t rs u} (h : p.clusterChange l t rs = .ok (p', u)) :
    p'.receiver.state = none ∨ p'.receiver.state = p.receiver.state := by
  unfold Snap.Processor.clusterChange at h
  simp only at h
  split at h
  · simp at h
  · simp only [Run.ok.injEq, Prod.mk.injEq] at h
    obtain ⟨rfl, _⟩ := h
    split <;> split <;> first | exact Or.inl rfl | exact Or.inr rfl
  · simp only [Run.ok.injEq, Prod.mk.injEq] at h
    obtain ⟨rfl, _⟩ := h
    split <;> exact Or.inr rfl

/-- A request that was authentic leaves the partial snapshot sourced. -/
theorem Sourced.request {log : List (Comm.Spec.Ev S H)} {r r' : Snap.Receiver} {rcp snd did : Nat} {b : Bytes} {resp}
    (hs : ∀ st, r.state = some st → Sourced ops codecs log st) (ha : Authentic ops log (.snapshotRequest did) snd b)
    (h : r.processRequest ⟨rcp, snd, did, some (codecs.decContent b)⟩ = .ok (r', resp)) :
    ∀ st, r'.state = some st → Sourced ops codecs log st := by
  unfold Snap.Receiver.processRequest at h
  simp only at h
  cases hc : codecs.decContent b with
  | none => simp only [hc, Run.ok.injEq, Prod.mk.injEq] at h; rw [← h.1]; exact hs
  | some c =>
    obtain ⟨sid, it⟩ := c
    cases it with
    | none => simp only [hc, Run.ok.injEq, Prod.mk.injEq] at h; rw [← h.1]; exact hs
    | some it =>
      cases it with
      | header size metadata chunk =>
        simp only [hc, Run.bind_eq_ok, Run.ok.injEq, Prod.mk.injEq] at h
        obtain ⟨st, h1, h2, _⟩ := h
        intro st' hst'
        rw [← h2] at hst'
        simp only [Option.some.injEq] at hst'
        subst hst'
        unfold Snap.Incoming.new at h1
        simp only [Run.bind_eq_ok, Run.ok.injEq] at h1
        obtain ⟨count, _, rfl⟩ := h1
        have hh : HeaderFrom ops codecs log snd metadata chunk := ⟨did, b, sid, size, ha, hc⟩
        refine ⟨⟨chunk, hh⟩, fun i x hx => ?_⟩
        simp only [AMap.get_cons, AMap.get_nil] at hx
        split at hx
        · rename_i hi
          simp only [Option.some.injEq] at hx
          subst hx
          exact Or.inl ⟨by simpa using hi.symm, metadata, hh⟩
        · simp at hx
      | chunk index contents =>
        cases hst : r.state with
        | none =>
          simp only [hc, hst, Run.ok.injEq, Prod.mk.injEq] at h
          rw [← h.1, hst]; simp
        | some st =>
          simp only [hc, hst, Run.ok.injEq, Prod.mk.injEq] at h
          intro st' hst'
          rw [← h.1] at hst'
          simp only [Option.some.injEq] at hst'
          subst hst'
          have hs := hs st hst
          unfold Snap.Incoming.acceptChunk
          split
          · exact hs
          · rename_i hsnd
            split
            · exact hs
            · refine ⟨hs.header, fun i x hx => ?_⟩
              simp only [AMap.get_set] at hx
              split at hx
              · rename_i hi
                simp only [Option.some.injEq] at hx
                subst hx
                right
                have hsnd : snd = st.sender := by simpa using hsnd
                refine ⟨did, b, sid, ?_, ?_⟩
                · rw [← hsnd]; exact ha
                · rw [hc, hi]
              · exact hs.chunks i x hx

/-! ## The channel layer inside a replica -/

/-- Nothing has gone through the channel layer yet. -/
def Blank (c : Channels P S E H) : Prop := c.module = Comm.Module.new

/-- The channel layer has a history of calls. -/
def Recorded (ops : Comm.Ops S E H) (c : Channels P S E H) : Prop := ∃ me R T, History ops me R T c.log c.module

theorem blank_processOut {c c' : Channels P S E H} {u x} (hb : Blank c) (h : Channels.processOut ops V c u = .ok (c', x)) : Blank c' := by
  unfold Channels.processOut at h
  unfold Blank at hb
  simp only [hb, Comm.Module.processOut, Comm.Module.new, if_true, Run.bind_eq_ok, Run.ok.injEq, Prod.mk.injEq] at h
  obtain ⟨y, rfl, rfl, _⟩ := h
  rfl

theorem blank_processIn {c c' : Channels P S E H} {m x} (hb : Blank c) (h : Channels.processIn ops V c m = .ok (c', x)) :
    Blank c' ∧ ∀ up, x ≠ .ok (some up) := by
  unfold Channels.processIn at h
  unfold Blank at hb
  simp only [hb, Comm.Module.processIn, Comm.Module.new, if_true, Run.bind_eq_ok, Run.ok.injEq, Prod.mk.injEq] at h
  obtain ⟨y, rfl, rfl, rfl⟩ := h
  exact ⟨rfl, by simp [palResult]⟩

theorem blank_takeOut {c c' : Channels P S E H} {out} (hb : Blank c) (h : Channels.takeOut ops V c = .ok (c', out)) :
    Blank c' ∧ out = [] := by
  unfold Channels.takeOut at h
  unfold Blank at hb
  have ho : V.order c.env (Comm.Module.new : Comm.Module S E H).replicas = [] :=
    List.Perm.eq_nil (V.order_perm c.env [])
  simp only [hb, ho, Comm.Module.takeOut, Comm.takeAll, Run.bind_eq_ok, Run.ok.injEq, Prod.mk.injEq] at h
  obtain ⟨y, ⟨z, rfl, rfl⟩, rfl, rfl⟩ := h
  exact ⟨rfl, rfl⟩

theorem recorded_processOut {c c' : Channels P S E H} {u x} (hr : Recorded ops c) (h : Channels.processOut ops V c u = .ok (c', x)) :
    Recorded ops c' ∧ ∃ ev, c'.log = c.log ++ [ev] := by
  obtain ⟨me, R, T, hh⟩ := hr
  simp only [Channels.processOut, Run.bind_eq_ok, Run.ok.injEq, Prod.mk.injEq] at h
  obtain ⟨y, h1, rfl, _⟩ := h
  exact ⟨⟨me, R, T, hh.step (.out h1)⟩, _, rfl⟩

theorem recorded_processIn {c c' : Channels P S E H} {m x} (hr : Recorded ops c) (h : Channels.processIn ops V c m = .ok (c', x)) :
    Recorded ops c' ∧ (∃ ev, c'.log = c.log ++ [ev]) ∧ ∀ k rcp snd pl, x = .ok (some (.data ⟨k, rcp, snd, pl⟩)) →
      ∃ b, pl = some ⟨b, []⟩ ∧ Authentic ops c'.log k snd b := by
  obtain ⟨me, R, T, hh⟩ := hr
  simp only [Channels.processIn, Run.bind_eq_ok, Run.ok.injEq, Prod.mk.injEq] at h
  obtain ⟨⟨m', y⟩, h1, rfl, hx⟩ := h
  refine ⟨⟨me, R, T, hh.step (.inn h1)⟩, ⟨_, rfl⟩, fun k rcp snd pl he => ?_⟩
  subst he
  cases y with
  | error e => simp [palResult] at hx
  | ok y =>
    simp only [palResult, Except.ok.injEq] at hx
    subst hx
    obtain ⟨d, cipher, e, b, rfl, _, h3, h4, h5, h6⟩ := Comm.C19_only_decrypted hh h1
    simp only [Comm.InMsg.data.injEq, Comm.Data.mk.injEq] at h6
    obtain ⟨rfl, _, rfl, rfl⟩ := h6
    refine ⟨b, rfl, d, cipher, _, _, e, List.mem_append.2 (Or.inr (List.mem_singleton.2 rfl)), rfl, rfl, h4, h3.mono _, h5⟩

theorem recorded_takeOut {c c' : Channels P S E H} {out} (hr : Recorded ops c) (h : Channels.takeOut ops V c = .ok (c', out)) :
    Recorded ops c' ∧ (∃ e1 e2, c'.log = c.log ++ [e1] ++ [e2]) ∧ ∀ x, .data x ∈ out → Sealed ops c'.log x := by
  obtain ⟨me, R, T, hh⟩ := hr
  simp only [Channels.takeOut, Run.bind_eq_ok, Run.ok.injEq, Prod.mk.injEq] at h
  obtain ⟨⟨m', y⟩, h1, rfl, rfl⟩ := h
  have hh2 := hh.step (.shuffle (V.order_perm c.env c.module.replicas))
  refine ⟨⟨me, R, T, hh2.step (.take h1)⟩, ⟨_, _, rfl⟩, fun x hx => ?_⟩
  obtain ⟨u, e, h2, _, h4, h5⟩ := Comm.C15_only_ciphertext hh2 h1 hx
  exact ⟨u, e, accepted_mono h2 _, h4.mono _, h5⟩

/-! ## The invariant -/

/-- Before anything went through the channels. -/
structure Quiet (d : Driver σ (Simple ν Y) (Channels P S E H) H) : Prop where
  blank : Blank d.comm
  steps : stepped d.trace = []
  outs : dataMessages (DrvSpec.outMessages d.trace) = []
  receiver : d.snap.receiver.state = none

/-- And afterwards. -/
structure Busy (ops : Comm.Ops S E H) (codecs : Codecs) (d : Driver σ (Simple ν Y) (Channels P S E H) H) : Prop where
  recorded : Recorded ops d.comm
  steps : ∀ m ∈ stepped d.trace, Genuine ops codecs d.comm.log m
  outs : ∀ x ∈ dataMessages (DrvSpec.outMessages d.trace), Sealed ops d.comm.log x
  receiver : ∀ st, d.snap.receiver.state = some st → Sourced ops codecs d.comm.log st

/-- The invariant of a replica. -/
structure Guarded (ops : Comm.Ops S E H) (codecs : Codecs) (d : Driver σ (Simple ν Y) (Channels P S E H) H) : Prop where
  created : d.state = .created → Quiet d
  either : Quiet d ∨ Busy ops codecs d

theorem Guarded.same {d d' : Driver σ (Simple ν Y) (Channels P S E H) H} (h : Guarded ops codecs d) (hc : d'.comm = d.comm)
    (hs : stepped d'.trace = stepped d.trace)
    (ho : dataMessages (DrvSpec.outMessages d'.trace) = dataMessages (DrvSpec.outMessages d.trace))
    (hr : d'.snap.receiver.state = none ∨ d'.snap.receiver.state = d.snap.receiver.state) (hl : d'.state = .created → d.state = .created) :
    Guarded ops codecs d' := by
  have hq : Quiet d → Quiet d' := fun q => ⟨by unfold Blank; rw [hc]; exact q.blank, hs.trans q.steps, ho.trans q.outs, by
    rcases hr with hr | hr
    · exact hr
    · exact hr.trans q.receiver⟩
  refine ⟨fun hx => hq (h.created (hl hx)), ?_⟩
  rcases h.either with q | b
  · exact Or.inl (hq q)
  · refine Or.inr ⟨by rw [hc]; exact b.recorded, by rw [hs, hc]; exact b.steps, by rw [ho, hc]; exact b.outs, fun st hst => ?_⟩
    rw [hc]
    rcases hr with hr | hr
    · rw [hr] at hst; simp at hst
    · exact b.receiver st (hr ▸ hst)

theorem stepped_append (t u : List (Drv.Ev H)) : stepped (t ++ u) = stepped t ++ stepped u := by simp [stepped]

theorem dataMessages_append (t u : List (Drv.Ev H)) : dataMessages (DrvSpec.outMessages (t ++ u)) =
    dataMessages (DrvSpec.outMessages t) ++ dataMessages (DrvSpec.outMessages u) := by simp [dataMessages, DrvSpec.outMessages]

/-- Interactions that neither give consensus a message nor send one to another replica. -/
structure Mute (e : Drv.Ev H) : Prop where
  step : stepped [e] = []
  out : dataMessages (DrvSpec.outMessages [e]) = []

theorem RaftCall.mute {R : RaftT (Simple ν Y)} {r r' : Simple ν Y} {e : Drv.Ev H} (h : RaftCall R r e r') : Mute e := by
  cases h <;> exact ⟨rfl, rfl⟩

theorem ActorEv.mute {e : Drv.Ev H} (h : ActorEv e) : Mute e := by
  cases e <;> first | exact ⟨rfl, rfl⟩ | exact h.elim

/-- One more record of the channel layer. -/
theorem Busy.log {d : Driver σ (Simple ν Y) (Channels P S E H) H} (b : Busy ops codecs d) {c' : Channels P S E H}
    {ev : Comm.Spec.Ev S H} (hr : Recorded ops c') (hl : c'.log = d.comm.log ++ [ev]) {e : Drv.Ev H} (he : Mute e) :
    Busy ops codecs { d with comm := c', trace := d.trace ++ [e] } := by
  refine ⟨hr, fun m hm => ?_, fun x hx => ?_, fun st hst => ?_⟩
  · rw [show ({ d with comm := c', trace := d.trace ++ [e] } : Driver _ _ _ _).comm.log = _ from hl]
    simp only [stepped_append, he.step, List.append_nil] at hm
    exact (b.steps m hm).mono ev
  · rw [show ({ d with comm := c', trace := d.trace ++ [e] } : Driver _ _ _ _).comm.log = _ from hl]
    simp only [dataMessages_append, he.out, List.append_nil] at hx
    exact (b.outs x hx).mono ev
  · rw [show ({ d with comm := c', trace := d.trace ++ [e] } : Driver _ _ _ _).comm.log = _ from hl]
    exact (b.receiver st hst).mono ev

theorem Quiet.log {d : Driver σ (Simple ν Y) (Channels P S E H) H} (q : Quiet d) {c' : Channels P S E H} (hb : Blank c')
    {e : Drv.Ev H} (he : Mute e) : Quiet { d with comm := c', trace := d.trace ++ [e] } :=
  ⟨hb, by simp only [stepped_append, he.step, q.steps, List.append_nil], by
    simp only [dataMessages_append, he.out, q.outs, List.append_nil], q.receiver⟩

theorem guarded_out {d : Driver σ (Simple ν Y) (Channels P S E H) H} {u c' x}
    (hc : (sys A N ops V codecs).C.processOut d.comm u = .ok (c', x)) (h : Guarded ops codecs d) :
    Guarded ops codecs { d with comm := c', trace := d.trace ++ [.commOut u] } := by
  have hm : Mute (Drv.Ev.commOut u : Drv.Ev H) := ⟨rfl, rfl⟩
  refine ⟨fun hx => ((h.created hx).log (blank_processOut (h.created hx).blank hc) hm), ?_⟩
  rcases h.either with q | b
  · exact Or.inl (q.log (blank_processOut q.blank hc) hm)
  · obtain ⟨h1, ev, h2⟩ := recorded_processOut b.recorded hc
    exact Or.inr (b.log h1 h2 hm)

theorem guarded_leaves : Leaves (sys A N ops V codecs) (Guarded (σ := σ) (ν := ν) (Y := Y) (P := P) ops codecs) where
  quiet hc h := h.same hc.comm (by rw [hc.trace]) (by rw [hc.trace]) (by rw [hc.snap]; exact Or.inr rfl) (by rw [hc.state]; exact id)
  actor he h := by
    have hm := ActorEv.mute he
    exact h.same rfl (by simp [stepped_append, hm.step]) (by simp [dataMessages_append, hm.out]) (Or.inr rfl) id
  host {d m} hm h := by
    refine h.same rfl (by rw [stepped_append]; simp [stepped]) ?_ (Or.inr rfl) id
    rw [dataMessages_append]
    have : dataMessages (DrvSpec.outMessages [Drv.Ev.out m]) = [] := by
      cases m with
      | comm c => exact absurd rfl (hm c)
      | _ => rfl
    rw [this, List.append_nil]
  raft hc _ _ h := by
    have hm := RaftCall.mute hc
    exact h.same rfl (by simp [stepped_append, hm.step]) (by simp [dataMessages_append, hm.out]) (Or.inr rfl) id
  init _ _ h := h.same rfl (by rw [stepped_append]; simp [stepped]) (by rw [dataMessages_append]; simp [dataMessages, DrvSpec.outMessages])
    (Or.inr rfl) id
  started {d retry timeout _} hs _ h := by
    have q := h.created hs
    refine ⟨fun hx => by simp at hx, Or.inr ⟨⟨d.id, retry, timeout, ?_⟩, ?_, ?_, ?_⟩⟩
    · show History ops d.id retry timeout [] (d.comm.module.init d.id retry timeout)
      rw [q.blank]; exact .init
    · intro m hm; rw [show stepped _ = _ from q.steps] at hm; simp at hm
    · intro m hm; rw [show dataMessages _ = _ from q.outs] at hm; simp at hm
    · intro st hst; rw [show d.snap.receiver.state = none from q.receiver] at hst; simp at hst
  stopped h := h.same rfl rfl rfl (Or.inr rfl) (by simp)
  snapInit {d cfg p} _ hp h := by
    refine h.same rfl rfl rfl (Or.inr ?_) id
    unfold Snap.Processor.init at hp
    split at hp
    · simp at hp
    · simp only [Run.ok.injEq] at hp; rw [← hp]; rfl
  snapCluster hp h := h.same rfl rfl rfl (clusterChange_state hp) id
  sender _ h := h.same rfl rfl rfl (Or.inr rfl) id
  stashed _ _ h := h.same rfl rfl rfl (Or.inr rfl) id
  sending hd h := Sending.run
    { drop := fun h => h.same rfl rfl rfl (Or.inr rfl) id
      sender := fun h => h.same rfl rfl rfl (Or.inr rfl) id
      report := fun _ h => h.same rfl (by rw [stepped_append]; simp [stepped])
        (by rw [dataMessages_append]; simp [dataMessages, DrvSpec.outMessages]) (Or.inr rfl) id
      commOut := guarded_out } hd h
  commOut _ hc h := guarded_out hc h
  commIn {d m c' x} _ hc h := by
    have hm : Mute (Drv.Ev.commIn m) := ⟨rfl, rfl⟩
    refine ⟨fun hx => ((h.created hx).log (blank_processIn (h.created hx).blank hc).1 hm), ?_⟩
    rcases h.either with q | b
    · exact Or.inl (q.log (blank_processIn q.blank hc).1 hm)
    · obtain ⟨h1, ⟨ev, h2⟩, _⟩ := recorded_processIn b.recorded hc
      exact Or.inr (b.log h1 h2 hm)
  commTick {d} h := by
    have hm : Mute (Drv.Ev.commTick : Drv.Ev H) := ⟨rfl, rfl⟩
    have hq : Quiet d → Quiet { d with comm := (sys A N ops V codecs).C.tick d.comm, trace := d.trace ++ [.commTick] } := fun q =>
      q.log (c' := (sys A N ops V codecs).C.tick d.comm) (by
        show d.comm.module.tick = _
        rw [q.blank]; rfl) hm
    refine ⟨fun hx => hq (h.created hx), ?_⟩
    rcases h.either with q | b
    · exact Or.inl (hq q)
    · obtain ⟨me, R, T, hh⟩ := b.recorded
      exact Or.inr (b.log (c' := (sys A N ops V codecs).C.tick d.comm) ⟨me, R, T, hh.step .tick⟩ rfl hm)
  commCluster {d} h := by
    generalize d.conf.voters = ids
    have hm : Mute (Drv.Ev.commCluster ids : Drv.Ev H) := ⟨rfl, rfl⟩
    have hq : Quiet d → Quiet { d with comm := (sys A N ops V codecs).C.clusterChange d.comm ids, trace := d.trace ++ [.commCluster ids] } :=
      fun q => q.log (c' := (sys A N ops V codecs).C.clusterChange d.comm ids) (by
        show d.comm.module.clusterChange ids = _
        rw [q.blank]
        unfold Comm.Module.clusterChange
        split <;> rfl) hm
    refine ⟨fun hx => hq (h.created hx), ?_⟩
    rcases h.either with q | b
    · exact Or.inl (hq q)
    · obtain ⟨me, R, T, hh⟩ := b.recorded
      exact Or.inr (b.log (c' := (sys A N ops V codecs).C.clusterChange d.comm ids) ⟨me, R, T, hh.step .cluster⟩ rfl hm)
  take {d c' out} hc h := by
    have hst : stepped (out.map fun m => (.out (.comm m) : Drv.Ev H)) = [] := by
      induction out with
      | nil => rfl
      | cons a l ih => simp [stepped]
    have hq : Quiet d →
        Quiet { d with comm := c', messages := d.messages ++ out.map .comm, trace := d.trace ++ out.map fun m => .out (.comm m) } :=
        fun q => by
      obtain ⟨h1, rfl⟩ := blank_takeOut q.blank hc
      exact ⟨h1, by simpa using q.steps, by simpa using q.outs, q.receiver⟩
    refine ⟨fun hx => hq (h.created hx), ?_⟩
    rcases h.either with q | b
    · exact Or.inl (hq q)
    · obtain ⟨h1, ⟨e1, e2, h2⟩, h3⟩ := recorded_takeOut b.recorded hc
      refine Or.inr ⟨h1, fun m hm => ?_, fun x hx => ?_, fun st hs => ?_⟩
      · simp only [stepped_append, hst, List.append_nil] at hm
        show Genuine ops codecs c'.log m
        rw [h2]; exact ((b.steps m hm).mono e1).mono e2
      · simp only [dataMessages_append, List.mem_append] at hx
        show Sealed ops c'.log x
        rcases hx with hx | hx
        · rw [h2]; exact ((b.outs x hx).mono e1).mono e2
        · refine h3 x ?_
          simp only [dataMessages, DrvSpec.outMessages, List.filterMap_map, List.mem_filterMap] at hx
          obtain ⟨y, ⟨m, hm, hy⟩, hx⟩ := hx
          simp only [Function.comp, Option.some.injEq] at hy
          subst hy
          cases m with
          | handshake a => simp at hx
          | data z => simp only [Option.some.injEq] at hx; subst hx; exact hm
      · show Sourced ops codecs c'.log st
        rw [h2]; exact ((b.receiver st hs).mono e1).mono e2
  system {d m c' rcp snd p rm r' y} hc hd _ h := by
    have hno : Quiet d → False := fun q => (blank_processIn q.blank hc).2 _ rfl
    refine ⟨fun hx => (hno (h.created hx)).elim, ?_⟩
    rcases h.either with q | b
    · exact (hno q).elim
    · obtain ⟨h1, ⟨ev, h2⟩, h3⟩ := recorded_processIn b.recorded hc
      obtain ⟨bs, hp, ha⟩ := h3 _ _ _ _ rfl
      simp only [Option.some.injEq] at hp
      subst hp
      have b2 := b.log h1 h2 (e := .commIn m) ⟨rfl, rfl⟩
      refine Or.inr ⟨h1, fun m' hm => ?_, fun x hx => ?_, b2.receiver⟩
      · rw [stepped_append, List.mem_append] at hm
        rcases hm with hm | hm
        · exact b2.steps m' hm
        · have hm := List.mem_singleton.1 hm
          subst hm
          exact Or.inl ⟨snd, bs, ha, hd⟩
      · rw [dataMessages_append, List.mem_append] at hx
        rcases hx with hx | hx
        · exact b2.outs x hx
        · simp [dataMessages, DrvSpec.outMessages] at hx
  chunk {d m c' did rcp snd pl r resp} _ _ hc hr h := by
    have hno : Quiet d → False := fun q => (blank_processIn q.blank hc).2 _ rfl
    refine ⟨fun hx => (hno (h.created hx)).elim, ?_⟩
    rcases h.either with q | b
    · exact (hno q).elim
    · obtain ⟨h1, ⟨ev, h2⟩, h3⟩ := recorded_processIn b.recorded hc
      obtain ⟨bs, rfl, ha⟩ := h3 _ _ _ _ rfl
      have b2 := b.log h1 h2 (e := .commIn m) ⟨rfl, rfl⟩
      exact Or.inr ⟨h1, b2.steps, b2.outs, Sourced.request (r := d.snap.receiver) b2.receiver ha hr⟩
  complete hp h := h.same rfl rfl rfl (tryComplete_state hp) id
  install {d r snd sn r' y} hp _ h := by
    have hno : Quiet d → False := fun q => by
      simp only [Snap.Receiver.tryComplete, q.receiver, Run.ok.injEq, Prod.mk.injEq] at hp
      simp at hp
    refine ⟨fun hx => (hno (h.created hx)).elim, ?_⟩
    rcases h.either with q | b
    · exact (hno q).elim
    · refine Or.inr ⟨b.recorded, fun m hm => ?_, fun x hx => ?_, fun st hst => ?_⟩
      · rw [stepped_append, List.mem_append] at hm
        rcases hm with hm | hm
        · exact b.steps m hm
        · have hm := List.mem_singleton.1 hm
          subst hm
          exact Or.inr ⟨d.id, snd, sn, rfl, Sourced.complete b.receiver hp⟩
      · rw [dataMessages_append, List.mem_append] at hx
        rcases hx with hx | hx
        · exact b.outs x hx
        · simp [dataMessages, DrvSpec.outMessages] at hx
      · rcases tryComplete_state hp with h0 | h0
        · rw [h0] at hst; simp at hst
        · exact b.receiver st (h0 ▸ hst)

end TCP.Replica
