import Verif.Proofs.SurviveStore
import Verif.Props.SurviveExample

/-!
# A small raft-rs node over the real log store for C96

Used only to show that the hypotheses of the theorems in `Props/SurviveStore` can be met.  The node is the only voter: what is proposed to
it is stored with the next `Ready` and committed once it is stored.  A node that does not lead installs the snapshots it gets.  Every other message
makes it ask its store for a snapshot for the sender.
-/

namespace TCP.SurvStoreExample

open TCP TCP.Drv TCP.Replica TCP.Survive

structure Nd where
  store : Storage.Store
  lead : Bool
  queue : List (EntryType × Bytes)
  snap : Option Snap.RaftSnapshot
deriving Repr, DecidableEq

/-- Entries from index `i` on. -/
def numbered : Nat → List (EntryType × Bytes) → List Entry
  | _, [] => []
  | i, x :: q => ⟨i, 1, x.1, x.2⟩ :: numbered (i + 1) q

def node : NodeT Nd (List Entry) where
  new _ _ s := .ok (.ok ⟨s, decide (s.snap.index = 1), [], none⟩)
  store n := n.store
  setStore n s := { n with store := s }
  isLeader n := n.lead
  leaderId n := if n.lead then 1 else 0
  term _ := 1
  hasPendingConf _ := false
  step n m := match m.snapshot with
    | some s => .ok (if n.lead = false ∧ Storage.lastIndex n.store < s.metadata.index then { n with snap := some s } else n, .ok ())
    | none => .ok ({ n with store := (Storage.snapshot n.store 1 m.from_).1 }, .ok ())
  propose n b := if n.lead then .ok ({ n with queue := n.queue ++ [(.normal, b)] }, .ok ()) else .ok (n, .error .proposalDropped)
  proposeConf n c := if n.lead then .ok ({ n with queue := n.queue ++ [(.confChange, [UInt8.ofNat c.nodeId, if c.add then 1 else 0])] }, .ok ())
    else .ok (n, .error .proposalDropped)
  tick n := .ok n
  applyConf n c := .ok (n, .ok ⟨if c.add then [1, c.nodeId] else [1], [], []⟩)
  hasReady n := .ok (!n.queue.isEmpty || n.snap.isSome)
  ready n := .ok ({ n with queue := [], snap := none }, numbered (Storage.lastIndex n.store + 1) n.queue,
    ⟨[], [], numbered (Storage.lastIndex n.store + 1) n.queue, [], none, n.snap.getD DrvExample.noSnapshot, 1⟩)
  advance n w := .ok (n, ⟨[], w⟩)
  advanceApply n := .ok n
  reportSnapshot n _ _ := .ok n

theorem node_contract : NodeContract node where
  store_set _ _ := rfl
  new h := by simp only [node, Run.ok.injEq, Except.ok.injEq] at h; subst h; exact .refl
  step {n m n' x} h := by
    simp only [node] at h
    split at h
    · simp only [Run.ok.injEq, Prod.mk.injEq] at h
      obtain ⟨rfl, _⟩ := h
      split <;> exact .refl
    · simp only [Run.ok.injEq, Prod.mk.injEq] at h
      obtain ⟨rfl, _⟩ := h
      exact .ask .refl _ _
  propose {n b n' x} h := by
    simp only [node] at h
    split at h <;> (simp only [Run.ok.injEq, Prod.mk.injEq] at h; obtain ⟨rfl, _⟩ := h; exact .refl)
  proposeConf {n b n' x} h := by
    simp only [node] at h
    split at h <;> (simp only [Run.ok.injEq, Prod.mk.injEq] at h; obtain ⟨rfl, _⟩ := h; exact .refl)
  tick h := by simp only [node, Run.ok.injEq] at h; subst h; exact .refl
  applyConf h := by simp only [node, Run.ok.injEq, Prod.mk.injEq] at h; obtain ⟨rfl, _⟩ := h; exact .refl
  ready h := by simp only [node, Run.ok.injEq, Prod.mk.injEq] at h; obtain ⟨rfl, _⟩ := h; exact .refl
  advance h := by simp only [node, Run.ok.injEq, Prod.mk.injEq] at h; obtain ⟨rfl, _⟩ := h; exact .refl
  advanceApply h := by simp only [node, Run.ok.injEq] at h; subst h; exact .refl
  reportSnapshot h := by simp only [node, Run.ok.injEq] at h; subst h; exact .refl

abbrev codecs := DrvExample.codecs

section
variable {σ : Type}

/-- No further promises of raft-rs. -/
def close (T : Terms σ (Simple Nd (List Entry))) : Terms σ (Simple Nd (List Entry)) :=
  { T with
    raftConfig := fun _ => True
    snapshot := fun s => T.image s.data
    change := fun _ => True }

/-- What was proposed can be read. -/
def Pend (T : Terms σ (Simple Nd (List Entry))) (q : List (EntryType × Bytes)) : Prop := ∀ x ∈ q, ∀ i, Readable codecs (close T) ⟨i, 1, x.1, x.2⟩

theorem pend_nil {T : Terms σ (Simple Nd (List Entry))} : Pend T [] := fun x hx => by cases hx

/-- Nothing is left to be handed out. -/
def Empty (n : Nd) : Prop := n.queue = [] ∧ n.snap = none

def At (T : Terms σ (Simple Nd (List Entry))) : Stage → Nat → Nd → Prop
  | .idle, i, n => (n.lead = false → n.queue = []) ∧ Pend T n.queue ∧ Storage.lastIndex n.store = i ∧
      ∀ s, n.snap = some s → n.lead = false ∧ Storage.lastIndex n.store < s.metadata.index ∧ T.image s.data
  | .fetched y, i, n => Empty n ∧ Storage.lastIndex n.store = i ∧ y.committed = [] ∧
      ((y.snapshot.metadata.index = 0 ∧ ∃ q, Pend T q ∧ y.entries = numbered (i + 1) q) ∨ (i < y.snapshot.metadata.index ∧ y.entries = []))
  | .stated y, i, n => Empty n ∧ Storage.lastIndex n.store = i ∧ y.committed = [] ∧
      ((y.snapshot.metadata.index = 0 ∧ ∃ q, Pend T q ∧ y.entries = numbered (i + 1) q) ∨ (i < y.snapshot.metadata.index ∧ y.entries = []))
  | .restored y todo, i, n => Empty n ∧ Storage.lastIndex n.store = i ∧ todo = [] ∧ ∃ q, Pend T q ∧ y.entries = numbered (i + 1) q
  | .stored y, i, n => Empty n ∧ ∃ q, Pend T q ∧ y.entries = numbered (i + 1) q ∧ Storage.lastIndex n.store = i + q.length
  | .light _ todo, i, n => Empty n ∧ ∃ q, todo = numbered (i + 1) q ∧ Storage.lastIndex n.store = i + q.length

/-- The log has to be in order for the store to say where it ends. -/
def nodeTerms (T : Terms σ (Simple Nd (List Entry))) : NodeTerms Nd (List Entry) where
  node st i c n := At T st i n ∧ LogOk i c n.store
  rest y w := w = y.entries
  message _ m := ∀ s, m.snapshot = some s → T.image s.data

theorem numbered_ordered (q : List (EntryType × Bytes)) (i : Nat) : Ordered (numbered i q) ∧ ∀ e ∈ numbered i q, i ≤ e.index := by
  induction q generalizing i with
  | nil => exact ⟨.nil, by simp [numbered]⟩
  | cons x q ih =>
    obtain ⟨h1, h2⟩ := ih (i + 1)
    refine ⟨List.Pairwise.cons (fun e he => h2 e he) h1, fun e he => ?_⟩
    rcases List.mem_cons.1 he with rfl | he
    · exact Nat.le_refl _
    · have := h2 e he; omega

theorem numbered_batch (q : List (EntryType × Bytes)) (i : Nat) : Storage.Spec.ConsecutiveFrom i ((numbered i q).map toStoreEntry) := by
  induction q generalizing i with
  | nil => trivial
  | cons x q ih => exact ⟨rfl, ih (i + 1)⟩

theorem numbered_readable {T : Terms σ (Simple Nd (List Entry))} {q : List (EntryType × Bytes)} (h : Pend T q) (i : Nat) :
    ∀ e ∈ numbered i q, Readable codecs (close T) e := by
  induction q generalizing i with
  | nil => simp [numbered]
  | cons x q ih =>
    intro e he
    rcases List.mem_cons.1 he with rfl | he
    · exact h x (List.mem_cons_self ..) i
    · exact ih (fun y hy => h y (List.mem_cons_of_mem _ hy)) (i + 1) e he

theorem numbered_last (q : List (EntryType × Bytes)) (i : Nat) (h : q ≠ []) : ∃ e, (numbered i q).getLast? = some e ∧ e.index + 1 = i + q.length := by
  induction q generalizing i with
  | nil => exact absurd rfl h
  | cons x q ih =>
    cases q with
    | nil => exact ⟨_, rfl, rfl⟩
    | cons y q =>
      obtain ⟨e, h1, h2⟩ := ih (i + 1) (by simp)
      refine ⟨e, ?_, by simp only [List.length_cons] at h2 ⊢; omega⟩
      change (⟨i, 1, x.1, x.2⟩ :: numbered (i + 1) (y :: q)).getLast? = some e
      rw [List.getLast?_cons, h1]
      rfl

theorem numbered_extends (q : List (EntryType × Bytes)) (i : Nat) : Extends i i (numbered (i + 1) q) := by
  cases q with
  | nil => exact ⟨trivial, by simp [numbered]⟩
  | cons x q =>
    refine ⟨numbered_batch (x :: q) (i + 1), fun e he => ?_⟩
    simp only [numbered, List.head?_cons, Option.some.injEq] at he
    subst he
    exact ⟨Nat.lt_succ_self _, Nat.le_refl _⟩

theorem light_next {T : Terms σ (Simple Nd (List Entry))} {l : LightReady} {e : Entry} {es : List Entry} {i : Nat} {c c' : Storage.ConfState} {n : Nd}
    (h : At T (.light l (e :: es)) i n) (hl : LogOk i c n.store) : (nodeTerms T).node (.light l es) e.index c' n := by
  obtain ⟨h1, q, h2, h3⟩ := h
  cases q with
  | nil => cases h2
  | cons x q =>
    simp only [numbered, List.cons.injEq] at h2
    obtain ⟨rfl, rfl⟩ := h2
    simp only [List.length_cons] at h3
    have hb := hl.behind
    exact ⟨⟨h1, q, rfl, by rw [h3]; change _ = i + 1 + _; omega⟩, hl.reachable, show _ ≤ i + 1 by omega, fun h => by change i + 1 = _ at h; omega,
      show i + 1 ≤ _ by rw [h3]; omega⟩

theorem node_safe (T : Terms σ (Simple Nd (List Entry))) : NodeSafe node codecs (close T) (nodeTerms T) where
  join {id cfg n} _ := ⟨_, rfl, ⟨fun _ => rfl, pend_nil, rfl, fun s hs => (by cases hs)⟩, logOk_new n⟩
  found {id cfg n b s} _ _ hs := by
    obtain ⟨s', h1, h2, h3⟩ := logOk_apply (sn := ⟨1, 1, ⟨[id], [], []⟩, b⟩) (logOk_new n) Nat.zero_lt_one
    rw [h1] at hs
    cases hs
    exact ⟨_, rfl, ⟨fun _ => rfl, pend_nil, h3, fun s hs => (by cases hs)⟩, h2⟩
  step := by
    rintro i c n m ⟨⟨h1, h2, h3, h4⟩, hl⟩ hm
    simp only [node]
    split
    · rename_i s hs
      refine ⟨_, rfl, ?_⟩
      split
      · rename_i hc
        exact ⟨⟨h1, h2, h3, fun x hx => by cases hx; exact ⟨hc.1, hc.2, hm s hs⟩⟩, hl⟩
      · exact ⟨⟨h1, h2, h3, h4⟩, hl⟩
    · have ha : Asked n.store (Storage.snapshot n.store 1 m.from_).1 := .ask .refl _ _
      have hla := lastIndex_same (asked_same ha)
      exact ⟨_, rfl, ⟨h1, h2, hla.trans h3, fun s hs => by rw [hla]; exact h4 s hs⟩, logOk_asked hl ha⟩
  deliver := by
    rintro i c n me snd s ⟨⟨h1, h2, h3, h4⟩, hl⟩ hs
    refine ⟨_, _, rfl, ?_⟩
    split
    · rename_i hc
      exact ⟨⟨h1, h2, h3, fun x hx => by cases hx; exact ⟨hc.1, hc.2, hs⟩⟩, hl⟩
    · exact ⟨⟨h1, h2, h3, h4⟩, hl⟩
  propose := by
    rintro i c n id k b ⟨⟨h1, h2, h3, h4⟩, hl⟩ hlead hb
    have hle : n.lead = true := hlead
    refine ⟨⟨n.store, n.lead, n.queue ++ [(.normal, _)], n.snap⟩, by simp only [node]; rw [if_pos hle], ⟨fun h => (by rw [hle] at h; cases h), fun x hx j => ?_, h3, h4⟩, hl⟩
    rcases List.mem_append.1 hx with hx | hx
    · exact h2 x hx j
    · rw [List.mem_singleton] at hx
      subst hx
      exact Or.inr (Or.inr ⟨by simp, (id, k), b, Codec.decode_enc DrvExample.entryC _, hb⟩)
  change := by
    rintro i c n k ⟨⟨h1, h2, h3, h4⟩, hl⟩ _
    cases hle : n.lead with
    | false => exact ⟨n, .error .proposalDropped, by simp only [node]; rw [if_neg (by simp [hle])], by simp, ⟨h1, h2, h3, h4⟩, hl⟩
    | true =>
      refine ⟨⟨n.store, n.lead, n.queue ++ [(.confChange, [UInt8.ofNat k.nodeId, if k.add then 1 else 0])], n.snap⟩, .ok (), by simp only [node]; rw [if_pos hle], by simp, ⟨fun h => (by rw [hle] at h; cases h), fun x hx j => ?_, h3, h4⟩, hl⟩
      rcases List.mem_append.1 hx with hx | hx
      · exact h2 x hx j
      · rw [List.mem_singleton] at hx
        subst hx
        exact Or.inr (Or.inl ⟨rfl, _, rfl, trivial⟩)
  tick h := ⟨_, rfl, h⟩
  report h := ⟨_, rfl, h⟩
  create := by
    rintro i c n b s ⟨⟨h1, h2, h3, h4⟩, hl⟩ _ hw hs
    have key : Storage.lastIndex s = Storage.lastIndex n.store ∧ LogOk i c s := by
      obtain ⟨s', h5, h6, h7⟩ := logOk_create b hl hw
      change Storage.createSnapshot n.store i c b = _ at hs
      rw [h5] at hs
      simp only [Run.ok.injEq, Prod.mk.injEq, and_true] at hs
      subst hs
      exact ⟨h7, h6⟩
    exact ⟨⟨h1, h2, key.1.trans h3, fun x hx => by
      have := h4 x hx
      exact ⟨this.1, by change Storage.lastIndex s < _; rw [key.1]; exact this.2.1, this.2.2⟩⟩, key.2⟩
  has _ := ⟨_, rfl⟩
  fetch := by
    rintro i c n ⟨⟨h1, h2, h3, h4⟩, hl⟩ _
    refine ⟨_, _, _, rfl, ⟨⟨⟨rfl, rfl⟩, h3, rfl, ?_⟩, hl⟩, rfl, by simp [Loaded], by simp [Loaded], by simp, .nil, fun h0 => ?_⟩
    · cases hs : n.snap with
      | none => exact Or.inl ⟨rfl, n.queue, h2, by rw [h3]⟩
      | some s =>
        obtain ⟨h5, h6, _⟩ := h4 s hs
        rw [h3] at h6
        exact Or.inr ⟨h6, by simp [h1 h5, numbered]⟩
    · cases hs : n.snap with
      | none => simp only [hs] at h0; exact absurd rfl h0
      | some s => exact (h4 s hs).2.2
  hardState := by
    rintro i c n y h ⟨⟨h1, h2, h3, h4⟩, hl⟩ _
    exact ⟨⟨h1, h2, h3, h4⟩, logOk_hardState h hl⟩
  noHardState h _ := h
  newer := by
    rintro i c n y ⟨⟨h1, h2, h3, h4⟩, hl⟩ h0
    exact (h4.resolve_left fun h => h0 h.1).1
  snapshot := by
    rintro i c n y s ⟨⟨h1, h2, h3, h4⟩, hl⟩ h0 hs
    obtain ⟨h5, h6⟩ := h4.resolve_left fun h => h0 h.1
    obtain ⟨s', h7, h8, h9⟩ := logOk_apply (sn := toStoreSnapshot y.snapshot) hl h5
    change Storage.applySnapshot n.store _ = _ at hs
    rw [h7] at hs
    cases hs
    exact ⟨⟨h1, h9, h3, [], pend_nil, h6⟩, h8⟩
  noSnapshot := by
    rintro i c n y ⟨⟨h1, h2, h3, h4⟩, hl⟩ h0
    rcases h4 with ⟨_, q, h5, h6⟩ | ⟨h5, _⟩
    · exact ⟨⟨h1, h2, h3, q, h5, h6⟩, hl⟩
    · omega
  extends_ := by
    rintro i c n y ⟨⟨h1, h2, h3, q, h4, h5⟩, hl⟩
    change Extends i (Storage.lastIndex n.store) y.entries
    rw [h5, h2]
    exact numbered_extends q i
  append := by
    rintro i c n y s ⟨⟨h1, h2, h3, q, h4, h5⟩, hl⟩ hne hs
    change Storage.appendEntries n.store _ = _ at hs
    obtain ⟨s', h6, h7, h8⟩ := logOk_append (es := y.entries) hl (by rw [h5, h2]; exact numbered_extends q i)
    rw [h6] at hs
    simp only [Run.ok.injEq, Prod.mk.injEq, and_true] at hs
    subst hs
    refine ⟨⟨h1, q, h4, h5, ?_⟩, h7⟩
    obtain ⟨e, h9, h10⟩ := numbered_last q (i + 1) (by intro h; subst h; exact hne h5)
    have := h8 e (by rw [h5]; exact h9)
    change Storage.lastIndex s' = _
    omega
  noEntries := by
    rintro i c n y ⟨⟨h1, h2, h3, q, h4, h5⟩, hl⟩ hne
    cases q with
    | nil => exact ⟨⟨h1, [], h4, h5, h2⟩, hl⟩
    | cons x q => rw [hne] at h5; cases h5
  advance := by
    rintro i c n y w ⟨⟨h1, q, h4, h5, h6⟩, hl⟩ hw
    have hw' : w = y.entries := hw
    subst hw'
    refine ⟨n, ⟨[], y.entries⟩, rfl, ⟨⟨h1, q, h5, h6⟩, hl⟩, by simp [Loaded], ?_, ?_⟩
    · rw [h5]; exact numbered_readable h4 _
    · rw [h5]; exact (numbered_ordered q _).1
  done := by
    rintro i c n l ⟨⟨⟨h1, h1'⟩, q, h5, h6⟩, hl⟩
    refine ⟨n, rfl, ⟨fun _ => h1, by rw [h1]; exact pend_nil, ?_, fun s hs => (by rw [h1'] at hs; cases hs)⟩, hl⟩
    cases q with
    | nil => exact h6
    | cons x q => cases h5
  stored := by
    rintro i c n e es k ⟨h, hl⟩ hk
    rcases hk with ⟨y, rfl⟩ | ⟨l, rfl⟩
    · obtain ⟨_, _, h3, _⟩ := h; cases h3
    · obtain ⟨h1, q, h2, h3⟩ := h
      cases q with
      | nil => cases h2
      | cons x q =>
        simp only [numbered, List.cons.injEq] at h2
        rw [h2.1]
        change i < i + 1 ∧ i + 1 ≤ Storage.lastIndex n.store
        rw [h3]
        simp only [List.length_cons]
        omega
  applied := by
    rintro i c n e es k ⟨h, hl⟩ hk _
    rcases hk with ⟨y, rfl⟩ | ⟨l, rfl⟩
    · obtain ⟨_, _, h3, _⟩ := h; cases h3
    · exact light_next h hl
  applyChange := by
    rintro i c n e es x k ⟨h, hl⟩ hk _ _ _ _
    refine ⟨n, _, rfl, ?_⟩
    rcases hk with ⟨y, rfl⟩ | ⟨l, rfl⟩
    · obtain ⟨_, _, h3, _⟩ := h; cases h3
    · exact light_next h hl
end

/-- The terms of the counter. -/
def counter : Terms Counter.State (Simple Nd (List Entry)) :=
  close (counterTerms Counter.Spec.exMsgs ⟨fun _ => True, fun _ => True, fun _ => True, fun _ => True, fun _ => True, fun _ => True, fun _ _ _ _ => True,
    fun _ _ => True, fun _ => True, fun _ => True⟩)

abbrev Rep := Driver Counter.State (Simple Nd (List Entry)) (Channels Unit Nat Nat Nat) Nat

abbrev counterSys := sys (Counter.actor Counter.Spec.exMsgs) node Comm.exOps RepExample.env codecs

def new : Rep := fresh Counter.State.new ()

/-- Perform calls, keeping what was sent. -/
def runAll : Rep → List (Option (Option (InMsg Nat))) → Run (Rep × List (OutMsg Nat))
  | d, [] => .ok (d, [])
  | d, m :: rest => (serve counterSys 1 m d).bind fun r => (runAll r.1 rest).bind fun x => .ok (x.1, r.2 ++ x.2)

/-- The calls succeed and their results satisfy a predicate. -/
def check (cs : List (Option (Option (InMsg Nat)))) (p : Rep → List (OutMsg Nat) → Bool) : Bool :=
  match runAll new cs with
  | .ok x => p x.1 x.2
  | .panic => false

theorem check_sound {cs p} (h : check cs p = true) : ∃ d' out, runAll new cs = .ok (d', out) ∧ p d' out = true := by
  unfold check at h
  split at h
  · rename_i x hx
    exact ⟨x.1, x.2, hx, h⟩
  · cases h

/-- A snapshot is taken when the log is two entries ahead of the last one. -/
def startReq (leader : Bool) : StartReq := ⟨leader, 1, some { DrvExample.config with snapshotConfig := some (1, 100, 3) }, [0], false, some []⟩

def start (leader : Bool) : Option (Option (InMsg Nat)) := some (some (.startReplica (startReq leader)))

theorem good_start (leader : Bool) : GoodStart (overStore node (nodeTerms counter) counter) (startReq leader) where
  id := by cases leader <;> decide
  ephemeral := rfl
  endorsements := rfl
  config := show (Counter.Spec.exMsgs.decConfig [0]).isSome = true by decide +kernel
  raftConfig := trivial
  chunkSize c s hc hs := by cases hc; cases hs; decide

theorem kept_runAll {d d' : Rep} {cs out} (h : Kept counterSys (overStore node (nodeTerms counter) counter) new d)
    (hc : ∀ m ∈ cs, m = none ∨ ∃ c, m = some (some (.appMessage c))) (hr : runAll d cs = .ok (d', out)) :
    Kept counterSys (overStore node (nodeTerms counter) counter) new d' := by
  induction cs generalizing d out with
  | nil => simp only [runAll, Run.ok.injEq, Prod.mk.injEq] at hr; exact hr.1 ▸ h
  | cons m cs ih =>
    simp only [runAll, Run.bind_eq_ok, Run.ok.injEq, Prod.mk.injEq] at hr
    obtain ⟨r, h1, x, h2, rfl, _⟩ := hr
    refine ih (h.call (msg := m) ?_ h1) (fun m hm => hc m (.tail _ hm)) h2
    rcases hc m (.head _) with rfl | ⟨c, rfl⟩
    · trivial
    · trivial

/-- The state after a start and commands is one the theorems speak about. -/
theorem kept_check {cs p} (h : check (start true :: cs) p = true) (hc : ∀ m ∈ cs, m = none ∨ ∃ c, m = some (some (.appMessage c))) :
    ∃ d out, runAll new (start true :: cs) = .ok (d, out) ∧ p d out = true ∧ Kept counterSys (overStore node (nodeTerms counter) counter) new d := by
  obtain ⟨d, out, h1, h2⟩ := check_sound h
  refine ⟨d, out, h1, h2, ?_⟩
  simp only [runAll, Run.bind_eq_ok] at h1
  obtain ⟨r, h3, x, h4, h5⟩ := h1
  simp only [Run.ok.injEq, Prod.mk.injEq] at h5
  exact kept_runAll (Kept.start (good_start true) h3) hc (out := x.2) (by rw [← h5.1]; exact h4)

/-- The log store of a replica. -/
def log (d : Rep) : Option Storage.Store := d.raft.node.map (·.store)

end TCP.SurvStoreExample
