import Verif.Props.Blob

/-!
# C89: tablets that were never written

A tablet that was never written has the empty uri.  The cache loads it like any other tablet: it asks the storage for the contents of the
empty uri.
-/

namespace TCP.Cache.Props
open TCP TCP.TabletStore TCP.Cache.Spec

variable {α η ω : Type} [DecidableEq α] [DecidableEq η] [DecidableEq ω]

theorem given_first {env : TxnEnv α η ω} {cfg : List (String × UInt32)} {evs evs' : List (MEvent η)} {c : Client α η ω} {c0 : MetaCache} {ins : List Input}
    {devs : List (Event α)} {R : Call α η ω → Prop} (h : GW env cfg evs c c0 ins devs R) {x : Call α η ω} (hx : GivenW evs' ins devs c.m.world x) :
    ∃ qs res, .process x.2.2.1 qs x.1 ∈ evs' ∧ Spec.Answered cfg evs c.m.world.md qs res ∧
      ∀ p, res.head? = some p → ∃ v, MCame env evs c.m p.2.uri v := by
  obtain ⟨qs, lid, ts0, loaded, ts, h1, ⟨k, res, now, l1, l2, l3, l4, l5⟩, h3, h4, h5⟩ := hx
  refine ⟨qs, res, h1, ⟨c0, ins, k, h.wh.started, h.wh.fed, h.sourced, l1, l2⟩, fun p hp => ?_⟩
  have hinv := history_inv h.wh.hist
  obtain ⟨ks, now', ⟨ms', e1, rfl⟩, e2, e3⟩ := hinv.base.core.cells.loadOk lid loaded h3
  cases handle_unique hinv.ids.nodup l4 e1 rfl rfl
  have key : ∃ z ∈ loaded, z.1.uri = p.2.uri := by
    cases now with
    | false =>
      have hm : p ∈ res := List.mem_of_mem_head? hp
      have : p.2.uri ∈ loaded.map fun p => p.1.uri := (e3 rfl).mem_iff.mpr (by rw [List.map_map]; exact List.mem_map.mpr ⟨p, hm, rfl⟩)
      obtain ⟨z, hz, he⟩ := List.mem_map.mp this
      exact ⟨z, hz, he⟩
    | true =>
      obtain ⟨o, o1, o2⟩ := l5 rfl
      rw [h3] at o1
      simp only [Option.some.injEq] at o1
      obtain ⟨z, z1, z2⟩ := o2 loaded o1.symm
      rw [List.head?_map, hp] at z2
      simp only [Option.map_some, Option.some.injEq] at z2
      exact ⟨z, by rw [z1]; simp, z2.symm⟩
  obtain ⟨z, hz, he⟩ := key
  obtain ⟨_, z3⟩ := e2 z hz
  rw [he] at z3
  exact ⟨z.2, came_lift h.io z3⟩

/-- A handler is called only after the storage returned the contents of (or confirmed to have stored) the first tablet of its request –
whether or not tablets share uris, ids or versions.
Missing: tablets that were never written have no contents to return, see `C89_new_fails`. -/
theorem C89_first_partial {env : TxnEnv α η ω} (hsane : Sane env) {cfg : List (String × UInt32)} {evs : List (MEvent η)} {c : Client α η ω}
    (h : MHistory env evs c) (hcfg : Configured cfg evs) {m : Manager α η ω} {x : η} {w : ω} {i : Nat} {vs : List (Query × UInt32 × Option α)}
    (hx : Calls env c.m m x w i vs) :
    ∃ qs res, .process i qs x ∈ evs ∧ Spec.Answered cfg (evs ++ [.progress]) m.world.md qs res ∧
      ∀ q t, res.head? = some (q, t) → ∃ v, MCame env (evs ++ [.progress]) m t.uri v := by
  obtain ⟨c0, ins, devs, R, k1, k2⟩ := calls_given hsane h hcfg (x := (x, w, i, vs)) hx
  obtain ⟨qs, res, h1, h2, h3⟩ := given_first k1 k2
  exact ⟨qs, res, h1, h2, fun q t hp => h3 _ hp⟩

/-- C89 fails: with the uris of the code, if the storage does not return anything for the empty uri, under which nothing is ever stored,
no handler is ever called for a request whose first tablet was never written – so no transaction that uses just one tablet can be the
first to write it. -/
theorem C89_new_fails {env : TxnEnv α η ω} (hu : env.data.uri = formatBlobUri) (hsane : Sane env) {cfg : List (String × UInt32)}
    {evs : List (MEvent η)} {c : Client α η ω} (h : MHistory env evs c) (hcfg : Configured cfg evs) {m : Manager α η ω} {x : η} {w : ω} {i : Nat}
    {vs : List (Query × UInt32 × Option α)} (hx : Calls env c.m m x w i vs)
    (hs : ∀ corr b, .load corr "" ∈ mrequests (evs ++ [.progress]) m → .input (.data (.load corr .succeeded b)) ∉ evs) :
    ∃ qs res, .process i qs x ∈ evs ∧ Spec.Answered cfg (evs ++ [.progress]) m.world.md qs res ∧
      ∀ q t, res.head? = some (q, t) → t.uri ≠ "" := by
  obtain ⟨qs, res, h1, h2, h3⟩ := C89_first_partial hsane h hcfg hx
  refine ⟨qs, res, h1, h2, fun q t ht he => ?_⟩
  obtain ⟨v, hv⟩ := h3 q t ht
  rw [he] at hv
  rcases hv with ⟨corr, b, g1, g2, _⟩ | ⟨b, _, corr, g1, _⟩
  · rw [List.mem_append] at g2
    rcases g2 with g2 | g2
    · exact hs corr b g1 g2
    · simp at g2
  · have h' : MHistory env (evs ++ [.progress]) { c with m := m } := by
      obtain ⟨z1, z2, z3, z4, z5⟩ := h
      exact ⟨z1, z2, z3, z4, MSteps.step z5 (.progress hx.1)⟩
    obtain ⟨devs, w⟩ := history_winv hsane h'
    have g1 : _ ∈ mrequests (evs ++ [.progress]) ({ c with m := m } : Client α η ω).m := g1
    rw [← requests_lift w.io] at g1
    obtain ⟨i, v, h1, _⟩ := (history_blob w.hist).1 _ _ _ g1
    rw [hu] at h1
    exact formatBlobUri_ne h1.symm

/-! ### Concrete runs -/

/-- Tablet 10 is stored, tablet 20 new; a transaction uses tablet 10. -/
def exWritten : List (Cmd Nat) := [.init [("t", 0x40000000)], .start, .process 2 [exQuery [5]] 7, .progress, .progress, .take,
  .input (.response 201 ⟨true, [exList [exMeta 10 "x", Metadata.new 20]]⟩), .progress, .take, .input (.data (.load 301 .succeeded [1]))]

/-- Tablet 10 is new; a transaction uses it, and the storage has nothing for the empty uri. -/
def exUnwritten : List (Cmd Nat) := [.init [("t", 0x40000000)], .start, .process 2 [exQuery [5]] 7, .progress, .progress, .take,
  .input (.response 201 ⟨true, [exList [Metadata.new 10, Metadata.new 20]]⟩), .progress, .take, .input (.data (.load 301 .failed [])), .progress, .pending 2]

/-- Making progress calls the handler, and nothing was loaded from the empty uri. -/
def callsB (x i : Nat) (vs : List (Query × UInt32 × Option Bytes)) (c : Client Bytes Nat Unit) (evs : List (MEvent Nat)) : Bool :=
  match c.m.makeProgress exTxnB with
  | .ok m => (match c.m.makeProgress (without exTxnB x () i vs) with
    | .panic => true
    | .ok _ => false) && (mrequests (evs ++ [.progress]) m).all (notUri "")
  | .panic => false

/-- Non-vacuity of C89: a handler is called, and the storage returned nothing for the empty uri. -/
example : ∃ evs c m, MHistory exTxnB evs c ∧ Configured [("t", 0x40000000)] evs ∧ Calls exTxnB c.m m 7 () 2 [(.create 7 "t" [5], 10, some [1])] ∧
    ∀ corr b, .load corr "" ∈ mrequests (evs ++ [.progress]) m → .input (.data (.load corr .succeeded b)) ∉ evs := by
  have h : holdsB exWritten (fun c evs => initOnce evs && callsB 7 2 [(.create 7 "t" [5], 10, some [1])] c evs) = true := by decide +kernel
  obtain ⟨evs, c, h1, h2⟩ := holdsB_history h
  rw [Bool.and_eq_true] at h2
  obtain ⟨h2, h3⟩ := h2
  unfold callsB at h3
  split at h3
  · rename_i m hm
    rw [Bool.and_eq_true] at h3
    refine ⟨evs, c, m, h1, initOnce_configured h2, ⟨hm, ?_⟩, fun corr b hl => ?_⟩
    · cases hp : c.m.makeProgress (without exTxnB 7 () 2 [(.create 7 "t" [5], 10, some [1])]) with
      | panic => rfl
      | ok _ => rw [hp] at h3; simp at h3
    · have := List.all_eq_true.mp h3.2 _ hl
      simp [notUri] at this
  · cases h3

/-- A transaction on a new tablet: the storage was asked for the empty uri and has nothing for it, and the transaction stays pending. -/
example : ∃ evs c, MHistory exTxnB (evs ++ [.pending 2 true]) c ∧ .load 301 "" ∈ mrequests evs c.m ∧ .input (.data (.load 301 .failed [])) ∈ evs := by
  have h : holdsB exUnwritten (fun c evs => decide (evs = evs.dropLast ++ [.pending 2 true]) && decide (.load 301 "" ∈ mrequests evs.dropLast c.m) &&
      decide (.input (.data (.load 301 .failed [])) ∈ evs.dropLast)) = true := by decide +kernel
  obtain ⟨evs, c, h1, h2⟩ := holdsB_history h
  simp only [Bool.and_eq_true, decide_eq_true_eq] at h2
  exact ⟨evs.dropLast, c, by rw [← h2.1.1]; exact h1, h2.1.2, h2.2⟩

end TCP.Cache.Props
