import Verif.Proofs.CacheCover
import Verif.Props.CacheMetadata
import Verif.Props.TabletStore

/-!
# C49, C52, C53, C62, C63: transactions on cached tablets

A history (`Spec.MHistory`) is a manager created with arbitrary correlation counters, driven by any interleaving of client
calls, `make_progress`, taking of the outgoing messages, and arbitrary incoming messages, as long as no call panics.
-/

namespace TCP.Cache.Props
open TCP TCP.TabletStore TCP.Cache.Spec

variable {α η ω : Type}

/-! ## A concrete manager -/

/-- Tablet contents are bytes; handler 0 only reads, handler `h` replaces every tablet by the byte `h`. -/
def exTxn : TxnEnv Bytes Nat Unit :=
  ⟨exEnv, fun h w _ vs => .ok (w, vs.map fun _ => if h = 0 then none else some [UInt8.ofNat h]), exPolicy⟩

theorem exTxn_sane : Sane exTxn := by intro es k hk; simp [exTxn, exPolicy] at hk

theorem exTxn_readOnly : ReadOnly exTxn 0 := by
  intro w txn vs w' sets h s hs
  simp only [exTxn, Run.ok.injEq, Prod.mk.injEq] at h
  rw [← h.2] at hs
  obtain ⟨v, _, rfl⟩ := List.mem_map.mp hs
  rfl

def exManager : Client Bytes Nat Unit := ⟨.create 100 200 300 (), [], []⟩

/-- The command sequence runs without panic and its result has the property. -/
def holds (cmds : List (Cmd Nat)) (p : Client Bytes Nat Unit → List (MEvent Nat) → Bool) : Bool :=
  match execAll exTxn exManager cmds with
  | .ok (c, evs) => p c evs
  | .panic => false

theorem holds_history {cmds : List (Cmd Nat)} {p : Client Bytes Nat Unit → List (MEvent Nat) → Bool} (h : holds cmds p = true) :
    ∃ evs c, MHistory exTxn evs c ∧ p c evs = true := by
  unfold holds at h
  split at h
  · rename_i c evs he
    exact ⟨evs, c, ⟨_, _, _, _, execAll_sound he⟩, h⟩
  · cases h

/-- A transaction on hash 5 of table `t`; the store lists tablet 10, the storage returns its contents. -/
def exLoad (h : Nat) : List (Cmd Nat) :=
  [.init [("t", 0x40000000)], .start, .process 2 [exQuery [5]] h, .progress, .progress, .take,
   .input (.response 201 ⟨true, [exList [exTablet 10 0]]⟩), .progress, .take, .input (.data (.load 301 .succeeded [1]))]

/-- Then the storage takes the new contents and the transaction is committed. -/
def exCommit : List (Cmd Nat) := exLoad 7 ++ [.progress, .take, .input (.data (.store 302 .succeeded)), .progress, .pending 2, .commit 2, .take]

/-- Tablet 10 as the transaction wants it. -/
def exNew : Metadata := ⟨10, 1, false, [], 1, [7], "10/1"⟩

def exOps : List TabletOp := [⟨"t", some (.update (some exNew))⟩]

/-- What the store answers. -/
def exYes : Response := ⟨true, [⟨"t", .succeeded, some (.update (some (exTablet 10 0)))⟩]⟩

/-- A transaction on hashes 5 and 14; the store lists tablets 10 and 20, both are replaced by [7]. -/
def exTwo : List (Cmd Nat) :=
  [.init [("t", 0x40000000)], .start, .process 2 [exQuery [5, 12, 14]] 7, .progress, .progress, .take,
   .input (.response 201 ⟨true, [exList [exMeta 10 "a", exMeta 20 "b"]]⟩), .progress, .take, .input (.data (.load 301 .succeeded [1])),
   .input (.data (.load 302 .succeeded [2])), .progress, .take, .input (.data (.store 303 .succeeded)), .input (.data (.store 304 .succeeded)), .progress, .commit 2, .take]

def exTwoOps : List TabletOp :=
  [⟨"t", some (.update (some exNew))⟩, ⟨"t", some (.update (some ⟨20, 1, false, [], 1, [7], "20/1"⟩))⟩]

/-! ## C53 -/

/-- Succeeded is reported only for a transaction that was committed; and if the answer to its request had one result for each
of its ops, then every one of these results is of the kind of its op and confirms that it succeeded.
Missing: the coordinator does not compare the number of results with the number of ops, see `C53_fails`; and a communication
error counts as success for a transaction without ops. -/
theorem C53_confirmed_partial {env : TxnEnv α η ω} {evs : List (MEvent η)} {c : Client α η ω} (h : MHistory env evs c) {i : Nat}
    (hc : .check i (some .succeeded) ∈ evs) : ∃ corr ops a b, evs = a ++ .commit i [(corr, ops)] :: b ∧
      ((∀ r, .input (.response corr r) ∈ b → (answers r).length = ops.length) → ops ≠ [] →
        ∃ r, .input (.response corr r) ∈ b ∧ ∀ (k : Nat) (o : TabletOp), ops[k]? = some o →
          ∃ x, (answers r)[k]? = some x ∧ x.status = .succeeded ∧ SameKind o x) := by
  obtain ⟨corr, ops, a, b, h1, h2, _⟩ := check_justified h hc
  refine ⟨corr, ops, a, b, h1, fun hl hne => ?_⟩
  rcases h2 rfl with ⟨h3, _⟩ | ⟨r, h3, _, h4⟩
  · exact absurd h3 hne
  · refine ⟨r, h3, fun k o hk => ?_⟩
    have hlt := (List.getElem?_eq_some_iff.mp hk).1
    have hlt' : k < (answers r).length := by rw [hl r h3]; exact hlt
    refine ⟨(answers r)[k], by simp [hlt'], h4 (o, (answers r)[k]) ?_⟩
    rw [List.mem_iff_getElem?]
    exact ⟨k, by rw [List.getElem?_zip_eq_some]; exact ⟨hk, by simp [hlt']⟩⟩

/-- Failed is reported only if some op was answered as not succeeded. -/
theorem C53_failed {env : TxnEnv α η ω} {evs : List (MEvent η)} {c : Client α η ω} (h : MHistory env evs c) {i : Nat}
    (hc : .check i (some .failed) ∈ evs) : ∃ (corr : Nat) (ops : List TabletOp) (a b : List (MEvent η)) (r : Response) (k : Nat) (o : TabletOp) (x : TabletOpResult), evs = a ++ .commit i [(corr, ops)] :: b ∧
      .input (.response corr r) ∈ b ∧ ops[k]? = some o ∧ (answers r)[k]? = some x ∧ x.status ≠ .succeeded := by
  obtain ⟨corr, ops, a, b, h1, _, h2⟩ := check_justified h hc
  obtain ⟨r, h3, p, h4, h5⟩ := h2 rfl
  obtain ⟨k, hk⟩ := List.mem_iff_getElem?.mp h4
  rw [List.getElem?_zip_eq_some] at hk
  exact ⟨corr, ops, a, b, r, k, p.1, p.2, h1, h3, hk.1, hk.2, h5⟩

/-- An outcome, once reported, is reported by every later check. -/
theorem C53_stable {env : TxnEnv α η ω} {a b : List (MEvent η)} {c : Client α η ω} {i : Nat} {o : Outcome}
    (h : MHistory env (a ++ .check i (some o) :: b) c) : ∀ x, .check i x ∈ b → x = some o := by
  obtain ⟨c1, c2, h1, h2, h3⟩ := h.split
  obtain ⟨_, k, h4, h5⟩ := check_step h2
  intro x hx
  have := (outcome_stays (cinv_step (history_cinv h1) h2) h3 h4 (by simp [h5])).2 x hx
  rw [this, h5]

/-- A transaction is committed at most once, with one request, and no two transactions use the same correlation id. -/
theorem C53_requests {env : TxnEnv α η ω} {evs : List (MEvent η)} {c : Client α η ω} (h : MHistory env evs c) {i : Nat} {s : List (Nat × List TabletOp)}
    (hm : .commit i s ∈ evs) : (∃ corr ops, s = [(corr, ops)] ∧ ∀ j ops', .commit j [(corr, ops')] ∈ evs → j = i) ∧
      (∀ s', .commit i s' ∈ evs → s' = s) ∧ (evs.filterMap sentCorr).Nodup := by
  have hi := history_cinv h
  obtain ⟨_, _, _, corr, ops, rfl, _⟩ := hi.sent i s hm
  refine ⟨⟨corr, ops, rfl, fun j ops' hj => ?_⟩, fun s' hs' => hi.once i _ _ hs' hm, hi.nodup⟩
  by_cases e : MEvent.commit j [(corr, ops')] = (.commit i [(corr, ops)] : MEvent η)
  · cases e; rfl
  · exfalso
    obtain ⟨a, b, rfl⟩ := List.append_of_mem hm
    have hn := hi.nodup
    simp only [List.filterMap_append, List.filterMap_cons, sentCorr] at hn
    rw [List.nodup_append] at hn
    rcases List.mem_append.mp hj with hj | hj
    · have : corr ∈ a.filterMap sentCorr := List.mem_filterMap.mpr ⟨_, hj, rfl⟩
      exact hn.2.2 corr this corr (by simp) rfl
    · rcases List.mem_cons.mp hj with hj | hj
      · exact e hj
      · have : corr ∈ b.filterMap sentCorr := List.mem_filterMap.mpr ⟨_, hj, rfl⟩
        exact (List.nodup_cons.mp hn.2.1).1 this

/-- Every op of a transaction has its table known to a store. -/
def Known (tables : AMap String Tablets) (ops : List TabletOp) : Prop := ∀ o ∈ ops, (tables.get o.table).isSome

theorem prepareOp_kind {env : TabletStore.Env} {t : Tablets} {table : String} {op : Op} {r : TabletOpResult} (h : prepareOp env t table op = .ok r)
    (ho : (∃ j v, op = .check j v) ∨ ∃ m, op = .update (some m)) : TabletOpResult.isExec r = true := by
  rcases ho with ⟨j, v, rfl⟩ | ⟨m, rfl⟩
  · simp only [prepareOp] at h
    split at h
    · simp only [Run.ok.injEq] at h
      rw [← h]; split <;> rfl
    · simp only [Run.ok.injEq] at h
      rw [← h]; rfl
  · simp only [prepareOp] at h
    split at h
    · obtain ⟨x, _, h2⟩ := Run.bind_eq_ok.mp h
      simp only [Run.ok.injEq] at h2
      rw [← h2]; split <;> rfl
    · simp only [Run.ok.injEq] at h
      rw [← h]; rfl

theorem prepareAll_kind {env : TabletStore.Env} {tables : AMap String Tablets} : ∀ {ops : List TabletOp} {rs : List TabletOpResult},
    prepareAll env tables ops = .ok rs → Known tables ops → (∀ o ∈ ops, (∃ j v, o.op = some (.check j v)) ∨ ∃ m, o.op = some (.update (some m))) →
    rs.length = ops.length ∧ ∀ r ∈ rs, TabletOpResult.isExec r = true := by
  intro ops
  induction ops with
  | nil => intro rs h _ _; simp only [prepareAll, Run.ok.injEq] at h; subst h; simp
  | cons o rest ih =>
    intro rs h hk ho
    obtain ⟨r, h1, h2⟩ := Run.bind_eq_ok.mp h
    obtain ⟨rs', h3, h4⟩ := Run.bind_eq_ok.mp h2
    simp only [Run.ok.injEq] at h4
    subst h4
    obtain ⟨k1, k2⟩ := ih h3 (fun x hx => hk x (by simp [hx])) (fun x hx => ho x (by simp [hx]))
    refine ⟨by simp [k1], fun x hx => ?_⟩
    rcases List.mem_cons.mp hx with rfl | hx
    · obtain ⟨t, ht⟩ := Option.isSome_iff_exists.mp (hk o (by simp))
      unfold prepare at h1
      rcases ho o (by simp) with ⟨j, v, hop⟩ | ⟨m, hop⟩
      · simp only [ht, hop] at h1; exact prepareOp_kind h1 (.inl ⟨_, _, rfl⟩)
      · simp only [ht, hop] at h1; exact prepareOp_kind h1 (.inr ⟨_, rfl⟩)
    · exact k2 x hx

/-- What the tablet store answers to a request of a transaction: a result for each op. -/
theorem store_answers {env : TabletStore.Env} {tables tables' : AMap String Tablets} {ops : List TabletOp} {r : Response}
    (h : applyRequest env tables ops = .ok (tables', r)) (hk : Known tables ops)
    (ho : ∀ o ∈ ops, (∃ j v, o.op = some (.check j v)) ∨ ∃ m, o.op = some (.update (some m))) :
    answers r = r.results ∧ r.results.length = ops.length ∧ (r.succeeded = true ↔ ∀ x ∈ r.results, x.status = .succeeded) := by
  unfold applyRequest at h
  obtain ⟨rs, h1, h2⟩ := Run.bind_eq_ok.mp h
  obtain ⟨k1, k2⟩ := prepareAll_kind h1 hk ho
  have hr : r.results = rs ∧ (r.succeeded = true ↔ ∀ x ∈ rs, x.status = .succeeded) := by
    split at h2
    · rename_i ha
      obtain ⟨t, _, h3⟩ := Run.bind_eq_ok.mp h2
      simp only [Run.ok.injEq, Prod.mk.injEq] at h3
      rw [← h3.2]
      refine ⟨rfl, ?_⟩
      simpa using ha
    · rename_i ha
      simp only [Run.ok.injEq, Prod.mk.injEq] at h2
      rw [← h2.2]
      refine ⟨rfl, ?_⟩
      simpa using ha
  refine ⟨?_, by rw [hr.1]; exact k1, by rw [hr.1]; exact hr.2⟩
  rw [← answers_eq, hr.1]
  exact List.filter_eq_self.mpr k2

/-- Together with the tablet store: if every answer to the request of transaction `i` is what the store gives, in some state
that knows the tables, for the ops it was sent, then Succeeded is reported only if the store carried out all of them. -/
theorem C53_store_partial {env : TxnEnv α η ω} {senv : TabletStore.Env} {evs : List (MEvent η)} {c : Client α η ω} (h : MHistory env evs c) {i corr : Nat}
    {ops : List TabletOp} (hm : .commit i [(corr, ops)] ∈ evs) (hne : ops ≠ [])
    (hr : ∀ r, .input (.response corr r) ∈ evs → ∃ tables tables', Known tables ops ∧ applyRequest senv tables ops = .ok (tables', r))
    (hc : .check i (some .succeeded) ∈ evs) :
    ∃ tables tables' r, .input (.response corr r) ∈ evs ∧ applyRequest senv tables ops = .ok (tables', r) ∧ r.succeeded = true ∧
      commitAll tables ops = .ok tables' := by
  obtain ⟨corr', ops', a, b, h1, h2⟩ := C53_confirmed_partial h hc
  have he := (C53_requests h hm).2.1 [(corr', ops')] (by rw [h1]; simp)
  simp only [List.cons.injEq, Prod.mk.injEq, and_true] at he
  obtain ⟨rfl, rfl⟩ := he
  have hin : ∀ r, .input (.response corr' r) ∈ b → .input (.response corr' r) ∈ evs := fun r hr => by rw [h1]; simp [hr]
  have hops := commit_ops h hm
  obtain ⟨r, h3, h4⟩ := h2 (fun r hr1 => by
    obtain ⟨t, t', hk, ha⟩ := hr r (hin r hr1)
    obtain ⟨k1, k2, _⟩ := store_answers ha hk hops
    rw [k1, k2]) hne
  obtain ⟨t, t', hk, ha⟩ := hr r (hin r h3)
  obtain ⟨k1, k2, k3⟩ := store_answers ha hk hops
  have hs : r.succeeded = true := by
    rw [k3]
    intro x hx
    obtain ⟨n, hn⟩ := List.mem_iff_getElem?.mp hx
    have hlt : n < ops'.length := by rw [← k2]; exact (List.getElem?_eq_some_iff.mp hn).1
    obtain ⟨y, hy, hy2, _⟩ := h4 n ops'[n] (by simp [hlt])
    rw [k1, hn] at hy
    cases hy; exact hy2
  refine ⟨t, t', r, hin r h3, ha, hs, ?_⟩
  unfold applyRequest at ha
  obtain ⟨rs, h5, h6⟩ := Run.bind_eq_ok.mp ha
  split at h6
  · obtain ⟨t2, h7, h8⟩ := Run.bind_eq_ok.mp h6
    simp only [Run.ok.injEq, Prod.mk.injEq] at h8
    rw [h7, h8.1]
  · simp only [Run.ok.injEq, Prod.mk.injEq] at h6
    rw [← h6.2] at hs; cases hs

/-- A transaction that succeeds, as C53_confirmed_partial, C53_stable and C53_store_partial require. -/
example : ∃ evs c, MHistory exTxn evs c ∧ MEvent.commit 2 [(101, exOps)] ∈ evs ∧ .input (.response 101 exYes) ∈ evs ∧
    .check 2 (some .succeeded) ∈ evs ∧ applyRequest TabletStore.Spec.exEnv TabletStore.exS1.tables exOps =
      .ok ([("t", [(10, exNew), (20, Metadata.new 20)])], exYes) ∧ Known TabletStore.exS1.tables exOps := by
  have h : holds (exCommit ++ [.input (.response 101 exYes), .check 2, .check 2]) (fun _ evs =>
      decide (MEvent.commit 2 [(101, exOps)] ∈ evs ∧ .input (.response 101 exYes) ∈ evs ∧ .check 2 (some .succeeded) ∈ evs)) = true := by decide +kernel
  obtain ⟨evs, c, h1, h2⟩ := holds_history h
  obtain ⟨h3, h4, h5⟩ := of_decide_eq_true h2
  exact ⟨evs, c, h1, h3, h4, h5, by decide +kernel, by intro o ho; simp only [exOps, List.mem_singleton] at ho; subst ho; decide +kernel⟩

/-- And one that fails. -/
example : ∃ evs c, MHistory exTxn evs c ∧ .check 2 (some .failed) ∈ evs := by
  have h : holds (exCommit ++ [.input (.response 101 ⟨false, [⟨"t", .failed, some (.update (some (exTablet 10 3)))⟩]⟩), .check 2, .check 2]) (fun _ evs =>
      decide (MEvent.check 2 (some .failed) ∈ evs)) = true := by decide +kernel
  obtain ⟨evs, c, h1, h2⟩ := holds_history h
  exact ⟨evs, c, h1, of_decide_eq_true h2⟩

/-- C53 fails as stated: a response with too few results makes the outcome Succeeded although an op was never confirmed. -/
theorem C53_fails : ∃ evs c, MHistory exTxn evs c ∧ .commit 2 [(101, exTwoOps)] ∈ evs ∧ .check 2 (some .succeeded) ∈ evs ∧
    (∀ r, .input (.response 101 r) ∈ evs → r = exYes) := by
  have h : holds (exTwo ++ [.input (.response 101 exYes), .check 2]) (fun _ evs =>
      decide (MEvent.commit 2 [(101, exTwoOps)] ∈ evs ∧ .check 2 (some .succeeded) ∈ evs) &&
      evs.all fun e => match e with
        | .input (.response 101 r) => decide (r = exYes)
        | _ => true) = true := by decide +kernel
  obtain ⟨evs, c, h1, h2⟩ := holds_history h
  rw [Bool.and_eq_true] at h2
  obtain ⟨h3, h4⟩ := of_decide_eq_true h2.1
  refine ⟨evs, c, h1, h3, h4, fun r hr => ?_⟩
  simpa using (List.all_eq_true.mp h2.2 _ hr)

/-! ## C52 -/

/-- C52 fails for every transaction that only reads a tablet: as long as it is open it has pending processing, whatever was
answered, and committing it panics; it is never committed, and no outcome is ever reported. -/
theorem C52_read_only_fails {env : TxnEnv α η ω} (hsane : Sane env) {evs : List (MEvent η)} {c : Client α η ω} (h : MHistory env evs c) {i : Nat}
    {qs : List Query} {x : η} (hp : .process i qs x ∈ evs) (hr : ReadOnly env x) :
    (i ∈ c.opened → c.m.coord.hasPending i = .ok true ∧ c.m.coord.commit i = .panic) ∧ (∀ s, .commit i s ∉ evs) ∧ ∀ o, .check i (some o) ∉ evs := by
  obtain ⟨h1, h2⟩ := read_only_stuck hsane h hp hr
  refine ⟨h1, h2, fun o ho => ?_⟩
  obtain ⟨corr, ops, a, b, h3, _⟩ := check_justified h ho
  exact h2 [(corr, ops)] (by rw [h3]; simp)

/-- Such a transaction, all its requests answered. -/
example : ∃ evs c, MHistory exTxn evs c ∧ .process 2 [exQuery [5]] 0 ∈ evs ∧ 2 ∈ c.opened ∧ .input (.data (.load 301 .succeeded [1])) ∈ evs ∧
    (.pending 2 true) ∈ evs ∧ c.m.world.data.out = [] ∧ c.m.world.md.out = [] := by
  have h : holds (exLoad 0 ++ [.progress, .progress, .progress, .take, .progress, .pending 2]) (fun c evs =>
      decide (MEvent.process 2 [exQuery [5]] 0 ∈ evs ∧ 2 ∈ c.opened ∧ .input (.data (.load 301 .succeeded [1])) ∈ evs ∧ (.pending 2 true) ∈ evs ∧
        c.m.world.data.out = [] ∧ c.m.world.md.out = [])) = true := by decide +kernel
  obtain ⟨evs, c, h1, h2⟩ := holds_history h
  exact ⟨evs, c, h1, of_decide_eq_true h2⟩

/-- C52 fails for every transaction one of whose process requests failed (the storage did not return or take a tablet):
while it is open, committing it panics, and whatever happens later it is not committed and has no outcome. -/
theorem C52_failed_fails {env : TxnEnv α η ω} {evs more : List (MEvent η)} {c c' : Client α η ω} (h : MHistory env evs c) {i : Nat} {ps : List (Proc α η)}
    (hi : c.m.coord.txns.get i = some (.preparing ps)) (hf : ∃ p ∈ ps, p.status = .failed) (hmore : MSteps env c more c') :
    (i ∈ c'.opened → c'.m.coord.hasPending i = .ok true ∧ c'.m.coord.commit i = .panic) ∧ (∀ s, .commit i s ∉ more) ∧ ∀ x, .check i x ∉ more := by
  have hc := history_cinv h
  have hn : c.commits.get i = none := by
    cases hg : c.commits.get i with
    | none => rfl
    | some k =>
      obtain ⟨_, _, _, h1, h2⟩ := hc.commits i k hg
      cases ho : k.outcome with
      | none =>
        rcases h1 ho with ⟨_, h3⟩ | ⟨_, h3⟩ <;> (rw [hi] at h3; cases h3)
      | some o => rw [hi] at h2; cases (h2 o ho).1
  obtain ⟨h1, h2, h3⟩ := stuck_steps hc ⟨.inl ⟨ps, hi, hf⟩, hn⟩ hmore
  refine ⟨fun ho => ?_, h2, h3⟩
  obtain ⟨ps', hps⟩ := (cinv_steps hc hmore).opened i ho
  rcases h1.txn with ⟨ps2, h4, p, h5, h6⟩ | ⟨h4, _⟩
  · exact commit_active h4 (active_of h5 (by rw [h6]; simp))
  · rw [hps] at h4; cases h4

/-- Such a transaction: the storage could not load the tablet. -/
example : ∃ evs c, MHistory exTxn evs c ∧ ∃ ps, c.m.coord.txns.get 2 = some (.preparing ps) ∧ (∃ p ∈ ps, p.status = .failed) ∧ 2 ∈ c.opened := by
  have h : holds ((exLoad 7).dropLast ++ [.input (.data (.load 301 .failed [])), .progress]) (fun c _ =>
      (match c.m.coord.txns.get 2 with
        | some (.preparing ps) => ps.any fun p => decide (p.status = .failed)
        | _ => false) && decide (2 ∈ c.opened)) = true := by decide +kernel
  obtain ⟨evs, c, h1, h2⟩ := holds_history h
  rw [Bool.and_eq_true] at h2
  obtain ⟨h2, h3⟩ := h2
  split at h2
  · rename_i ps hps
    obtain ⟨p, h4, h5⟩ := List.any_eq_true.mp h2
    exact ⟨evs, c, h1, ps, hps, ⟨p, h4, of_decide_eq_true h5⟩, of_decide_eq_true h3⟩
  · cases h2

/-- C52 fails for every transaction without ops: the store answers an empty request with an empty response, and then no check
ever reports an outcome. -/
theorem C52_empty_fails {env : TxnEnv α η ω} {evs : List (MEvent η)} {c : Client α η ω} (h : MHistory env evs c) {i corr : Nat}
    (hm : .commit i [(corr, [])] ∈ evs) (hr : ∀ r, .input (.response corr r) ∈ evs → r.results = []) (he : .input (.error corr) ∉ evs) :
    ∀ x, .check i x ∈ evs → x = none := by
  intro x hx
  cases x with
  | none => rfl
  | some o =>
    exfalso
    obtain ⟨corr', ops, a, b, h1, h2, h3⟩ := check_justified h hx
    have he' := (C53_requests h hm).2.1 [(corr', ops)] (by rw [h1]; simp)
    simp only [List.cons.injEq, Prod.mk.injEq, and_true] at he'
    obtain ⟨rfl, rfl⟩ := he'
    have hin : ∀ r, .input (.response corr' r) ∈ b → answers r = [] := fun r hr1 => by
      have := hr r (by rw [h1]; simp [hr1])
      simp [answers, this]
    cases o with
    | succeeded =>
      rcases h2 rfl with ⟨_, h4⟩ | ⟨r, h4, h5, _⟩
      · exact he (by rw [h1]; simp [h4])
      · exact h5 (hin r h4)
    | failed =>
      obtain ⟨r, h4, p, h5, _⟩ := h3 rfl
      rw [hin r h4] at h5
      simp at h5

/-- Such a transaction, answered as the store answers an empty request. -/
example : ∃ evs c, MHistory exTxn evs c ∧ .commit 2 [(101, [])] ∈ evs ∧ .input (.response 101 ⟨true, []⟩) ∈ evs ∧ .check 2 none ∈ evs ∧
    (∀ r, .input (.response 101 r) ∈ evs → r.results = []) ∧ .input (.error 101) ∉ evs ∧
    applyRequest TabletStore.Spec.exEnv TabletStore.exS1.tables [] = .ok (TabletStore.exS1.tables, ⟨true, []⟩) := by
  have h : holds [.start, .commit 2, .take, .input (.response 101 ⟨true, []⟩), .check 2] (fun _ evs =>
      decide (evs = [.start 2, .commit 2 [(101, [])], .take [.ops 101 []], .input (.response 101 ⟨true, []⟩), .check 2 none])) = true := by decide +kernel
  obtain ⟨evs, c, h1, h2⟩ := holds_history h
  obtain rfl := of_decide_eq_true h2
  refine ⟨_, c, h1, by simp, by simp, by simp, ?_, by simp, rfl⟩
  intro r hr
  simp only [List.mem_cons, reduceCtorEq, MEvent.input.injEq, MgrIn.response.injEq, true_and, List.not_mem_nil, or_false, false_or] at hr
  rw [hr]

/-- The part of C52 that holds.  Once the storage has answered every request that was made, one `make_progress` takes each
process request of an open transaction a step further (`Spec.Advanced`): resolution is started; once resolved, loading is
started; a load of at least one tablet ends, with the handler run or with failure; a store of at least one changed tablet ends.
A process request without changed tablets fails, see `C52_read_only_fails`. -/
theorem C52_advances_partial {env : TxnEnv α η ω} (hsane : Sane env) {evs : List (MEvent η)} {c : Client α η ω} (h : MHistory env evs c)
    (hout : ∀ r, ¬ MOutstanding evs c r) {m' : Manager α η ω} (hs : c.m.makeProgress env = .ok m') {i : Nat} {ps : List (Proc α η)}
    (hi : c.m.coord.txns.get i = some (.preparing ps)) : ∃ ps', m'.coord.txns.get i = some (.preparing ps') ∧ ps'.length = ps.length ∧
      ∀ (k : Nat) (p p' : Proc α η), ps[k]? = some p → ps'[k]? = some p' → Advanced c.m.world.md.cells p p' :=
  progress_advances hsane h hout hs hi

/-- A history with a load answered, in which `make_progress` works. -/
example : ∃ evs c m' ps, MHistory exTxn evs c ∧ (∀ r, ¬ MOutstanding evs c r) ∧ c.m.makeProgress exTxn = .ok m' ∧
    c.m.coord.txns.get 2 = some (.preparing ps) ∧ ∃ p ∈ ps, p.tablets ≠ [] ∧ ∃ id, p.status = .loading id := by
  have h : holds (exLoad 7) (fun c evs => decide (evs = [.init [("t", 0x40000000)], .start 2, .process 2 [exQuery [5]] 7, .progress, .progress,
      .take [.ops 201 [⟨"t", some (.list 0 0x3fffffff)⟩]], .input (.response 201 ⟨true, [exList [exTablet 10 0]]⟩), .progress, .take [.data (.load 301 "")],
      .input (.data (.load 301 .succeeded [1]))]) && decide (c.m.world.data.out = []) &&
      (match c.m.makeProgress exTxn with | .ok _ => true | .panic => false) && match c.m.coord.txns.get 2 with
        | some (.preparing ps) => ps.any fun p => decide (p.tablets ≠ []) && (match p.status with | .loading _ => true | _ => false)
        | _ => false) = true := by decide +kernel
  obtain ⟨evs, c, h1, h2⟩ := holds_history h
  simp only [Bool.and_eq_true] at h2
  obtain ⟨⟨⟨h2, h3⟩, h4⟩, h5⟩ := h2
  obtain rfl := of_decide_eq_true h2
  have h3 := of_decide_eq_true h3
  split at h4
  · rename_i m' hm
    split at h5
    · rename_i ps hps
      obtain ⟨p, h6, h7⟩ := List.any_eq_true.mp h5
      rw [Bool.and_eq_true] at h7
      refine ⟨_, c, m', ps, h1, ?_, hm, hps, p, h6, of_decide_eq_true h7.1, ?_⟩
      · rintro r (hr | ⟨a, outs, b, h8, h9, h10⟩)
        · rw [h3] at hr; cases hr
        · have hmem : MEvent.take outs ∈ a ++ .take outs :: b := by simp
          rw [← h8] at hmem
          simp at hmem
          rcases hmem with rfl | rfl
          · simp at h9
          · simp only [List.mem_singleton, MgrOut.data.injEq] at h9
            subst h9
            refine h10 (.load 301 .succeeded [1]) ?_ rfl
            rcases List.eq_nil_or_concat b with rfl | ⟨b', x, rfl⟩
            · have := congrArg List.getLast? h8; simp at this
            · have := congrArg List.getLast? h8
              rw [List.concat_eq_append] at this ⊢
              rw [show a ++ .take [.data (.load 301 "")] :: (b' ++ [x]) = (a ++ .take [.data (.load 301 "")] :: b') ++ [x] by simp, List.getLast?_concat] at this
              simp at this
              simp [← this]
      · have h7 := h7.2
        split at h7
        · rename_i id hid; exact ⟨id, hid⟩
        · cases h7
    · cases h5
  · cases h4

/-- Once no processing is pending, a transaction can be committed. -/
theorem C52_commit_partial {env : TxnEnv α η ω} {evs : List (MEvent η)} {c : Client α η ω} (h : MHistory env evs c) {i : Nat}
    (ho : i ∈ c.opened) (hp : c.m.coord.hasPending i = .ok false) : ∃ co corr ops, c.m.coord.commit i = .ok co ∧ co.out = c.m.coord.out ++ [(corr, ops)] := by
  obtain ⟨ps, hps⟩ := (history_cinv h).opened i ho
  simp only [Coordinator.hasPending, hps, Run.ok.injEq] at hp
  simp only [Coordinator.commit, hps, hp]
  cases hq : prepareOps ps with
  | some ops => exact ⟨_, _, ops, rfl, rfl⟩
  | none =>
    exfalso
    rw [prepareOps_ok hp] at hq
    cases hq

example : ∃ evs c, MHistory exTxn evs c ∧ 2 ∈ c.opened ∧ c.m.coord.hasPending 2 = .ok false := by
  have h : holds (exCommit.dropLast.dropLast) (fun c _ => decide (2 ∈ c.opened ∧ c.m.coord.hasPending 2 = .ok false)) = true := by decide +kernel
  obtain ⟨evs, c, h1, h2⟩ := holds_history h
  exact ⟨evs, c, h1, of_decide_eq_true h2⟩

/-- A committed transaction with ops has an outcome once the store has answered its request: the answer is taken without
panic, and the next check reports an outcome. -/
theorem C52_outcome_partial {env : TxnEnv α η ω} {evs : List (MEvent η)} {c : Client α η ω} (h : MHistory env evs c) {i corr : Nat}
    {ops : List TabletOp} (hm : .commit i [(corr, ops)] ∈ evs) (hne : ops ≠ []) (hu : Unanswered evs corr) {r : Response}
    (hr : FitsAll ops r.results) :
    ∃ m o, c.m.processIn env (.response corr r) = .ok m ∧ (⟨i, none⟩ : Commit).check m = .ok (⟨i, some o⟩, { m with coord := { m.coord with txns := m.coord.txns.erase i } }) ∧
      c.commits.get i = some ⟨i, none⟩ := by
  obtain ⟨h1, h2, _⟩ := history_einv h i corr ops hm hu
  have hex : ∀ {ops : List TabletOp} {rs : List TabletOpResult}, FitsAll ops rs → (∀ x ∈ rs, TabletOpResult.isExec x = true) ∧ (ops ≠ [] → rs ≠ []) := by
    intro ops
    induction ops with
    | nil => intro rs h; cases rs with
      | nil => simp
      | cons => exact absurd h (by simp [FitsAll])
    | cons o rest ih => intro rs h; cases rs with
      | nil => exact absurd h (by simp [FitsAll])
      | cons x rs =>
        refine ⟨fun y hy => ?_, fun _ => by simp⟩
        rcases List.mem_cons.mp hy with rfl | hy
        · have := h.1
          unfold Fits at this
          unfold TabletOpResult.isExec
          split at this
          · rename_i h3; rw [h3]
          · rename_i h3; rw [h3]
          · exact this.elim
        · exact (ih h.2).1 y hy
  obtain ⟨he1, he2⟩ := hex hr
  have hf : r.results.filter TabletOpResult.isExec = r.results := List.filter_eq_self.mpr he1
  have hl : r.results.filter TabletOpResult.isList = [] := by
    rw [List.filter_eq_nil_iff]
    intro x hx hx2
    have := he1 x hx
    unfold TabletOpResult.isExec at this
    unfold TabletOpResult.isList at hx2
    split at hx2
    · rename_i h3; rw [h3] at this; cases this
    · cases hx2
  obtain ⟨⟨b, l⟩, h3⟩ := completeOps_total hr
  obtain ⟨md, h4⟩ := updateTablets_total (l := l) (history_md h)
  have hk : c.commits.get i = some ⟨i, none⟩ := by
    obtain ⟨_, _, h5, _⟩ := (history_cinv h).sent i _ hm
    obtain ⟨k, hk⟩ := Option.isSome_iff_exists.mp h5
    obtain ⟨h6, _, _, _, h7⟩ := (history_cinv h).commits i k hk
    cases ho : k.outcome with
    | none => rw [hk, ← h6, ← ho]
    | some o => rw [h2] at h7; cases (h7 o ho).1
  refine ⟨{ coord := { c.m.coord with correlations := c.m.coord.correlations.erase corr, txns := c.m.coord.txns.set i (.completed (if b then .succeeded else .failed)) },
            world := { c.m.world with md := md }, errors := c.m.errors.erase corr }, if b then .succeeded else .failed, ?_, ?_, hk⟩
  · simp only [Manager.processIn, Manager.opsResponse, hl, hf, MetaCache.processIn, Run.bind_ok, if_neg (he2 hne), Coordinator.processIn, h1, h2, h3, h4]
  · simp [Commit.check, Coordinator.check]

example : ∃ evs c, MHistory exTxn evs c ∧ .commit 2 [(101, exOps)] ∈ evs ∧ exOps ≠ [] ∧ Unanswered evs 101 ∧ FitsAll exOps exYes.results := by
  have h : holds exCommit (fun _ evs => decide (MEvent.commit 2 [(101, exOps)] ∈ evs) && evs.all fun x => match x with
      | .input (.error k) => k ≠ 101
      | .input (.response k _) => k ≠ 101
      | _ => true) = true := by decide +kernel
  obtain ⟨evs, c, h1, h2⟩ := holds_history h
  rw [Bool.and_eq_true] at h2
  refine ⟨evs, c, h1, of_decide_eq_true h2.1, by simp [exOps], fun x hx => ?_, by simp [FitsAll, Fits, exOps, exYes]⟩
  have := List.all_eq_true.mp h2.2 x hx
  constructor
  · rintro rfl; simp at this
  · rintro r rfl; simp at this

/-! ## C62 -/

/-- C62 fails: a communication error for the request of any committed transaction with ops crashes the manager. -/
theorem C62_error_fails {env : TxnEnv α η ω} {evs : List (MEvent η)} {c : Client α η ω} (h : MHistory env evs c) {i corr : Nat}
    {ops : List TabletOp} (hm : .commit i [(corr, ops)] ∈ evs) (hne : ops ≠ []) (hu : Unanswered evs corr) (ht : (corr, ops) ∉ c.m.coord.out) :
    c.m.processIn env (.error corr) = .panic := by
  obtain ⟨h1, h2, _⟩ := history_einv h i corr ops hm hu
  have h3 := taken_errors h hm hu ht
  have hops := commit_ops h hm
  have hf : (ops.map failedResult).filter TabletOpResult.isExec = ops.map failedResult := by
    rw [List.filter_eq_self]
    intro x hx
    obtain ⟨o, ho, rfl⟩ := List.mem_map.mp hx
    rcases hops o ho with ⟨j, v, ho⟩ | ⟨m, ho⟩ <;> simp [failedResult, ho, TabletOpResult.isExec]
  have hl : (ops.map failedResult).filter TabletOpResult.isList = [] := by
    rw [List.filter_eq_nil_iff]
    intro x hx
    obtain ⟨o, ho, rfl⟩ := List.mem_map.mp hx
    rcases hops o ho with ⟨j, v, ho⟩ | ⟨m, ho⟩ <;> simp [failedResult, ho, TabletOpResult.isList]
  obtain ⟨o, rest, rfl⟩ := List.exists_cons_of_ne_nil hne
  have h4 : completeOps (o :: rest) ((o :: rest).map failedResult) = .panic := by
    rw [List.map_cons]
    refine completeOps_err (failedResult_err o) ?_
    rcases hops o (by simp) with ⟨j, v, ho⟩ | ⟨m, ho⟩ <;> simp [failedResult, ho, TabletOpResult.isExec]
  simp only [Manager.processIn, h3, Manager.opsResponse, hl, hf, MetaCache.processIn, Run.bind_ok, Coordinator.processIn, h1, h2, h4]
  simp [Run.bind]

example : ∃ evs c, MHistory exTxn evs c ∧ .commit 2 [(101, exOps)] ∈ evs ∧ Unanswered evs 101 ∧ (101, exOps) ∉ c.m.coord.out := by
  have h : holds exCommit (fun c evs => decide (MEvent.commit 2 [(101, exOps)] ∈ evs ∧ (101, exOps) ∉ c.m.coord.out) && evs.all fun x => match x with
      | .input (.error k) => k ≠ 101
      | .input (.response k _) => k ≠ 101
      | _ => true) = true := by decide +kernel
  obtain ⟨evs, c, h1, h2⟩ := holds_history h
  rw [Bool.and_eq_true] at h2
  obtain ⟨h3, h4⟩ := of_decide_eq_true h2.1
  refine ⟨evs, c, h1, h3, fun x hx => ?_, h4⟩
  have := List.all_eq_true.mp h2.2 x hx
  constructor
  · rintro rfl; simp at this
  · rintro r rfl; simp at this

/-- Another crash: in a new tablet store no tablet has a uri.  After a transaction on one tablet, `make_progress` panics for
a transaction on another.  (The list response is what a new store with tablets 10 and 20 answers.) -/
theorem C62_shared_uri_fails : ∃ evs c corr ops r, MHistory exTxn evs c ∧ .take [.ops corr ops] ∈ evs ∧
    applyRequest TabletStore.Spec.exEnv TabletStore.exS1.tables ops = .ok (TabletStore.exS1.tables, r) ∧ .input (.response corr r) ∈ evs ∧
    c.m.makeProgress exTxn = .panic := by
  have h : holds [.init [("t", 0x40000000)], .start, .start, .process 2 [exQuery [5]] 7, .progress, .progress, .take,
      .input (.response 201 ⟨true, [exList [Metadata.new 10, Metadata.new 20]]⟩), .progress, .take, .input (.data (.load 301 .succeeded [1])), .progress,
      .process 3 [exQuery [12, 14]] 7, .progress, .progress] (fun c evs => decide (c.m.makeProgress exTxn = .panic) &&
        decide (.take [.ops 201 [⟨"t", some (.list 0 0x3fffffff)⟩]] ∈ evs ∧ .input (.response 201 ⟨true, [exList [Metadata.new 10, Metadata.new 20]]⟩) ∈ evs)) = true := by
    decide +kernel
  obtain ⟨evs, c, h1, h2⟩ := holds_history h
  rw [Bool.and_eq_true] at h2
  obtain ⟨h3, h4⟩ := of_decide_eq_true h2.2
  exact ⟨evs, c, 201, [⟨"t", some (.list 0 0x3fffffff)⟩], ⟨true, [exList [Metadata.new 10, Metadata.new 20]]⟩, h1, h3, by decide +kernel, h4, of_decide_eq_true h2.1⟩

/-- The part of C62 that holds for answers of the tablet store: whenever a request of a committed transaction is answered by a
result of the right kind for each op, with the existing tablet where the op failed, the manager does not crash. -/
theorem C62_response_partial {env : TxnEnv α η ω} {evs : List (MEvent η)} {c : Client α η ω} (h : MHistory env evs c) {i corr : Nat}
    {ops : List TabletOp} (hm : .commit i [(corr, ops)] ∈ evs) (hne : ops ≠ []) (hu : Unanswered evs corr) {r : Response}
    (hr : FitsAll ops r.results) : ∃ m, c.m.processIn env (.response corr r) = .ok m := by
  obtain ⟨m, _, h1, _⟩ := C52_outcome_partial h hm hne hu hr
  exact ⟨m, h1⟩

/-! ## C63 -/

/-- When the tablets of a process request have been resolved to `res`, and the transaction is later committed, its request
checks every one of these tablets at the version it was resolved to, or updates it to the next version, in the table that was
asked for.  Missing: distinct tablets must differ in tablet id or version, which tablets of two tables need not, see
`C63_fails`. -/
theorem C63_validated_partial {env : TxnEnv α η ω} (hsane : Sane env) {a b : List (MEvent η)} {c c' : Client α η ω} (h : MHistory env a c)
    {i id : Nat} {ps : List (Proc α η)} {p : Proc α η} (hi : c.m.coord.txns.get i = some (.preparing ps)) (hp : p ∈ ps)
    (hst : p.status = .resolving id) {res : List (Query × Metadata)} (hres : c.m.world.md.cells.get id = some res)
    (hd : ∀ x ∈ res, ∀ y ∈ res, x.2.tabletId = y.2.tabletId → x.2.version = y.2.version → x = y) {corr : Nat} {ops : List TabletOp}
    (hb : MSteps env c (.progress :: b) c') (hcm : .commit i [(corr, ops)] ∈ b) {q : Query} {m : Metadata} (hm : (q, m) ∈ res) :
    ∃ o ∈ ops, o.table = q.table ∧ (o.op = some (.check m.tabletId m.version) ∨
      ∃ m', o.op = some (.update (some m')) ∧ m'.tabletId = m.tabletId ∧ m'.version = m.version + 1) := by
  refine resolved_covered hsane h hi hp hst hres (fun x hx y hy he => hd x hx y hy ?_ ?_) hb hcm hm
  · have h1 := x.2.version.toNat_lt
    have h2 := y.2.version.toNat_lt
    unfold tabletKey at he
    rw [← UInt32.toNat_inj]; omega
  · have h1 := x.2.version.toNat_lt
    have h2 := y.2.version.toNat_lt
    unfold tabletKey at he
    rw [← UInt32.toNat_inj]; omega

/-- A transaction whose tablets 10 and 20 have been resolved and which is committed later. -/
example : ∃ a c b c' ps p res, MHistory exTxn a c ∧ c.m.coord.txns.get 2 = some (.preparing ps) ∧ p ∈ ps ∧ p.status = .resolving 2 ∧
    c.m.world.md.cells.get 2 = some res ∧ res.map (fun x => x.2.tabletId) = [10, 20] ∧
    (∀ x ∈ res, ∀ y ∈ res, x.2.tabletId = y.2.tabletId → x.2.version = y.2.version → x = y) ∧
    MSteps exTxn c (.progress :: b) c' ∧ .commit 2 [(101, exTwoOps)] ∈ b := by
  have h1 : ∃ x, execAll exTxn exManager (exTwo.take 7) = .ok x := ⟨_, rfl⟩
  obtain ⟨⟨c, a⟩, h1⟩ := h1
  have h2 : ((match execAll exTxn exManager (exTwo.take 7) with
    | .ok (c, _) => (match c.m.coord.txns.get 2 with
        | some (.preparing ps) => ps.any fun p => decide (p.status = .resolving 2)
        | _ => false) && (match c.m.world.md.cells.get 2 with
        | some res => decide (res.map (fun x => x.2.tabletId) = [10, 20]) &&
          decide (∀ x ∈ res, ∀ y ∈ res, x.2.tabletId = y.2.tabletId → x.2.version = y.2.version → x = y)
        | none => false) && (match execAll exTxn c (exTwo.drop 7) with
        | .ok (_, e :: b) => decide (e = .progress ∧ .commit 2 [(101, exTwoOps)] ∈ b)
        | _ => false)
    | .panic => false) : Bool) = true := by decide +kernel
  rw [h1] at h2
  simp only [Bool.and_eq_true] at h2
  obtain ⟨⟨h2, h3⟩, h4⟩ := h2
  split at h2
  · rename_i ps hps
    obtain ⟨p, h5, h6⟩ := List.any_eq_true.mp h2
    split at h3
    · rename_i res hres
      rw [Bool.and_eq_true] at h3
      split at h4
      · rename_i c' e b hb
        obtain ⟨rfl, h7⟩ := of_decide_eq_true h4
        exact ⟨a, c, b, c', ps, p, res, ⟨_, _, _, _, execAll_sound h1⟩, hps, h5, of_decide_eq_true h6, hres, of_decide_eq_true h3.1, of_decide_eq_true h3.2,
          execAll_sound hb, h7⟩
      · cases h4
    · cases h3
  · cases h2

/-- C63 fails for two tables: a transaction on tablet 10 of table `t` and tablet 10 of table `u`, both at version 0, is
given the contents of one tablet only, and its request does not mention table `t` at all. -/
theorem C63_fails : ∃ evs c corr ops, MHistory exTxn evs c ∧ .process 2 [.create 1 "t" [5], .create 2 "u" [5]] 7 ∈ evs ∧
    .input (.response 201 ⟨true, [⟨"t", .succeeded, some (.list 0 0x3fffffff [exMeta 10 "a"])⟩, ⟨"u", .succeeded, some (.list 0 0x3fffffff [exMeta 10 "b"])⟩]⟩) ∈ evs ∧
    .commit 2 [(corr, ops)] ∈ evs ∧ ops ≠ [] ∧ ∀ o ∈ ops, o.table ≠ "t" := by
  have h : holds [.init [("t", 0x40000000), ("u", 0x40000000)], .start, .process 2 [.create 1 "t" [5], .create 2 "u" [5]] 7, .progress, .progress, .take,
      .input (.response 201 ⟨true, [⟨"t", .succeeded, some (.list 0 0x3fffffff [exMeta 10 "a"])⟩, ⟨"u", .succeeded, some (.list 0 0x3fffffff [exMeta 10 "b"])⟩]⟩),
      .progress, .take, .input (.data (.load 301 .succeeded [1])), .input (.data (.load 302 .succeeded [2])), .progress, .take,
      .input (.data (.store 303 .succeeded)), .progress, .commit 2] (fun _ evs => decide (
        .process 2 [.create 1 "t" [5], .create 2 "u" [5]] 7 ∈ evs ∧
        .input (.response 201 ⟨true, [⟨"t", .succeeded, some (.list 0 0x3fffffff [exMeta 10 "a"])⟩, ⟨"u", .succeeded, some (.list 0 0x3fffffff [exMeta 10 "b"])⟩]⟩) ∈ evs ∧
        .commit 2 [(101, [⟨"u", some (.update (some exNew))⟩])] ∈ evs)) = true := by decide +kernel
  obtain ⟨evs, c, h1, h2⟩ := holds_history h
  obtain ⟨h3, h4, h5⟩ := of_decide_eq_true h2
  exact ⟨evs, c, 101, [⟨"u", some (.update (some exNew))⟩], h1, h3, h4, h5, by simp, by simp⟩

/-! ## C49 -/

/-- A store in which tablet 20 has changed since it was listed. -/
def exStore : AMap String Tablets := [("t", [(10, exMeta 10 "a"), (20, ⟨20, 1, false, [], 3, [], "c"⟩)])]

/-- What it answers to `exTwoOps`. -/
def exNo : Response :=
  ⟨false, [⟨"t", .succeeded, some (.update (some (exMeta 10 "a")))⟩, ⟨"t", .failed, some (.update (some ⟨20, 1, false, [], 3, [], "c"⟩))⟩]⟩

/-- C49 fails: when the store rejects a transaction because one of its ops cannot be carried out, the cache records the new
version of the other tablets all the same.  The version cached for tablet 10 was never committed, and is higher than that of
the store. -/
theorem C49_rejected_fails : ∃ evs c m, MHistory exTxn evs c ∧ .commit 2 [(101, exTwoOps)] ∈ evs ∧
    applyRequest TabletStore.Spec.exEnv exStore exTwoOps = .ok (exStore, exNo) ∧ .input (.response 101 exNo) ∈ evs ∧ .check 2 (some .failed) ∈ evs ∧
    cached c.m.world.md "t" 10 = some m ∧ m.version = 1 ∧ (exStore.get "t").bind (SMap.get · 10) = some (exMeta 10 "a") ∧ (exMeta 10 "a").version = 0 := by
  have h : holds (exTwo ++ [.input (.response 101 exNo), .check 2]) (fun c evs =>
      decide (MEvent.commit 2 [(101, exTwoOps)] ∈ evs ∧ .input (.response 101 exNo) ∈ evs ∧ .check 2 (some .failed) ∈ evs) &&
      decide (cached c.m.world.md "t" 10 = some exNew)) = true := by decide +kernel
  obtain ⟨evs, c, h1, h2⟩ := holds_history h
  rw [Bool.and_eq_true] at h2
  obtain ⟨h3, h4, h5⟩ := of_decide_eq_true h2.1
  exact ⟨evs, c, exNew, h1, h3, by decide +kernel, h4, h5, of_decide_eq_true h2.2, rfl, by decide +kernel, rfl⟩

end TCP.Cache.Props
