import Verif.Props.KvMap
import Verif.Props.TabletStore
import Verif.Proofs.StoreCluster

/-!
# C102: when a rejected transaction makes key-value stores lose an acknowledged put
-/

namespace TCP.Cache.Props

open TCP TCP.Cache TCP.Cache.Spec TCP.TabletStore

/-! ## What one map implies -/

theorem execReqs_keeps {k : String} : ∀ {rs : List KvRequest} {d : Dict}, (d k).isSome = true → ((execReqs d rs).1 k).isSome = true := by
  intro rs
  induction rs with
  | nil => intro d h; exact h
  | cons r rest ih =>
    intro d h
    refine ih ?_
    cases r with
    | put c j v => simp only [execReq]; split <;> simp_all
    | get c j => exact h

theorem execReqs_puts {c : Nat} {k : String} {v : Bytes} : ∀ {rs : List KvRequest} {d : Dict}, .put c k v ∈ rs → ((execReqs d rs).1 k).isSome = true := by
  intro rs
  induction rs with
  | nil => intro d h; cases h
  | cons r rest ih =>
    intro d h
    rcases List.mem_cons.mp h with rfl | h
    · exact execReqs_keeps (d := (execReq d (.put c k v)).1) (by simp [execReq])
    · exact ih h

theorem execReqs_put_from {c : Nat} {b : Bool} : ∀ {rs : List KvRequest} {d : Dict}, .put c b ∈ (execReqs d rs).2 → ∃ k v, .put c k v ∈ rs := by
  intro rs
  induction rs with
  | nil => intro d h; cases h
  | cons r rest ih =>
    intro d h
    rcases List.mem_cons.mp h with h | h
    · cases r with
      | put c' k v => simp only [execReq, KvResponse.put.injEq] at h; exact ⟨k, v, by simp [h.1]⟩
      | get c' k => simp [execReq] at h
    · obtain ⟨k, v, h⟩ := ih h
      exact ⟨k, v, by simp [h]⟩

theorem execReqs_finds {c : Nat} {k : String} {e : Bool} {v : Bytes} : ∀ {rs : List KvRequest} {d : Dict}, (d k).isSome = true →
    (∀ j, .get c j ∈ rs → j = k) → .get c e v ∈ (execReqs d rs).2 → e = true := by
  intro rs
  induction rs with
  | nil => intro d _ _ h; cases h
  | cons r rest ih =>
    intro d hd hj h
    rcases List.mem_cons.mp h with h | h
    · cases r with
      | put c' k v => simp [execReq] at h
      | get c' j =>
        simp only [execReq, KvResponse.get.injEq] at h
        have := hj j (by simp [h.1])
        subst this
        rw [h.2.1, hd]
    · exact ih (execReqs_keeps (rs := [r]) hd) (fun j hm => hj j (by simp [hm])) h

section
variable {ι : Type} {env : KvEnv} {data : DataEnv Bytes} {senv : TabletStore.Env} {s0 : State}
  {log : List (List TabletOp × Response)} {t : Tables} {blank : Bytes} {evs : ι → List KEvent} {s : ι → Sys}

theorem log_last {t0 t : Tables} {l : List (List TabletOp × Response)} {x : List TabletOp × Response} (h : Log senv t0 (l ++ [x]) t) :
    ∃ t1, Log senv t0 l t1 ∧ applyRequest senv t1 x.1 = .ok (t, x.2) := by
  generalize he : l ++ [x] = k at h
  cases h with
  | nil => simp at he
  | @snoc l' t1 ops _ r h ha =>
    obtain ⟨rfl, h2⟩ := List.append_inj' he rfl
    cases h2
    exact ⟨t1, h, ha⟩

/-- A successful request of the log was applied where it stands. -/
theorem applied_split {t0 : Tables} (h : Log senv t0 log t) {pre post : List (List TabletOp × Response)} {ops : List TabletOp} {r : Response}
    (he : log = pre ++ (ops, r) :: post) (hr : r.succeeded = true) : ∃ before after, AppliedAt senv t0 log ops pre before after ∧ Log senv t0 (pre ++ [(ops, r)]) after := by
  obtain ⟨t2, h2⟩ := log_take h (k := pre ++ [(ops, r)]) (l2 := post) (by simpa using he)
  obtain ⟨t1, h1, ha⟩ := log_last h2
  exact ⟨t1, t2, ⟨r, post, he, h1, ha, hr⟩, h2⟩

/-- If the stores behave as one map, an acknowledged put is not forgotten: when the requests of one store that acknowledged it were applied before those of another
store, the other finds the key. -/
theorem one_map_keeps (h : OneMap env data senv s0 log blank evs s) (hl : Log senv s0.tables log t) {p q : ι} {n c c' : Nat} {table k : String} {b e : Bool} {v : Bytes}
    {k1 k2 k1' k2' : List KEvent} {rs rs' : List KvResponse}
    (hp : evs p = k1 ++ .responses rs :: k2) (hr : .put c b ∈ rs) (hk : ∀ j v, .accept (.put c j v) ∈ evs p → j = k)
    (ht : ∀ table' a b cs, .init table' a b cs ∈ evs p → table' = table)
    (hb : ∀ corr ops, (corr, ops) ∈ krequests (evs p) (s p) → ∃ rr, (ops, rr) ∈ log.take n ∧ rr.succeeded = true)
    (hp' : evs q = k1' ++ .responses rs' :: k2') (hr' : .get c' e v ∈ rs') (hk' : ∀ j, .accept (.get c' j) ∈ evs q → j = k)
    (ht' : ∀ table' a b cs, .init table' a b cs ∈ evs q → table' = table)
    (hb' : ∀ corr ops, (corr, ops) ∈ krequests (evs q) (s q) → ∃ rr, (ops, rr) ∈ log.drop n ∧ rr.succeeded = true) : e = true := by
  obtain ⟨M, -, hstep, hans⟩ := h
  have hmono : ∀ {mid pre post : List (List TabletOp × Response)} {t1 t2 : Tables}, log = pre ++ mid ++ post → Log senv s0.tables pre t1 →
      Log senv s0.tables (pre ++ mid) t2 → (M t1 table k).isSome = true → (M t2 table k).isSome = true := by
    intro mid
    induction mid with
    | nil =>
      intro pre post t1 t2 _ h1 h2 hs
      rw [List.append_nil] at h2
      rw [← (log_same h1 h2 rfl).2]; exact hs
    | cons x mid ih =>
      intro pre post t1 t2 he h1 h2 hs
      obtain ⟨ta, ha⟩ := log_take h2 (k := pre ++ [x]) (l2 := mid) (by simp)
      refine ih (pre := pre ++ [x]) (post := post) (by simpa using he) ha (by simpa using h2) ?_
      obtain ⟨tb, hb1, hb2⟩ := log_last ha
      cases (log_same h1 hb1 rfl).2
      rcases hstep pre x.1 x.2 (mid ++ post) t1 ta (by simpa using he) h1 hb2 with g | ⟨_, _, _, _, -, -, -, g⟩
      · rw [g]; exact hs
      · rcases g table with g | ⟨-, done, -, g⟩
        · rw [g]; exact hs
        · rw [g]; exact execReqs_keeps hs
  obtain ⟨ka, kb, corr, ops, rr, tb, batch, e1, e2, -, -, -, -, ⟨_, _, _, e3⟩, e4, e5⟩ := hans p k1 rs k2 _ hp hr
  cases ht _ _ _ _ e3
  obtain ⟨r1, m1, m2⟩ := hb _ _ e2
  obtain ⟨a1, a2, m3⟩ := List.append_of_mem m1
  have m4 : log = a1 ++ (ops, r1) :: (a2 ++ log.drop n) := by
    have := (List.take_append_drop n log).symm
    rw [m3] at this; simpa using this
  obtain ⟨before, after, m5, m6⟩ := applied_split hl m4 m2
  obtain ⟨m7, m8⟩ := e5 _ _ _ m5
  obtain ⟨j, v1, m9⟩ := execReqs_put_from m7
  have := hk j v1 (by rw [hp, e1]; simp [e4 _ m9])
  subst this
  have hs1 : (M after table j).isSome = true := by rw [show M after table j = _ from m8 _ m9 rfl]; exact execReqs_puts m9
  obtain ⟨ka', kb', corr', ops', rr', tb', batch', f1, f2, -, -, -, -, ⟨_, _, _, f3⟩, f4, f5⟩ := hans q k1' rs' k2' _ hp' hr'
  cases ht' _ _ _ _ f3
  obtain ⟨r2, n1, n2⟩ := hb' _ _ f2
  obtain ⟨b1, b2, n3⟩ := List.append_of_mem n1
  have n4 : log = (log.take n ++ b1) ++ (ops', r2) :: b2 := by
    have := (List.take_append_drop n log).symm
    rw [n3] at this; simpa using this
  obtain ⟨before', after', n5, -⟩ := applied_split hl n4 n2
  have n6 := (f5 _ _ _ n5).1
  obtain ⟨_, _, -, n7, -⟩ := n5
  have hs2 : (M before' table j).isSome = true := by
    refine hmono (pre := a1 ++ [(ops, r1)]) (mid := a2 ++ b1) (post := (ops', r2) :: b2) ?_ m6 ?_ hs1
    · rw [m3] at n4; simpa using n4
    · rw [m3] at n7; simpa using n7
  refine execReqs_finds hs2 (fun j' hj => hk' j' ?_) n6
  rw [hp', f1]; simp [f4 _ hj]

end

/-! ## The deployment -/

/-- Keys of a tablet store with two tablets: `a`, `e` and `b` belong to the first, the others to the second. -/
def lostKv : KvEnv := ⟨fun k => if k = "a" then 5 else if k = "e" then 6 else if k = "b" then 0x48000000 else if k = "c" then 0x51000000 else 0x52000000,
  fun b => decDict b.length b, encDict⟩

theorem lostKv_dicts (d : AMap String Bytes) : ∃ d', lostKv.dec (lostKv.enc d) = some d' ∧ d'.get = d.get := mapKv_dicts d

def lostStore : TabletStore.Env := { TabletStore.Spec.exEnv with generate := fun _ _ => [0x50000000, 0x60000000] }

def lostStart : State := initTables lostStore ⟨[], 0⟩ [("t", 2)]

theorem lostStart_reachable : TabletStore.Spec.Reachable lostStore [2] lostStart := ⟨⟨[], 0⟩, TabletStore.exCtx, lostStart, [], rfl, rfl, rfl, .refl⟩

/-- The metadata that is written: key `d` of the second tablet, twice, -/
def lostD1 : Metadata := ⟨0x60000000, 1, false, [], 8, [1, 0, 0, 100, 0, 1, 1, 0], "1610612736_1_AQAAZAABAQA"⟩
def lostD2 : Metadata := ⟨0x60000000, 2, false, [], 8, [1, 0, 0, 100, 0, 1, 2, 0], "1610612736_2_AQAAZAABAgA"⟩
/-- key `a` of the first tablet, by one store, and `b`, by another, in a transaction that is rejected, -/
def lostA : Metadata := ⟨0x50000000, 1, false, [], 8, [1, 0, 0, 97, 0, 1, 9, 0], "1342177280_1_AQAAYQABCQA"⟩
def lostB : Metadata := ⟨0x50000000, 1, false, [], 8, [1, 0, 0, 98, 0, 1, 4, 0], "1342177280_1_AQAAYgABBAA"⟩
/-- and `e`, added to the contents of the rejected transaction, and put again. -/
def lostE1 : Metadata := ⟨0x50000000, 2, false, [], 16, [1, 0, 0, 98, 0, 1, 4, 0, 1, 0, 0, 101, 0, 1, 5, 0], "1342177280_2_AQAAYgABBAABAABlAAEFAA"⟩
def lostE2 : Metadata := ⟨0x50000000, 3, false, [], 16, [1, 0, 0, 98, 0, 1, 4, 0, 1, 0, 0, 101, 0, 1, 6, 0], "1342177280_3_AQAAYgABBAABAABlAAEGAA"⟩

def lostList1 (ts : List Metadata) : MgrIn := .response 201 ⟨true, [⟨"t", .succeeded, some (.list 0 0x3fffffff ts)⟩]⟩
def lostList2 (ts : List Metadata) : MgrIn := .response 201 ⟨true, [⟨"t", .succeeded, some (.list 0x40000000 0x7fffffff ts)⟩]⟩

/-- A store that accepts requests, gets its list of tablets, loads the contents of one, stores new contents and commits. -/
def lostCmds (rs : List KvRequest) (l : MgrIn) (b : Bytes) (m : Metadata) : List KCmd :=
  [.init "t" 1 0 [("t", 0x40000000)]] ++ rs.map .accept ++ [.store, .progress, .take, .input l, .store, .progress, .progress, .progress, .take,
    .input (.data (.load 301 .succeeded b)), .progress, .take, .input (.data (.store 302 .succeeded)), .progress, .store, .take,
    .input (.response 101 ⟨true, [⟨"t", .succeeded, some (.update (some m))⟩]⟩), .store, .responses]

/-- The store whose transaction, a put of `b` and reads of the second tablet, is rejected because the second tablet has changed, though the update of the first
tablet, by itself, could have been carried out.  By then it has accepted more requests and got a list of tablets. -/
def lostRejected : List KCmd :=
  [.init "t" 1 0 [("t", 0x40000000)], .accept (.put 4 "b" [4]), .accept (.get 5 "c"), .accept (.get 6 "d"), .store, .progress, .take,
    .input (lostList2 [Metadata.new 0x50000000, lostD1]), .store, .progress, .progress, .progress, .take, .input (.data (.load 301 .succeeded [])),
    .input (.data (.load 302 .succeeded lostD1.hash)), .progress, .take, .input (.data (.store 303 .succeeded)), .progress, .store, .take,
    .accept (.get 7 "a"), .accept (.put 8 "e" [5]), .store, .progress, .take,
    .input (.response 202 ⟨true, [⟨"t", .succeeded, some (.list 0 0x3fffffff [Metadata.new 0x50000000])⟩]⟩),
    .input (.response 101 ⟨false, [⟨"t", .succeeded, some (.update (some (Metadata.new 0x50000000)))⟩, ⟨"t", .failed, some (.check (some lostD2))⟩]⟩), .store,
    .store, .progress, .progress, .progress, .take, .input (.data (.store 304 .succeeded)), .progress, .store, .take,
    .input (.response 102 ⟨true, [⟨"t", .succeeded, some (.update (some lostA))⟩]⟩), .store, .responses]

def lostAll : Fin 5 → List KCmd
  | 0 => lostCmds [.put 0 "c" [0], .put 1 "d" [1]] (lostList2 [Metadata.new 0x50000000, Metadata.new 0x60000000]) [] (Metadata.new 0x60000000)
  | 1 => lostCmds [.put 0 "c" [0], .put 2 "d" [2]] (lostList2 [Metadata.new 0x50000000, lostD1]) lostD1.hash lostD1
  | 2 => lostCmds [.put 3 "a" [9]] (lostList1 [Metadata.new 0x50000000]) [] (Metadata.new 0x50000000)
  | 3 => lostRejected
  | 4 => lostCmds [.get 9 "a", .put 10 "e" [6]] (lostList1 [lostE1]) lostE1.hash lostE1

def lostUpd (m : Metadata) : TabletOp := ⟨"t", some (.update (some m))⟩

/-- The requests in the order in which the tablet store applies them. -/
def lostReqs : List (List TabletOp) :=
  let list2 : List TabletOp := [⟨"t", some (.list 0x40000000 0x7fffffff)⟩]
  [list2, [lostUpd lostD1], list2, list2, [lostUpd lostD2], exListOps, exListOps, [lostUpd lostB, ⟨"t", some (.check 0x60000000 1)⟩], [lostUpd lostA],
    [lostUpd lostE1], exListOps, [lostUpd lostE2]]

def lostRun (p : Fin 5) : Run (Sys × List KEvent) := kexecAll lostKv (txnEnv lostKv mapData exPolicy) mapSys (lostAll p)

def okOr {β : Type} (d : β) : Run β → β
  | .ok x => x
  | .panic => d

def lostSys (p : Fin 5) : Sys := (okOr (mapSys, []) (lostRun p)).1
def lostEvs (p : Fin 5) : List KEvent := (okOr (mapSys, []) (lostRun p)).2
def lostLog : List (List TabletOp × Response) := (okOr ([], []) (runLog lostStore lostStart.tables lostReqs)).1

def lostBlobs : List DataOut := (List.finRange 5).flatMap fun q => kblobs (lostEvs q) (lostSys q)

/-- The requests of store `p` were applied, successfully, in this part of the log. -/
def lostInB (part : List (List TabletOp × Response)) (p : Fin 5) : Bool :=
  (krequests (lostEvs p) (lostSys p)).all fun x => part.any fun y => decide (y.1 = x.2) && y.2.succeeded

theorem lostInB_sound {part : List (List TabletOp × Response)} {p : Fin 5} (h : lostInB part p = true) {corr : Nat} {ops : List TabletOp}
    (hm : (corr, ops) ∈ krequests (lostEvs p) (lostSys p)) : ∃ rr, (ops, rr) ∈ part ∧ rr.succeeded = true := by
  obtain ⟨y, h1, h2⟩ := List.any_eq_true.mp (List.all_eq_true.mp h _ hm)
  simp only [Bool.and_eq_true, decide_eq_true_eq] at h2
  exact ⟨y.2, by rw [← h2.1]; exact h1, h2.2⟩

theorem lost_ran : ∀ p, lostRun p = .ok (lostSys p, lostEvs p) := by
  have h : ∀ p, (match lostRun p with | .ok _ => true | .panic => false) = true := by decide +kernel
  intro p
  have := h p
  unfold lostSys lostEvs
  cases hr : lostRun p with
  | ok x => rfl
  | panic => rw [hr] at this; cases this

theorem lost_log : ∃ t, Log lostStore lostStart.tables lostLog t := by
  have h : (match runLog lostStore lostStart.tables lostReqs with | .ok _ => true | .panic => false) = true := by decide +kernel
  unfold lostLog
  cases hr : runLog lostStore lostStart.tables lostReqs with
  | ok x => exact ⟨x.2, by simpa [okOr] using runLog_sound .nil hr⟩
  | panic => rw [hr] at h; cases h

theorem lost_local : ∀ p, KLocal lostStart.tables lostLog (lostEvs p) (lostSys p) lostBlobs := by
  have h : ∀ p, kLocalB lostStart.tables lostLog (lostEvs p) (lostSys p) lostBlobs = true := by decide +kernel
  exact fun p => kLocalB_sound (h p)

theorem lost_writes {ops : List TabletOp} {r : Response} (hm : (ops, r) ∈ lostLog) {table : String} {m : Metadata}
    (ho : ⟨table, some (.update (some m))⟩ ∈ ops) : ∃ p corr, (corr, ops) ∈ krequests (lostEvs p) (lostSys p) := by
  have h : (lostLog.all fun x => decide (x.1.filterMap updOf = []) ||
    (List.finRange 5).any fun q => (krequests (lostEvs q) (lostSys q)).any fun y => decide (y.2 = x.1)) = true := by decide +kernel
  have := List.all_eq_true.mp h _ hm
  simp only [Bool.or_eq_true, decide_eq_true_eq] at this
  rcases this with g | g
  · have : (table, m) ∈ ops.filterMap updOf := List.mem_filterMap.mpr ⟨_, ho, rfl⟩
    rw [g] at this; cases this
  · obtain ⟨p, -, g⟩ := List.any_eq_true.mp g
    obtain ⟨y, g1, g2⟩ := List.any_eq_true.mp g
    exact ⟨p, y.1, by rw [← of_decide_eq_true g2]; exact g1⟩

/-- **C102 fails, in general**: five stores share a tablet store and a blob storage, all as C102 requires, except that one commit was rejected although one of its ops
could have been carried out by itself.  The third store acknowledges a put of key `a`.  Afterwards, when all requests of that store have been applied, the fifth
store, whose requests are all applied later, does not find `a`.  So the stores do not behave as one map. -/
theorem C102_rejected_fails : ∃ (log : List (List TabletOp × Response)) (t : Tables) (evs : Fin 5 → List KEvent) (s : Fin 5 → Sys),
    Sane (txnEnv lostKv mapData exPolicy) ∧ lostStore.overflowChecks = true ∧ TabletStore.Spec.Reachable lostStore [2] lostStart ∧
    KvShared lostKv mapData exPolicy lostStore lostStart log t [] (fun _ => [("t", 0x40000000)]) evs s ∧ (∀ p, Orderly (s p).world.md) ∧
    (∃ k1 k2, evs 2 = k1 ++ .responses [.put 3 false] :: k2 ∧ .accept (.put 3 "a" [9]) ∈ k1) ∧
    (∀ corr ops, (corr, ops) ∈ krequests (evs 2) (s 2) → ∃ r, (ops, r) ∈ log.take 10 ∧ r.succeeded = true) ∧
    (∃ k1 k2, evs 4 = k1 ++ .responses [.get 9 false [], .put 10 true] :: k2 ∧ .accept (.get 9 "a") ∈ k1) ∧
    (∀ corr ops, (corr, ops) ∈ krequests (evs 4) (s 4) → ∃ r, (ops, r) ∈ log.drop 10 ∧ r.succeeded = true) ∧
    ¬ OneMap lostKv mapData lostStore lostStart log [] evs s := by
  obtain ⟨t, hl⟩ := lost_log
  have hb2 : lostInB (lostLog.take 10) 2 = true := by decide +kernel
  have hb4 : lostInB (lostLog.drop 10) 4 = true := by decide +kernel
  have hn : newB lostStart.tables = true := by decide +kernel
  have h2 : lostEvs 2 = (lostEvs 2).dropLast ++ .responses [.put 3 false] :: [] := by decide +kernel
  have h4 : lostEvs 4 = (lostEvs 4).dropLast ++ .responses [.get 9 false [], .put 10 true] :: [] := by decide +kernel
  have a2 : .accept (.put 3 "a" [9]) ∈ (lostEvs 2).dropLast := by decide +kernel
  have a4 : .accept (.get 9 "a") ∈ (lostEvs 4).dropLast := by decide +kernel
  have o2 : ((lostEvs 2).all fun e => match e with | .accept (.put 3 k _) => decide (k = "a") | .init table _ _ _ => decide (table = "t") | _ => true) = true := by decide +kernel
  have o4 : ((lostEvs 4).all fun e => match e with | .accept (.get 9 k) => decide (k = "a") | .init table _ _ _ => decide (table = "t") | _ => true) = true := by decide +kernel
  refine ⟨lostLog, t, lostEvs, lostSys, ?_, rfl, lostStart_reachable,
    ⟨⟨rfl, fun p => ⟨100, 200, 300, kexecAll_sound (lost_ran p)⟩, fun p => (lost_local p).configured, fun p => (lost_local p).once, ?_,
        fun _ _ _ _ _ _ _ _ _ _ h => h, fun v b h => (by cases (show some v = some b from h); rfl), lostKv_dicts⟩, hl, fun p => (lost_local p).responses,
      fun p => (lost_local p).matching, fun p => (lost_local p).tables, fun _ _ _ hm => newB_sound hn hm, fun _ _ hm _ _ ho => lost_writes hm ho⟩,
    fun p => (lost_local p).orderly, ⟨_, _, h2, a2⟩, fun _ _ => lostInB_sound hb2, ⟨_, _, h4, a4⟩, fun _ _ => lostInB_sound hb4, ?_⟩
  · intro es k hk; simp [txnEnv, exPolicy] at hk
  · intro p corr k b h1 h2
    have := (lost_local p).storage corr k b h1 h2
    split at this
    · rw [if_pos ‹_›]; exact this
    · rw [if_neg ‹_›]
      obtain ⟨corr', g⟩ := this
      obtain ⟨q, -, g⟩ := List.mem_flatMap.mp g
      exact ⟨q, corr', g⟩
  · intro h
    have := one_map_keeps (p := 2) (q := 4) (n := 10) (c := 3) (c' := 9) (table := "t") (k := "a") h hl h2 (List.mem_cons_self ..)
      (fun j v hm => by simpa using List.all_eq_true.mp o2 _ hm) (fun table a b cs hm => by simpa using List.all_eq_true.mp o2 _ hm)
      (fun _ _ => lostInB_sound hb2) h4 (List.mem_cons_self ..)
      (fun j hm => by simpa using List.all_eq_true.mp o4 _ hm) (fun table a b cs hm => by simpa using List.all_eq_true.mp o4 _ hm)
      (fun _ _ => lostInB_sound hb4)
    cases this

end TCP.Cache.Props
