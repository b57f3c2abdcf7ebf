import Verif.Proofs.CacheStoreRun
import Verif.Proofs.CacheActor
import Verif.Proofs.CacheCommitted
import Verif.Proofs.KvGets
import Verif.Props.CacheCoordinator

/-!
# C54, C55: the key-value store of the tablet cache
-/

namespace TCP.Cache.Props

open TCP TCP.TabletStore TCP.Cache.Spec

/-! ## A concrete store -/

/-- Dictionaries of keys `a` and `b` with one-byte values. -/
def exDec : Bytes → Option (AMap String Bytes)
  | [] => some []
  | 1 :: v :: rest => (exDec rest).map (("a", [v]) :: ·)
  | 2 :: v :: rest => (exDec rest).map (("b", [v]) :: ·)
  | _ => none

def exEnc (d : AMap String Bytes) : Bytes := d.flatMap fun e => (if e.1 = "a" then 1 else 2) :: e.2

def exKv : KvEnv := ⟨fun k => if k = "a" then 5 else if k = "b" then 14 else 0x50000000, exDec, exEnc⟩

def exSys : Sys := .create 100 200 300 .new

def exRunKv (cmds : List KCmd) : Run (Sys × List KEvent) := kexecAll exKv (txnEnv exKv exEnv exPolicy) exSys cmds

/-- Something is true at the end of a run of the concrete store. -/
def holdsKv (cmds : List KCmd) (p : Sys → List KEvent → Bool) : Bool :=
  match exRunKv cmds with
  | .ok (s, evs) => p s evs
  | .panic => false

theorem holdsKv_history {cmds : List KCmd} {p : Sys → List KEvent → Bool} (h : holdsKv cmds p = true) :
    ∃ evs s, KHistory exKv exEnv exPolicy evs s ∧ p s evs = true := by
  unfold holdsKv at h
  split at h
  · rename_i s evs he
    exact ⟨evs, s, ⟨100, 200, 300, kexecAll_sound he⟩, h⟩
  · cases h

/-- A put of key `a`; its tablet holds `b ↦ [4]`.  The transaction is about to be decided. -/
def exPut : List KCmd :=
  [.init "t" 1 0 [("t", 0x40000000)], .accept (.put 7 "a" [9]), .store, .progress, .take,
   .input (.response 201 ⟨true, [exList [exTablet 10 0]]⟩), .store, .progress, .progress, .progress, .take,
   .input (.data (.load 301 .succeeded [2, 4])), .progress, .take, .input (.data (.store 302 .succeeded)), .progress, .store, .take]

/-- A response that rejects the update. -/
def exReject : Response := ⟨false, [⟨"t", .failed, some (.update (some (exTablet 10 5)))⟩]⟩

/-! ## C54 -/

/-- Processing the requests of one tablet whose contents decode to the dictionary `d`: those the query covers are answered as if
executed one by one on `d`; nothing is written if none of them is a put, otherwise an encoding of exactly the resulting
dictionary; requests that are not covered stay where they are. -/
theorem C54_batch (env : KvEnv) {t : TabletTracker} {q : Query} {b : Bytes} {d : AMap String Bytes} (hb : env.dec b = some d) {rs : List KvRequest}
    (hr : t.waiting.get q.id = some rs) :
    ∃ t' w, t.processQuery env q (some b) = .ok (t', (covered env q rs).zip (execReqs d.get (covered env q rs)).2, w) ∧
      writes env d.get (covered env q rs) w ∧
      (t'.waiting.get q.id).getD [] = rs.filter (fun r => decide (env.hash r.key ∉ q.hashes)) ∧
      ∀ j, j ≠ q.id → t'.waiting.get j = t.waiting.get j := by
  obtain ⟨t', w, h1, h2, _, _, _, h3, h4⟩ := processQuery_spec env (t := t) (q := q) hb
  rw [hr] at h1 h2 h3
  exact ⟨t', w, h1, h2, h3, h4⟩

/-- Two gets and a put of the same key: the get after the put sees it. -/
example : ∃ t', (⟨0, true, [], [(3, [.get 1 "a", .put 2 "a" [8], .get 3 "a", .get 4 "c", .get 5 "b"])]⟩ : TabletTracker).processQuery exKv ⟨3, "t", [5, 14]⟩ (some [2, 4]) =
    .ok (t', [(.get 1 "a", .get 1 false []), (.put 2 "a" [8], .put 2 false), (.get 3 "a", .get 3 true [8]), (.get 5 "b", .get 5 true [4])], some [2, 4, 1, 8]) ∧
    t'.waiting = [(3, [.get 4 "c"])] := ⟨_, rfl, rfl⟩

/-- Without a put nothing is written. -/
example : ∃ t', (⟨0, true, [], [(3, [.get 1 "a", .get 5 "b"])]⟩ : TabletTracker).processQuery exKv ⟨3, "t", [5, 14]⟩ (some [2, 4]) =
    .ok (t', [(.get 1 "a", .get 1 false []), (.get 5 "b", .get 5 true [4])], none) := ⟨_, rfl⟩

/-- The same for a whole transaction: the answers of all its tablets, each computed on the dictionary of its own tablet, and for
each tablet what is written back. -/
theorem C54_handler (env : KvEnv) {txn : Nat} {vs : List (Query × UInt32 × Option Bytes)} {c : KvCore} {x : TxnTracker} (hx : c.txns.get txn = some x)
    (hn : (vs.map fun v => (v.1.id, v.2.1)).Nodup) (hd : ∀ v ∈ vs, (c.tablets.get v.2.1).isSome → ∃ b d, v.2.2 = some b ∧ env.dec b = some d) :
    ∃ c' ws x', c.processTablets env txn vs = .ok (c', ws) ∧ ws.length = vs.length ∧ c'.txns.get txn = some x' ∧
      x'.requests = x.requests ++ vs.flatMap (fun v => covered env v.1 (waitingFor c v.1 v.2.1)) ∧
      x'.responses = x.responses ++ vs.flatMap (viewAnswers env c) ∧
      (∀ (k : Nat) (v : Query × UInt32 × Option Bytes) (w : Option Bytes), vs[k]? = some v → ws[k]? = some w →
        writes env (dictOf env v.2.2) (covered env v.1 (waitingFor c v.1 v.2.1)) w) ∧
      (∀ v ∈ vs, waitingFor c' v.1 v.2.1 = (waitingFor c v.1 v.2.1).filter (fun r => decide (env.hash r.key ∉ v.1.hashes))) ∧
      ∀ q t, (∀ v ∈ vs, (q.id, t) ≠ (v.1.id, v.2.1)) → waitingFor c' q t = waitingFor c q t :=
  processTablets_spec env txn vs c x hx hn hd

/-- Two tablets in one transaction. -/
example : ∃ c', KvCore.processTablets exKv ⟨"t", 3, 1, [], [], [(10, ⟨0, true, [], [(3, [.put 1 "a" [6]])]⟩), (20, ⟨0, true, [], [(3, [.get 2 "b"])]⟩)],
      [(4, ⟨[10, 20], [], [], some 4, none⟩)], [], 0⟩ 4 [(⟨3, "t", [5]⟩, 10, some []), (⟨3, "t", [14]⟩, 20, some [2, 1])] = .ok (c', [some [1, 6], none]) ∧
    c'.txns = [(4, ⟨[10, 20], [.put 1 "a" [6], .get 2 "b"], [.put 1 false, .get 2 true [1]], some 4, none⟩)] := ⟨_, rfl, rfl⟩

/-! ## C55 -/

/-- No request is answered twice, and nothing that was not accepted is answered: in every history of a store and its manager,
whatever messages come in, at most as many answers of a kind and correlation id are given as requests of that kind and
correlation id were accepted.
Missing: that every request is answered; it is not, see the theorems below. -/
theorem C55_once_partial {env : KvEnv} {data : DataEnv Bytes} {evict : AMap String (Entry Bytes) → List String} {evs : List KEvent} {s : Sys}
    (h : KHistory env data evict evs s) (σ : Bool × Nat) : answered evs σ ≤ accepted evs σ := by
  obtain ⟨co, md, d, h⟩ := h
  have := ksteps_weight σ h
  simp only [Manager.create, KvCore.new, KvCore.weight, cntReq_nil, cntResp_nil, sumBy, List.map_nil, List.sum_nil] at this
  simp at this
  omega

example : ∃ evs s, KHistory exKv exEnv exPolicy evs s ∧ accepted evs (true, 7) = 1 ∧ answered evs (true, 7) = 1 := by
  have h : holdsKv (exPut ++ [.input (.response 101 exYes), .store, .responses]) (fun _ evs => decide (accepted evs (true, 7) = 1 ∧ answered evs (true, 7) = 1)) = true := by
    decide +kernel
  obtain ⟨evs, s, h1, h2⟩ := holdsKv_history h
  exact ⟨evs, s, h1, of_decide_eq_true h2⟩

/-- An answer is given only after the transaction that computed it was reported to have succeeded: the manager has a history
with the same messages in which transaction `i` computed the answer, was committed with `ops`, and, if the answers to that
request had as many results as `ops`, every one of `ops` was confirmed.
Missing: see `C53_confirmed_partial` for the number of results. -/
theorem C55_committed_partial {env : KvEnv} {data : DataEnv Bytes} {evict : AMap String (Entry Bytes) → List String} {evs : List KEvent} {s : Sys}
    (h : KHistory env data evict evs s) {rs : List KvResponse} (hr : .responses rs ∈ evs) {r : KvResponse} (hm : r ∈ rs) :
    ∃ i mevs c corr ops, Computed env data evict evs i r ∧ MHistory (txnEnv env data evict) mevs c ∧ mevs.filterMap wireM = evs.filterMap wireK ∧
      .check i (some .succeeded) ∈ mevs ∧ .commit i [(corr, ops)] ∈ mevs ∧
      ((∀ a, .input (.response corr a) ∈ evs → (answers a).length = ops.length) → ops ≠ [] →
        ∃ a, .input (.response corr a) ∈ evs ∧ ∀ (k : Nat) (o : TabletOp), ops[k]? = some o →
          ∃ x, (answers a)[k]? = some x ∧ x.status = .succeeded ∧ SameKind o x) := by
  obtain ⟨mevs, c, h1, _, h2, h3⟩ := khistory_inv h
  obtain ⟨i, h4, h5⟩ := h3 r (List.mem_append.mpr (Or.inr (List.mem_flatMap.mpr ⟨_, hr, hm⟩)))
  obtain ⟨corr, ops, a, b, h6, h7⟩ := C53_confirmed_partial h1 h4
  have hin : ∀ x, .input (.response corr x) ∈ b → .input (.response corr x) ∈ evs := by
    intro x hx
    have : Wire.input (.response corr x) ∈ mevs.filterMap wireM := by
      rw [List.mem_filterMap]; exact ⟨_, by rw [h6]; exact List.mem_append.mpr (Or.inr (List.mem_cons_of_mem _ hx)), rfl⟩
    rw [h2, List.mem_filterMap] at this
    obtain ⟨e, he, hw⟩ := this
    have : e = .input (.response corr x) := by
      cases e with
      | input i => simp only [wireK, Option.some.injEq, Wire.input.injEq] at hw; rw [hw]
      | _ => simp [wireK] at hw
    rw [← this]; exact he
  refine ⟨i, mevs, c, corr, ops, h5, h1, h2, h4, by rw [h6]; simp, fun hl hne => ?_⟩
  obtain ⟨x, hx, hk⟩ := h7 (fun x hx => hl x (hin x hx)) hne
  exact ⟨x, hin x hx, hk⟩

/-- C55 fails: the requests of a transaction that the tablet store rejected are dropped; whatever happens afterwards, short of the
client sending another request with the same correlation id, no answer is given. -/
theorem C55_dropped_fails : ∃ evs s, KHistory exKv exEnv exPolicy evs s ∧ accepted evs (true, 7) = 1 ∧ answered evs (true, 7) = 0 ∧
    ∀ more s', KSteps exKv (txnEnv exKv exEnv exPolicy) s more s' → accepted more (true, 7) = 0 → answered more (true, 7) = 0 := by
  have h : holdsKv (exPut ++ [.input (.response 101 exReject), .store, .responses]) (fun s evs =>
      decide (accepted evs (true, 7) = 1 ∧ answered evs (true, 7) = 0 ∧ s.world.shared.weight (true, 7) = 0)) = true := by decide +kernel
  obtain ⟨evs, s, h1, h2⟩ := holdsKv_history h
  obtain ⟨h2, h3, h4⟩ := of_decide_eq_true h2
  refine ⟨evs, s, h1, h2, h3, fun more s' hs ha => ?_⟩
  have := ksteps_weight (true, 7) hs
  omega

/-- The store crashes on a request whose region of the table is already known: the handler of the resolved query is called while
the store is borrowed. -/
theorem C55_crash_fails : ∃ evs s, KHistory exKv exEnv exPolicy evs s ∧ accepted evs (true, 7) = 1 ∧ answered evs (true, 7) = 1 ∧
    (s.accept (.put 8 "a" [3])).storeProgress exKv = .panic := by
  have h : holdsKv (exPut ++ [.input (.response 101 exYes), .store, .responses]) (fun s evs =>
      decide (accepted evs (true, 7) = 1 ∧ answered evs (true, 7) = 1) &&
      match (s.accept (.put 8 "a" [3])).storeProgress exKv with | .panic => true | .ok _ => false) = true := by decide +kernel
  obtain ⟨evs, s, h1, h2⟩ := holdsKv_history h
  rw [Bool.and_eq_true] at h2
  obtain ⟨h3, h4⟩ := of_decide_eq_true h2.1
  refine ⟨evs, s, h1, h3, h4, ?_⟩
  have h5 := h2.2
  split at h5
  · assumption
  · cases h5

/-- A store with `min_pending_before_resolve` zero crashes the first time it makes progress. -/
theorem C55_zero_fails : ∃ evs s, KHistory exKv exEnv exPolicy evs s ∧ evs = [.init "t" 0 0 [("t", 0x40000000)]] ∧ s.storeProgress exKv = .panic := by
  have h : holdsKv [.init "t" 0 0 [("t", 0x40000000)]] (fun s evs => decide (evs = [.init "t" 0 0 [("t", 0x40000000)]]) &&
      match s.storeProgress exKv with | .panic => true | .ok _ => false) = true := by decide +kernel
  obtain ⟨evs, s, h1, h2⟩ := holdsKv_history h
  rw [Bool.and_eq_true] at h2
  refine ⟨evs, s, h1, of_decide_eq_true h2.1, ?_⟩
  have h5 := h2.2
  split at h5
  · assumption
  · cases h5

/-- A batch that spans two tablets: keys `a` and `b` belong to tablets 10 and 20, both requests are handed to tablet 10; the
transaction succeeds, the put of `a` is answered, the put of `b` stays behind, waiting for a query that was already processed,
and no transaction is left. -/
theorem C55_span_fails : ∃ evs s, KHistory exKv exEnv exPolicy evs s ∧ accepted evs (true, 7) = 1 ∧ answered evs (true, 7) = 1 ∧
    accepted evs (true, 8) = 1 ∧ answered evs (true, 8) = 0 ∧ s.coord.txns = [] ∧ s.world.shared.txns = [] ∧ s.world.shared.pending = [] ∧
    s.world.shared.tablets = [(10, ⟨0, false, [], [(2, [.put 8 "b" [5]])]⟩)] := by
  have h : holdsKv [.init "t" 2 0 [("t", 0x40000000)], .accept (.put 7 "a" [9]), .accept (.put 8 "b" [5]), .store, .progress, .take,
      .input (.response 201 ⟨true, [exList [exMeta 10 "x", exMeta 20 "y"]]⟩), .store, .progress, .progress, .progress, .take,
      .input (.data (.load 301 .succeeded [2, 4])), .progress, .take, .input (.data (.store 302 .succeeded)), .progress, .store, .take,
      .input (.response 101 exYes), .store, .responses] (fun s evs =>
      decide (accepted evs (true, 7) = 1 ∧ answered evs (true, 7) = 1 ∧ accepted evs (true, 8) = 1 ∧ answered evs (true, 8) = 0 ∧ s.coord.txns = [] ∧
        s.world.shared.txns = [] ∧ s.world.shared.pending = [] ∧ s.world.shared.tablets = [(10, ⟨0, false, [], [(2, [.put 8 "b" [5]])]⟩)])) = true := by
    decide +kernel
  obtain ⟨evs, s, h1, h2⟩ := holdsKv_history h
  exact ⟨evs, s, h1, of_decide_eq_true h2⟩

/-- C55 fails for reads: in every history of a store and its manager, whoever drives them, however often, and whatever messages come
in, no response is ever given if no put was accepted.  (A get is answered only when its transaction succeeds, and a transaction
that writes nothing never does, `C52_read_only_fails`.) -/
theorem C55_gets_fails {env : KvEnv} {data : DataEnv Bytes} {evict : AMap String (Entry Bytes) → List String} (hsane : Sane (txnEnv env data evict)) {evs : List KEvent}
    {s : Sys} (h : KHistory env data evict evs s) (hg : ∀ corr k v, .accept (.put corr k v) ∉ evs) (rs : List KvResponse) (hr : .responses rs ∈ evs) : rs = [] := by
  refine only_gets hsane h (fun r hm => ?_) rs hr
  cases r with
  | get corr k => rfl
  | put corr k v => exact absurd hm (hg corr k v)

/-- A get of key `a`; its tablet was loaded, and the answer was computed; all messages that were sent are answered. -/
example : ∃ evs s, KHistory exKv exEnv exPolicy evs s ∧ (∀ corr k v, .accept (.put corr k v) ∉ evs) ∧ accepted evs (false, 7) = 1 ∧ .responses [] ∈ evs ∧
    s.world.shared.txns = [(2, ⟨[10], [.get 7 "a"], [.get 7 true [4]], some 2, none⟩)] ∧ Sane (txnEnv exKv exEnv exPolicy) := by
  have h : holdsKv [.init "t" 1 0 [("t", 0x40000000)], .accept (.get 7 "a"), .store, .progress, .take,
      .input (.response 201 ⟨true, [exList [exTablet 10 0]]⟩), .store, .progress, .progress, .progress, .take,
      .input (.data (.load 301 .succeeded [1, 4])), .progress, .take, .progress, .store, .take, .progress, .store, .take, .responses] (fun s evs =>
      decide ((evs.all fun e => match e with | .accept (.put _ _ _) => false | _ => true) = true ∧ accepted evs (false, 7) = 1 ∧ .responses [] ∈ evs ∧
        s.world.shared.txns = [(2, ⟨[10], [.get 7 "a"], [.get 7 true [4]], some 2, none⟩)])) = true := by
    decide +kernel
  obtain ⟨evs, s, h1, h2⟩ := holdsKv_history h
  obtain ⟨h2, h3, h4, h5⟩ := of_decide_eq_true h2
  refine ⟨evs, s, h1, fun corr k v hm => ?_, h3, h4, h5, by intro es k hk; simp [txnEnv, exPolicy] at hk⟩
  have := List.all_eq_true.mp h2 _ hm
  simp at this

/-! ### The actor -/

section Actor

open TCP.ActorSpec

/-- The tablet cache as it is shipped answers nothing at all: whatever it is configured with and whatever calls are made on it, a
handled command produces no commands and no event, and an applied event produces nothing. -/
theorem C55_silent_fails {env : CacheEnv} {ctx : ActorCtx} {s s' : Sys} {cs : List Call} (h0 : Started (cacheActor env) cacheInit ctx s)
    (h : Steps (cacheActor env) s cs s') :
    (∀ ctx c o, Call.command ctx c (.ok o) ∈ cs → o.commands = [] ∧ o.event = none) ∧ ∀ ctx ec ev o, Call.apply ctx ec ev (.ok o) ∈ cs → o.commands = [] := by
  obtain ⟨_, h1, h2⟩ := steps_idle h (started_idle h0)
  exact ⟨fun ctx c o hm => by rw [h1 ctx c o hm]; exact ⟨rfl, rfl⟩, fun ctx ec ev o hm => by rw [h2 ctx ec ev o hm]⟩

def exActorEnv : CacheEnv where
  kv := exKv
  data := exEnv
  evict := exPolicy
  decIn := fun b => match b with
    | [1, v] => some (some (.put "a" [v]))
    | [2] => some (some (.get "a"))
    | [] => some none
    | _ => none
  encOut := fun _ => [1]
  decResp := fun _ => none
  encOps := fun _ => []
  decConfig := fun _ => some (some ("t", 1, 1), some [("t", 0x40000000)])

/-- A put is accepted, and progress is made many times. -/
example : ∃ s s', Started (cacheActor exActorEnv) cacheInit ⟨1, 0, [], true⟩ s ∧
    Steps (cacheActor exActorEnv) s [.command ⟨1, 0, [], true⟩ (some ⟨7, [1, 9], []⟩) (.ok ⟨[], none⟩), .command ⟨1, 0, [], true⟩ none (.ok ⟨[], none⟩), .command ⟨1, 0, [], true⟩ none (.ok ⟨[], none⟩)] s' :=
  ⟨_, _, rfl, .step (.command rfl) (.step (.command rfl) (.step (.command rfl) .refl))⟩

end Actor

end TCP.Cache.Props
