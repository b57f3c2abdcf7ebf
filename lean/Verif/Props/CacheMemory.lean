import Verif.Proofs.KvMemory
import Verif.Props.CacheNumbers

/-!
# C106: a cache forgets what is finished
-/

namespace TCP.Cache.Props

open TCP TCP.Cache TCP.Cache.Spec TCP.TabletStore

variable {α η ω : Type}

/-- C106: a manager knows exactly the transactions that were started, were not aborted, and whose outcome nobody has been told. -/
theorem C106_transactions {env : TxnEnv α η ω} {evs : List (MEvent η)} {c : Client α η ω} (h : MHistory env evs c) (i : Nat) :
    (c.m.coord.txns.get i).isSome ↔ Unfinished evs i := (mem_history h).txns i

/-- C106: it remembers requests to the storage only as long as they are outstanding, the error responses of requests to the tablet store only as long as these are
unanswered, and whose commit a request was only until a response with results of checks or updates comes in. -/
theorem C106_requests {env : TxnEnv α η ω} {evs : List (MEvent η)} {c : Client α η ω} (h : MHistory env evs c) (corr : Nat) :
    ((c.m.world.data.ops.get corr).isSome → ∃ r : DataOut, r.corr = corr ∧ MOutstanding evs c r) ∧ ((c.m.errors.get corr).isSome → Unreplied evs corr) ∧
      ((c.m.coord.correlations.get corr).isSome → Undecided evs c.m corr) :=
  ⟨(mem_history h).ops corr, (mem_history h).errors corr, (mem_history h).corrs corr⟩

/-- C106 fails: it keeps a record of every resolution there ever was, also of those whose handler has been called and of those whose result a transaction has been
given; so its memory grows with every resolution. -/
theorem C106_resolutions_fails {env : TxnEnv α η ω} {evs : List (MEvent η)} {c : Client α η ω} (h : MHistory env evs c) :
    (∀ x ∈ c.m.world.md.calls, (c.m.world.md.resolves.get x.1).isSome) ∧ (∀ id, (c.m.world.md.cells.get id).isSome → (c.m.world.md.resolves.get id).isSome) ∧
      resolutions evs ≤ c.m.world.md.resolves.length := by
  have hm := mem_history h
  have h1 := hm.recs.length
  have h2 := hm.many
  exact ⟨hm.recs.calls, hm.recs.cells, by omega⟩

/-- Non-vacuity: a transaction that is committed and whose outcome has been given is forgotten, so are its requests, but not its resolution, nor that of a handler that
was called before. -/
def memCmds : List (Cmd Nat) :=
  exCommit ++ [.resolve [exQuery [5]], .input (.response 101 exYes), .check 2]

example : ∃ evs c, MHistory exTxn evs c ∧ .start 2 ∈ evs ∧ .check 2 (some .succeeded) ∈ evs ∧ c.m.coord.txns = [] ∧ c.m.world.data.ops = [] ∧ c.m.errors = [] ∧
    c.m.coord.correlations = [] ∧ c.m.world.md.calls.length = 1 ∧ c.m.world.md.cells.length = 1 ∧ c.m.world.md.resolves.length = 2 ∧ resolutions evs = 1 := by
  have h : holds memCmds (fun c evs => decide (.start 2 ∈ evs ∧ .check 2 (some .succeeded) ∈ evs ∧ c.m.coord.txns = [] ∧ c.m.world.data.ops = [] ∧ c.m.errors = [] ∧
    c.m.coord.correlations = [] ∧ c.m.world.md.calls.length = 1 ∧ c.m.world.md.cells.length = 1 ∧ c.m.world.md.resolves.length = 2 ∧ resolutions evs = 1)) = true := by
    decide +kernel
  obtain ⟨evs, c, h1, h2⟩ := holds_history h
  exact ⟨evs, c, h1, of_decide_eq_true h2⟩

/-- Non-vacuity: before that the transaction, its request and the error response are remembered. -/
example : ∃ evs c, MHistory exTxn evs c ∧ (c.m.coord.txns.get 2).isSome ∧ (c.m.errors.get 101).isSome ∧ (c.m.coord.correlations.get 101).isSome := by
  have h : holds exCommit (fun c _ => decide ((c.m.coord.txns.get 2).isSome ∧ (c.m.errors.get 101).isSome ∧ (c.m.coord.correlations.get 101).isSome)) = true := by
    decide +kernel
  obtain ⟨evs, c, h1, h2⟩ := holds_history h
  exact ⟨evs, c, h1, of_decide_eq_true h2⟩

/-- Non-vacuity: and before the storage has answered, the load. -/
example : ∃ evs c, MHistory exTxn evs c ∧ (c.m.world.data.ops.get 301).isSome := by
  have h : holds ((exLoad 7).take 9) (fun c _ => decide ((c.m.world.data.ops.get 301).isSome)) = true := by decide +kernel
  obtain ⟨evs, c, h1, h2⟩ := holds_history h
  exact ⟨evs, c, h1, of_decide_eq_true h2⟩

/-- C106 fails: a key-value store keeps in addition an entry for every query about a tablet there ever was, in every history from any state on, with the record of every
resolution the metadata cache has answered. -/
theorem C106_queries_fails {env : KvEnv} {data : DataEnv Bytes} {evict : AMap String (Entry Bytes) → List String} {evs evs' : List KEvent} {s s' : Sys}
    (h : KHistory env data evict evs s) (h' : KSteps env (txnEnv env data evict) s evs' s') :
    KeepsAll s.world.shared.tablets s'.world.shared.tablets ∧ (∀ x ∈ s'.world.md.calls, (s'.world.md.resolves.get x.1).isSome) ∧
      s.world.md.resolves.length ≤ s'.world.md.resolves.length := by
  have h1 := ksteps_rec h
  obtain ⟨h2, h3⟩ := ksteps_mem h'
  have h4 := (h2 h1).1
  have h5 := (h2 h1).2
  have := h1.length
  have := h4.length
  exact ⟨h3, h4.calls, by omega⟩

/-- Non-vacuity: a store whose only request, a put, has been answered, and which has nothing else to do. -/
example : ∃ evs s, KHistory mapKv mapData exPolicy evs s ∧ .responses [.put 7 false] ∈ evs ∧ s.world.shared.pending = [] ∧ s.world.shared.txns = [] ∧
    s.coord.txns = [] ∧ s.world.shared.tablets.map (fun e => (e.1, e.2.waiting)) = [(10, [(2, [])])] ∧ s.world.md.calls.length = 1 ∧ s.world.md.resolves.length = 2 := by
  have h : (match kexecAll mapKv (txnEnv mapKv mapData exPolicy) cacheInit numCmds with
    | .ok (s, evs) => decide (.responses [.put 7 false] ∈ evs ∧ s.world.shared.pending = [] ∧ s.world.shared.txns = [] ∧
        s.coord.txns = [] ∧ s.world.shared.tablets.map (fun e => (e.1, e.2.waiting)) = [(10, [(2, [])])] ∧ s.world.md.calls.length = 1 ∧ s.world.md.resolves.length = 2)
    | .panic => false) = true := by decide +kernel
  split at h
  · rename_i s evs he
    exact ⟨evs, s, ⟨_, _, _, kexecAll_sound he⟩, of_decide_eq_true h⟩
  · cases h

end TCP.Cache.Props
