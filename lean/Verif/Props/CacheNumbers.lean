import Verif.Proofs.CacheNumbers
import Verif.Props.KvCluster

/-!
# C105: the requests of a cache can be told apart
-/

namespace TCP.Cache.Props

open TCP TCP.Cache TCP.Cache.Spec TCP.TabletStore ActorSpec Drv DrvSpec

variable {α η ω : Type}

/-- C105: whatever the clients of a manager do and whatever comes in, no two of the requests it makes, to the tablet store or to the storage, have the same
correlation id, as long as they all fit between the numbers its three parts start counting from; and every id was counted from one of these. -/
theorem C105_distinct {env : TxnEnv α η ω} {co md d n : Nat} {w : ω} {evs : List (MEvent η)} {c : Client α η ω} (h : MSteps env ⟨.create co md d w, [], []⟩ evs c)
    (h1 : Apart n co md) (h2 : Apart n co d) (h3 : Apart n md d) (hn : (requestIds evs c.m).length ≤ n) :
    (requestIds evs c.m).Nodup ∧ ∀ i ∈ requestIds evs c.m, ∃ a ∈ [co, md, d], a < i ∧ i ≤ a + n :=
  (numbered_m rfl h).nodup h1 h2 h3 hn

/-- C105: so the manager, which refuses to send a request under an id for which it still awaits an answer by panicking, never does. -/
theorem C105_takes {env : TxnEnv α η ω} {co md d n : Nat} {w : ω} {evs : List (MEvent η)} {c : Client α η ω} (h : MSteps env ⟨.create co md d w, [], []⟩ evs c)
    (h1 : Apart n co md) (hn : (requestIds evs c.m).length ≤ n) : ∃ m outs, c.m.takeOut = .ok (m, outs) := by
  obtain ⟨⟨m, outs⟩, h⟩ := (numbered_m rfl h).takes h1 hn
  exact ⟨m, outs, h⟩

/-- Non-vacuity: a transaction up to its commit; the manager makes four requests. -/
example : ∃ evs c, MSteps exTxn exManager evs c ∧ Apart 100 100 200 ∧ Apart 100 100 300 ∧ Apart 100 200 300 ∧ (requestIds evs c.m).length ≤ 100 ∧
    requestIds evs c.m = [201, 301, 302, 101] := by
  have h : (match execAll exTxn exManager exCommit with
    | .ok (c, evs) => decide (requestIds evs c.m = [201, 301, 302, 101])
    | .panic => false) = true := by decide +kernel
  split at h
  · rename_i c evs he
    have h := of_decide_eq_true h
    exact ⟨evs, c, execAll_sound he, by unfold Apart; omega, by unfold Apart; omega, by unfold Apart; omega, by rw [h]; decide, h⟩
  · cases h

/-- C105: the actor as it is shipped, for up to 2^56 requests: no two have the same correlation id, no id exceeds 64 bits, and sending does not panic. -/
theorem C105_shipped {env : KvEnv} {data : DataEnv Bytes} {evict : AMap String (Entry Bytes) → List String} {evs : List KEvent} {s : Sys}
    (h : KSteps env (txnEnv env data evict) cacheInit evs s) (hn : (kvRequestIds evs s).length ≤ 2 ^ 56) :
    (kvRequestIds evs s).Nodup ∧ (∀ i ∈ kvRequestIds evs s, 0 < i ∧ i < 2 ^ 64) ∧ ∃ s' outs, s.takeOut = .ok (s', outs) := by
  have hk := numbered_k (co := 2 ^ 56) (md := 3 * 2 ^ 56) (d := 2 * 2 ^ 56) rfl h
  obtain ⟨k1, k2⟩ := hk.nodup (n := 2 ^ 56) (by unfold Apart; omega) (by unfold Apart; omega) (by unfold Apart; omega) hn
  obtain ⟨⟨m, outs⟩, k3⟩ := hk.takes (n := 2 ^ 56) (by unfold Apart; omega) hn
  refine ⟨k1, fun i hi => ?_, m, outs, k3⟩
  obtain ⟨a, ha, h1, h2⟩ := k2 i hi
  simp only [List.mem_cons, List.not_mem_nil, or_false] at ha
  omega

theorem room_nodup {env : KvEnv} {data : DataEnv Bytes} {evict : AMap String (Entry Bytes) → List String} {evs : List KEvent} {s : Sys}
    (h : RoomFor env data evict evs s) : (kvRequestIds evs s).Nodup := by
  obtain ⟨n, co, md, d, h1, h2, h3, h, hn⟩ := h
  exact ((numbered_k rfl h).nodup h1 h2 h3 hn).1

/-- The actor as it is shipped has room for 2^56 requests. -/
theorem C105_room {env : KvEnv} {data : DataEnv Bytes} {evict : AMap String (Entry Bytes) → List String} {evs : List KEvent} {s : Sys}
    (h : KSteps env (txnEnv env data evict) cacheInit evs s) (hn : (kvRequestIds evs s).length ≤ 2 ^ 56) : RoomFor env data evict evs s :=
  ⟨2 ^ 56, 2 ^ 56, 3 * 2 ^ 56, 2 * 2 ^ 56, by unfold Apart; omega, by unfold Apart; omega, by unfold Apart; omega, h, hn⟩

/-- C105: so an id stands for one request to the tablet store. -/
theorem C105_requests {env : KvEnv} {data : DataEnv Bytes} {evict : AMap String (Entry Bytes) → List String} {evs : List KEvent} {s : Sys}
    (h : RoomFor env data evict evs s) {corr : Nat} {ops ops' : List TabletOp} (h1 : (corr, ops) ∈ krequests evs s) (h2 : (corr, ops') ∈ krequests evs s) : ops = ops' :=
  nodup_fst ((room_nodup h).sublist (krequests_sub evs s)) h1 h2

/-- C105: and a network that carries the messages of the stores and the replicas meets the assumptions of C103. -/
theorem C105_network {ρ κ H ι : Type} {senv : TabletStore.Env} {ds : Nat → Driver State ρ κ H} {tag : ι → Nat → Nat} {env : KvEnv} {data : DataEnv Bytes}
    {evict : AMap String (Entry Bytes) → List String} {evs : ι → List KEvent} {s : ι → Sys} (h : ∀ p, RoomFor env data evict (evs p) (s p))
    (W : KvWire senv ds tag evs) : KvNetwork senv ds tag evs s where
  response := W.response
  request q m hm p corr ops hc he := by
    obtain ⟨ops', h1, h2⟩ := W.request q m hm p corr he
    rw [h2, C105_requests (h p) hc (sent_request h1)]
  sent q m hm p corr he := by
    obtain ⟨ops, h1, _⟩ := W.request q m hm p corr he
    exact ⟨ops, h1⟩
  writes q m hm ops ho table u hu := by
    obtain ⟨p, corr, h1⟩ := W.writes q m hm ops ho table u hu
    exact ⟨p, corr, sent_request h1⟩

/-- C105: for stores that share one tablet store (C102, C104) it is enough that each response answers some request with its id; that it answers all of them
follows. -/
theorem C105_matching {ι : Type} {env : KvEnv} {data : DataEnv Bytes} {evict : AMap String (Entry Bytes) → List String} {evs : ι → List KEvent} {s : ι → Sys}
    (h : ∀ p, RoomFor env data evict (evs p) (s p)) {log : List (List TabletOp × Response)}
    (hr : ∀ p corr r, .input (.response corr r) ∈ evs p → ∃ ops, (corr, ops) ∈ krequests (evs p) (s p) ∧ (ops, r) ∈ log) :
    ∀ p corr ops r, (corr, ops) ∈ krequests (evs p) (s p) → .input (.response corr r) ∈ evs p → (ops, r) ∈ log := by
  intro p corr ops r hc hi
  obtain ⟨ops', h1, h2⟩ := hr p corr r hi
  rw [C105_requests (h p) hc h1]
  exact h2

/-- Non-vacuity: the shipped actor with one put, up to the response; it makes four requests. -/
def numCmds : List KCmd :=
  [.init "t" 1 0 [("t", 0x40000000)], .accept (.put 7 "a" [9]), .store, .progress, .take,
    .input (.response (3 * 2 ^ 56 + 1) ⟨true, [exList [Metadata.new 10, Metadata.new 20]]⟩), .store, .progress, .progress,
    .progress, .take, .input (.data (.load (2 * 2 ^ 56 + 1) .succeeded [])), .progress, .take, .input (.data (.store (2 * 2 ^ 56 + 2) .succeeded)), .progress, .store, .take,
    .input (.response (2 ^ 56 + 1) ⟨true, [⟨"t", .succeeded, some (.update (some (Metadata.new 10)))⟩]⟩), .store, .responses]

example : ∃ evs s, KSteps mapKv (txnEnv mapKv mapData exPolicy) cacheInit evs s ∧ (kvRequestIds evs s).length ≤ 2 ^ 56 ∧
    kvRequestIds evs s = [3 * 2 ^ 56 + 1, 2 * 2 ^ 56 + 1, 2 * 2 ^ 56 + 2, 2 ^ 56 + 1] ∧ .responses [.put 7 false] ∈ evs := by
  have h : (match kexecAll mapKv (txnEnv mapKv mapData exPolicy) cacheInit numCmds with
    | .ok (s, evs) => decide (kvRequestIds evs s = [3 * 2 ^ 56 + 1, 2 * 2 ^ 56 + 1, 2 * 2 ^ 56 + 2, 2 ^ 56 + 1]) && decide (.responses [.put 7 false] ∈ evs)
    | .panic => false) = true := by decide +kernel
  split at h
  · rename_i s evs he
    simp only [Bool.and_eq_true, decide_eq_true_eq] at h
    exact ⟨evs, s, kexecAll_sound he, by rw [h.1]; decide, h⟩
  · cases h

end TCP.Cache.Props
