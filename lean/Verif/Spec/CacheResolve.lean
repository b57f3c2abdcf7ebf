import Verif.Spec.CacheMetadata

/-!
# Specification vocabulary for whole resolve requests (C82)
-/

namespace TCP.Cache.Spec

open TCP TCP.Cache TCP.TabletStore

/-- A cache that was created and initialised with `cfg`. -/
def Started (cfg : List (String × UInt32)) (c0 : MetaCache) : Prop := ∃ corr, (MetaCache.create corr).init cfg = .ok c0

/-- The resolve requests made, in order. -/
def requestsOf (ins : List Input) : List (Notification × List Query) :=
  ins.filterMap fun i => match i with
    | .resolve n qs => some (n, qs)
    | _ => none

/-- The cache numbers requests from 2. -/
def requestId (k : Nat) : Nat := k + 2

/-- What an answer says about one hash: table, tablet, hash. -/
abbrev Place := String × UInt32 × UInt32

/-- What resolution results say. -/
def placed (res : List (Query × Metadata)) : List Place := res.flatMap fun p => p.1.hashes.map fun h => (p.1.table, p.2.tabletId, h)

/-- What a call of a handler says. -/
def placedIds (res : List (Query × UInt32)) : List Place := res.flatMap fun p => p.1.hashes.map fun h => (p.1.table, p.2, h)

/-- The answers given to a request: the result in its cell, or the calls of its handler. -/
def answersTo (c : MetaCache) (n : Notification) (id : Nat) : List (List Place) :=
  match n with
  | .source => ((c.cells.get id).map placed).toList
  | .handler => (c.calls.filter fun e => e.1 = id).map fun e => placedIds e.2

/-- The table and the region of a part of a request. -/
def keyOf (p : Query × Nat) : String × Nat := (p.1.table, p.2)

/-- `pre` is a moment of the history `ins`, the last one or an earlier one.  Moments are between inputs and between the results
of a list response. -/
inductive Earlier (pre : List Input) : List Input → Prop
  | now : Earlier pre pre
  | input {ins} (i : Input) (h : Earlier pre ins) : Earlier pre (ins ++ [i])
  | result {ins rs} (x : TabletOpResult) (h : Earlier pre (ins ++ [.list rs])) : Earlier pre (ins ++ [.list (rs ++ [x])])

/-- At some moment of the history `ins` the region of the part `p` was known, and `res` is what it says about `p`. -/
def ResolvedAt (c0 : MetaCache) (ins : List Input) (p : Query × Nat) (res : List (Query × Metadata)) : Prop :=
  ∃ pre c t, Earlier pre ins ∧ feedAll c0 pre = .ok c ∧ c.tables.get p.1.table = some t ∧ t.tryResolve p.2 p.1 = .ok (some res)

/-- Request `id` waits for the region of the part `p`. -/
def Awaited (c : MetaCache) (p : Query × Nat) (id : Nat) : Prop :=
  ∃ t reqs b ids, c.tables.get p.1.table = some t ∧ t.regions.get p.2 = some ⟨.stale reqs b, ids⟩ ∧ id ∈ reqs

/-- A list result about region `idx` of the table. -/
def About (table : String) (size : UInt32) (idx : Nat) (x : TabletOpResult) : Prop :=
  x.table = table ∧ ∃ start to ts, x.result = some (.list start to ts) ∧ region size start = idx

/-- The cache asked the tablet store to list region `idx` of the table, exactly, and no list result about it has arrived since. -/
def Asked (c0 : MetaCache) (ins : List Input) (table : String) (size : UInt32) (idx : Nat) : Prop :=
  ∃ pre mid c1 c2 m lo hi, ins = pre ++ .progress :: mid ∧ feedAll c0 pre = .ok c1 ∧ feed c1 .progress = .ok c2 ∧
    c2.out = c1.out ++ [m] ∧ ⟨table, some (.list lo hi)⟩ ∈ m.2 ∧ (∀ h : UInt32, region size h = idx ↔ lo ≤ h ∧ h ≤ hi) ∧
    ∀ rs, .list rs ∈ mid → ∀ x ∈ rs, ¬ About table size idx x

end TCP.Cache.Spec
