import Verif.Model.CacheMetadata
import Verif.Spec.TabletStore

/-!
# Specification vocabulary for the tablet metadata cache (C46–C49)
-/

namespace TCP.Cache.Spec

open TCP TCP.Cache TCP.TabletStore TCP.TabletStore.Spec

/-- A query as callers build it: its hashes are a set, listed in ascending order. -/
def QueryOk (q : Query) : Prop := q.hashes.Pairwise (· < ·)

/-- The inputs of a metadata cache after its initialisation. -/
inductive Input where
  | progress
  | resolve (n : Notification) (qs : List Query)
  | update (table : String) (m : Metadata) (conflict : Bool)
  | list (results : List TabletOpResult)
  | take

/-- Feeding one input. -/
def feed (c : MetaCache) : Input → Run MetaCache
  | .progress => c.makeProgress
  | .resolve n qs => c.resolve n qs
  | .update t m b => c.updateTablet t m b
  | .list rs => c.processIn rs
  | .take => .ok c.takeOut.1

/-- Feeding inputs one after the other. -/
def feedAll (c : MetaCache) : List Input → Run MetaCache
  | [] => .ok c
  | i :: rest => (feed c i).bind fun c' => feedAll c' rest

/-- The states of a cache that was created, initialised with `cfg` and fed any inputs without crashing. -/
def Reaches (cfg : List (String × UInt32)) (ins : List Input) (c : MetaCache) : Prop :=
  ∃ corr c0, (MetaCache.create corr).init cfg = .ok c0 ∧ feedAll c0 ins = .ok c

/-- The region of hash `h` in the ring cut into pieces of `size` hashes. -/
def region (size h : UInt32) : Nat := h.toNat / size.toNat

/-- Region `i` is one of those the cache keeps: the ring is cut into `u32::MAX / size` pieces. -/
def Kept (size : UInt32) (i : Nat) : Prop := i < 0xffffffff / size.toNat

/-- What a list result says about tablets of a table with this region size: nothing unless it succeeded and is about a region
the cache keeps. -/
def listed (size : UInt32) (x : TabletOpResult) : List Metadata :=
  match x.status, x.result with
  | .succeeded, some (.list start _ ts) => if region size start < 0xffffffff / size.toNat then ts else []
  | _, _ => []

/-- What an input says about the tablets of a table with this region size. -/
def told (table : String) (size : UInt32) : Input → List Metadata
  | .update t m _ => if t = table then [m] else []
  | .list rs => (rs.filter fun x => x.table = table).flatMap (listed size)
  | _ => []

/-- The metadata cached for a tablet. -/
def cached (c : MetaCache) (table : String) (i : UInt32) : Option Metadata := (c.tables.get table).bind fun t => t.tablets.get i

/-- Tablet id `i` is the first of `ids` at or after `h`. -/
def First (ids : List UInt32) (h i : UInt32) : Prop := i ∈ ids ∧ h ≤ i ∧ ∀ j ∈ ids, h ≤ j → i ≤ j

/-- The ids of a fresh region agree with the ring `r` of the tablet store: they are the tablets owning the hashes of the
region. -/
def Agrees (r : Ring) (size : UInt32) (idx : Nat) (ids : List UInt32) : Prop :=
  (∀ i m, r i = some m → m.tabletId = i) ∧
  ∀ i, i ∈ ids ↔ ∃ t h, Owns r t h ∧ region size h = idx ∧ t.tabletId = i

/-- The number of times hash `h` occurs in resolution results. -/
def occurrences (res : List (Query × Metadata)) (h : UInt32) : Nat := (res.flatMap fun p => p.1.hashes).count h

end TCP.Cache.Spec
