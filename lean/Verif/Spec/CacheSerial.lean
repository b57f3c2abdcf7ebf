import Verif.Spec.CacheTxn

/-!
# Specification vocabulary for transactions and the log of the tablet store (C85)
-/

namespace TCP.Cache.Spec

open TCP TCP.Cache TCP.TabletStore

variable {α η ω : Type}

/-- The tables of a tablet store, by name. -/
abbrev Tables := AMap String Tablets

/-- The tablet a store has under an id, in a table. -/
def stored (t : Tables) (table : String) (id : UInt32) : Option Metadata := (t.get table).bind fun m => SMap.get m id

/-- A store with tables `t0` applied these requests, in this order, gave these responses, and has the tables `t` afterwards.  The requests
may come from any number of clients. -/
inductive Log (senv : TabletStore.Env) (t0 : Tables) : List (List TabletOp × Response) → Tables → Prop
  | nil : Log senv t0 [] t0
  | snoc {log t ops t' r} (h : Log senv t0 log t) (ha : applyRequest senv t ops = .ok (t', r)) : Log senv t0 (log ++ [(ops, r)]) t'

/-- Every response the manager got is that to a request in the log, and a response to the commit of a transaction is that to its ops.
Nothing is said about when, how often or in which order responses arrive. -/
structure FromLog (evs : List (MEvent η)) (log : List (List TabletOp × Response)) : Prop where
  responses : ∀ corr r, .input (.response corr r) ∈ evs → ∃ ops, (ops, r) ∈ log
  commits : ∀ i corr ops r, .commit i [(corr, ops)] ∈ evs → .input (.response corr r) ∈ evs → (ops, r) ∈ log

/-- A rejected request of the manager had no op that could have been carried out by itself. -/
def AllRejected (evs : List (MEvent η)) : Prop :=
  ∀ i corr ops r, .commit i [(corr, ops)] ∈ evs → .input (.response corr r) ∈ evs → r.succeeded = false → ∀ x ∈ r.results, x.status ≠ .succeeded

/-- No transaction updates a tablet twice, to different metadata. -/
def UpdatedOnce (evs : List (MEvent η)) : Prop :=
  ∀ i corr ops, .commit i [(corr, ops)] ∈ evs → ∀ table m m', ⟨table, some (.update (some m))⟩ ∈ ops → ⟨table, some (.update (some m'))⟩ ∈ ops →
    m.tabletId = m'.tabletId → m = m'

/-- The store has the tables of the transactions. -/
def TablesKnown (evs : List (MEvent η)) (t : Tables) : Prop := ∀ i corr ops, .commit i [(corr, ops)] ∈ evs → ∀ o ∈ ops, (t.get o.table).isSome

/-- Tablets that are answered together differ in id or version. -/
def AnswersDiffer (cfg : List (String × UInt32)) (evs : List (MEvent η)) (md : MetaCache) : Prop :=
  ∀ qs res, Answered cfg evs md qs res → (res.map fun p => (p.2.tabletId, p.2.version)).Nodup

end TCP.Cache.Spec
