import Verif.Model.TabletStore
import Verif.Spec.Actor
import Verif.Lib.ListExtra

/-!
# Specification vocabulary for the tablet store (C40–C45, C60, C61)

The specification state maps each table name to the tablets of the table, by id.
-/

namespace TCP.TabletStore.Spec

open TCP TabletStore ActorSpec

/-- Contract of the encodings: what was encoded decodes to itself. -/
structure Lawful (env : Env) : Prop where
  req : ∀ r, env.decReq (env.encReq r) = some r
  snap : ∀ l, env.decSnap (env.encSnap l) = some l

/-- The tablets of one table. -/
abbrev Ring := UInt32 → Option Metadata

/-- The specification state. -/
abbrev Store := String → Option Ring

/-- How an actor state reads. -/
def view (s : State) : Store := fun n => (s.tables.get n).map fun m i => SMap.get m i

/-- States of a tablet store that was started with a configuration and called in any way afterwards. -/
def Reachable (env : Env) (cfg : Bytes) (s : State) : Prop :=
  ∃ s0 ctx s1 cs, s0.tables = [] ∧ ctx.config = cfg ∧ Started (actor env) s0 ctx s1 ∧ Steps (actor env) s1 cs s

/-- Tablet `t` is responsible for hash `h`: it is the first tablet at or after `h`, or, when there is none, the very
first tablet of the ring. -/
def Owns (r : Ring) (t : Metadata) (h : UInt32) : Prop :=
  r t.tabletId = some t ∧
  ((h ≤ t.tabletId ∧ ∀ i, r i ≠ none → h ≤ i → t.tabletId ≤ i) ∨
   ((∀ i, r i ≠ none → i < h) ∧ ∀ i, r i ≠ none → t.tabletId ≤ i))

/-- The hashes met going clockwise from `a` up to and including `b` (the whole ring if `a = b`). -/
def InClosed (a b h : UInt32) : Prop := if a < b then a ≤ h ∧ h ≤ b else a ≤ h ∨ h ≤ b

/-- The hashes met going clockwise from `a` up to but excluding `b`, as tablet_store.proto:117-123 documents the range
(the whole ring if `a = b`). -/
def InDocumented (a b h : UInt32) : Prop := if a < b then a ≤ h ∧ h < b else a ≤ h ∨ h < b

/-- When an op can be carried out. -/
def OpSucceeds (st : Store) (o : TabletOp) : Prop :=
  ∃ r, st o.table = some r ∧
    match o.op with
    | some (.list _ _) => True
    | some (.check i v) => ∃ t, r i = some t ∧ t.version = v
    | some (.update (some u)) => ∃ t, r u.tabletId = some t ∧ u.version = t.version + 1
    | _ => False

/-- What an op is answered. -/
def OpAnswer (st : Store) (o : TabletOp) (a : TabletOpResult) : Prop :=
  a.table = o.table ∧ (a.status = .succeeded ↔ OpSucceeds st o) ∧
    match st o.table, o.op with
    | none, _ => a.status = .invalid ∧ a.result = none
    | _, none => a.status = .invalid ∧ a.result = none
    | some r, some (.list x y) => ∃ ts, a.result = some (.list x y ts) ∧ (ts.map Metadata.tabletId).Nodup ∧
        ∀ t, t ∈ ts ↔ ∃ h, InClosed x y h ∧ Owns r t h
    | some r, some (.check i _) =>
        a.status ≠ .invalid ∧ a.result = some (.check (if a.status = .succeeded then none else r i))
    | some r, some (.update (some u)) => a.status ≠ .invalid ∧ a.result = some (.update (r u.tabletId))
    | some _, some (.update none) => a.status ≠ .invalid ∧ a.result = some (.update none)
    | some _, some (.add _) => False
    | some _, some (.remove _ _) => False

/-- The last update of tablet `i` of table `n` among the ops. -/
def lastUpdate (n : String) (i : UInt32) : List TabletOp → Option Metadata
  | [] => none
  | ⟨t, some (.update (some u))⟩ :: rest =>
    match lastUpdate n i rest with
    | some x => some x
    | none => if t = n ∧ u.tabletId = i then some u else none
  | _ :: rest => lastUpdate n i rest

/-- The store after all updates among the ops. -/
def Store.after (st : Store) (ops : List TabletOp) : Store := fun n => (st n).map fun r i =>
  match lastUpdate n i ops with
  | some u => some u
  | none => r i

open Classical in
/-- The store after an event: all updates of its request if every op can be carried out, else unchanged. -/
noncomputable def Store.next (env : Env) (st : Store) (ev : ActorEvent) : Store :=
  match env.decReq ev.contents with
  | none => st
  | some ops => if ∀ o ∈ ops, OpSucceeds st o then st.after ops else st

/-- The op updates tablet `i` of table `n` to `u`. -/
def Updates (o : TabletOp) (n : String) (i : UInt32) (u : Metadata) : Prop :=
  o.table = n ∧ o.op = some (.update (some u)) ∧ u.tabletId = i

/-- The op checks version `v` of tablet `i` of table `n`. -/
def Checks (o : TabletOp) (n : String) (i v : UInt32) : Prop := o.table = n ∧ o.op = some (.check i v)

/-- No op comes after an update of the tablet it updates or checks. -/
def Disjoint (ops : List TabletOp) : Prop := ops.Pairwise fun a b => ∀ n i u, Updates a n i u →
  (∀ u', ¬ Updates b n i u') ∧ ∀ v, ¬ Checks b n i v

/-- The tablet stored in a table under an id. -/
def at_ (st : Store) (n : String) (i : UInt32) : Option Metadata := (st n).bind fun r => r i

/-- A cluster: one replica (`b`) bootstraps, everyone else joins by loading a snapshot; `evs` are the events reflected.
A replica that loads may have been started and used in any way before. -/
inductive Member (env : Env) (cfg : Bytes) (b : State) : List ActorEvent → State → Prop
  | boot {ctx s0} (h0 : s0.tables = []) (hc : ctx.config = cfg) (h : Started (actor env) s0 ctx b) : Member env cfg b [] b
  | apply {evs s ctx ec ev res s'} (h : Member env cfg b evs s) (hs : Step (actor env) s (.apply ctx ec ev res) s') :
      Member env cfg b (evs ++ [ev]) s'
  | command {evs s ctx c res s'} (h : Member env cfg b evs s) (hs : Step (actor env) s (.command ctx c res) s') :
      Member env cfg b evs s'
  | save {evs s ctx res s'} (h : Member env cfg b evs s) (hs : Step (actor env) s (.save ctx res) s') : Member env cfg b evs s'
  | load {evs s ctx1 t t' ctx x s'} (h : Reachable env cfg s) (g : Member env cfg b evs t)
      (hsave : Step (actor env) t (.save ctx1 (.ok x)) t') (hs : Step (actor env) s (.load ctx x (.ok ())) s') :
      Member env cfg b evs s'

/-- An environment meeting the contract; the draw number is added to the ids 10, 20, 30, …. -/
def exEnv : Env :=
  let u32 : Codec UInt32 := Codec.nat.map UInt32.ofNat UInt32.toNat (fun _ => by simp)
  let md : Codec Metadata := (u32.pair (u32.pair (Codec.bool.pair (Codec.bytes.pair (u32.pair (Codec.bytes.pair Codec.string)))))).map
    (fun x => ⟨x.1, x.2.1, x.2.2.1, x.2.2.2.1, x.2.2.2.2.1, x.2.2.2.2.2.1, x.2.2.2.2.2.2⟩)
    (fun m => (m.tabletId, m.version, m.deleted, m.key, m.size, m.hash, m.uri)) (fun _ => rfl)
  let op : Codec Op := (((u32.pair u32).sum (u32.pair u32)).sum ((md.option.sum md.option).sum (u32.pair u32))).map
    (fun | .inl (.inl (a, b)) => .list a b | .inl (.inr (a, b)) => .check a b | .inr (.inl (.inl m)) => .add m
         | .inr (.inl (.inr m)) => .update m | .inr (.inr (a, b)) => .remove a b)
    (fun | .list a b => .inl (.inl (a, b)) | .check a b => .inl (.inr (a, b)) | .add m => .inr (.inl (.inl m))
         | .update m => .inr (.inl (.inr m)) | .remove a b => .inr (.inr (a, b)))
    (fun o => by cases o <;> rfl)
  let req : Codec (List TabletOp) := ((Codec.string.pair op.option).map (fun x => (⟨x.1, x.2⟩ : TabletOp)) (fun o => (o.table, o.op))
    (fun _ => rfl)).list
  let snap : Codec (List (String × List Metadata)) := (Codec.string.pair md.list).list
  { decIn := fun b => match b with | [] => some false | [1] => some true | _ => none
    encOut := fun o => match o with | .response => [1] | .error .rejected => [2] | .error .invalidOperation => [3]
    encReq := req.enc, decReq := req.decode
    encResp := fun r => [if r.succeeded then 1 else 0]
    encSnap := snap.enc, decSnap := snap.decode
    decConfig := fun b => some (b.map fun x => ("t", x.toNat))
    generate := fun d n => (List.range n).map fun i => UInt32.ofNat (d + 10 * (i + 1))
    overflowChecks := true }

theorem exEnv_lawful : Lawful exEnv where
  req r := Codec.decode_enc _ r
  snap l := Codec.decode_enc _ l

end TCP.TabletStore.Spec
