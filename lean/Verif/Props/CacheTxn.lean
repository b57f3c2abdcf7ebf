import Verif.Proofs.CacheTxn
import Verif.Props.CacheCoordinator

/-!
# C83, C84: what process handlers are given and what committed transactions refer to

Histories are those of C49 – C63 (`Spec.MHistory`); calls of a handler are observed by replacing the handler (`Spec.Calls`).
-/

namespace TCP.Cache.Props
open TCP TCP.TabletStore TCP.Cache.Spec

variable {α η ω : Type} [DecidableEq α] [DecidableEq η] [DecidableEq ω]

/-! ## C83 -/

/-- A handler is called only for a process request of a transaction, and only after the queries of that request were answered.  If the
tablets of the answer differ in id or version, and uris tell tablets apart, it is given exactly the tablets of the answer, each with
its part of the queries; the contents it is given are what the storage returned for (or confirmed to have stored under) the uri of that
tablet; and either every tablet comes with its contents, or only the first tablet of the answer does.
Missing: contents of tablets other than the first when the first one was cached, see `C83_missing_fails`; tablets that share a uri, see
`C83_new_tablets_fails`; tablets that share id and version (C63). -/
theorem C83_given_partial {env : TxnEnv α η ω} (hsane : Sane env) {cfg : List (String × UInt32)} {evs : List (MEvent η)} {c : Client α η ω}
    (h : MHistory env evs c) (hcfg : Configured cfg evs) {m : Manager α η ω} {x : η} {w : ω} {i : Nat} {vs : List (Query × UInt32 × Option α)}
    (hx : Calls env c.m m x w i vs) :
    ∃ qs res, .process i qs x ∈ evs ∧ Spec.Answered cfg (evs ++ [.progress]) m.world.md qs res ∧
      ((res.map fun p => (p.2.tabletId, p.2.version)).Nodup → UrisDiffer env.data m.world.md →
        ∃ xs : List (Query × Metadata × Option α), vs = xs.map (fun y => (y.1, y.2.1.tabletId, y.2.2)) ∧ xs.map (fun y => (y.1, y.2.1)) = res ∧
          (∀ y ∈ xs, ∀ v, y.2.2 = some v → MCame env (evs ++ [.progress]) m y.2.1.uri v) ∧
          ((∀ y ∈ xs, y.2.2.isSome) ∨ ∃ first, res.head? = some first ∧ ∀ y ∈ xs, y.2.2.isSome ↔ (y.1, y.2.1) = first)) := by
  obtain ⟨c0, ins, devs, R, k1, k2⟩ := calls_given hsane h hcfg (x := (x, w, i, vs)) hx
  exact given_views k1 k2

/-! ### A concrete manager whose uris tell tablets apart -/

/-- Tablet `i` at version `v` is written to `"aa…abcc…c"`. -/
def exUri (i v : UInt32) : String := String.ofList (List.replicate i.toNat 'a' ++ 'b' :: List.replicate v.toNat 'c')

def exTxnU : TxnEnv Bytes Nat Unit := { exTxn with data := { exEnv with uri := fun i v _ => exUri i v } }

theorem exTxnU_sane : Sane exTxnU := by intro es k hk; simp [exTxnU, exTxn, exPolicy] at hk

def holdsU (cmds : List (Cmd Nat)) (p : Client Bytes Nat Unit → List (MEvent Nat) → Bool) : Bool :=
  match execAll exTxnU exManager cmds with
  | .ok (c, evs) => p c evs
  | .panic => false

theorem holdsU_history {cmds : List (Cmd Nat)} {p : Client Bytes Nat Unit → List (MEvent Nat) → Bool} (h : holdsU cmds p = true) :
    ∃ evs c, MHistory exTxnU evs c ∧ p c evs = true := by
  unfold holdsU at h
  split at h
  · rename_i c evs he
    exact ⟨evs, c, ⟨_, _, _, _, execAll_sound he⟩, h⟩
  · cases h

theorem count_uri (i v : UInt32) : (exUri i v).toList.count 'a' = i.toNat ∧ (exUri i v).toList.count 'b' = 1 ∧ (exUri i v).toList.count 'c' = v.toNat := by
  unfold exUri
  simp [List.count_append, List.count_replicate, List.count_cons]

/-- Two tablets, at version 0, whose uris are not of this form. -/
def exKnown : List Metadata := [exMeta 10 "x", exMeta 20 "y", exMeta 30 "z"]

theorem exKnown_differ {md : MetaCache} (h : (md.cells.all fun e => e.2.all fun p => decide (p.2 ∈ exKnown)) = true) : UrisDiffer exTxnU.data md := by
  have known : ∀ m, KnownMeta exTxnU.data md m → m ∈ exKnown ∨ m.uri = exUri m.tabletId m.version := by
    rintro m (⟨id, res, h1, h2⟩ | h1)
    · obtain ⟨p, hp, rfl⟩ := List.mem_map.mp h2
      have := List.all_eq_true.mp h _ (AMap.mem_of_get h1)
      exact .inl (of_decide_eq_true (List.all_eq_true.mp this _ hp))
    · exact .inr h1
  have nob : ∀ m ∈ exKnown, m.uri.toList.count 'b' = 0 := by decide +kernel
  have two : ∀ m ∈ exKnown, ∀ m' ∈ exKnown, m.uri = m'.uri → m.tabletId = m'.tabletId ∧ m.version = m'.version := by decide +kernel
  intro m m' hm hm' he
  rcases known m hm with h1 | h1 <;> rcases known m' hm' with h2 | h2
  · exact two m h1 m' h2 he
  · have := nob m h1
    rw [he, h2, (count_uri _ _).2.1] at this; cases this
  · have := nob m' h2
    rw [← he, h1, (count_uri _ _).2.1] at this; cases this
  · rw [h1, h2] at he
    have a1 := (count_uri m.tabletId m.version).1
    have c1 := (count_uri m.tabletId m.version).2.2
    rw [he] at a1 c1
    rw [(count_uri _ _).1] at a1
    rw [(count_uri _ _).2.2] at c1
    exact ⟨UInt32.toNat_inj.mp a1.symm, UInt32.toNat_inj.mp c1.symm⟩

/-- A transaction on two tablets; the storage has returned the contents of both. -/
def exBoth : List (Cmd Nat) :=
  [.init [("t", 0x40000000)], .start, .process 2 [exQuery [5, 12, 14]] 7, .progress, .progress, .take,
   .input (.response 201 ⟨true, [exList [exMeta 10 "x", exMeta 20 "y"]]⟩), .progress, .take, .input (.data (.load 301 .succeeded [1])),
   .input (.data (.load 302 .succeeded [2]))]

/-- What its handler is given. -/
def exSeen : List (Query × UInt32 × Option Bytes) := [(.create 7 "t" [5], 10, some [1]), (.create 7 "t" [14], 20, some [2])]

/-- Making progress after the commands calls the handler. -/
def callsU (x i : Nat) (vs : List (Query × UInt32 × Option Bytes)) (c : Client Bytes Nat Unit) : Bool :=
  match c.m.makeProgress exTxnU with
  | .ok m => (match c.m.makeProgress (without exTxnU x () i vs) with
    | .panic => true
    | .ok _ => false) && (m.world.md.cells.all fun e => e.2.all fun p => decide (p.2 ∈ exKnown))
  | .panic => false

theorem callsU_calls {x i : Nat} {vs : List (Query × UInt32 × Option Bytes)} {c : Client Bytes Nat Unit} (h : callsU x i vs c = true) :
    ∃ m, Calls exTxnU c.m m x () i vs ∧ UrisDiffer exTxnU.data m.world.md := by
  unfold callsU at h
  split at h
  · rename_i m hm
    rw [Bool.and_eq_true] at h
    refine ⟨m, ⟨hm, ?_⟩, exKnown_differ h.2⟩
    cases hp : c.m.makeProgress (without exTxnU x () i vs) with
    | panic => rfl
    | ok _ => rw [hp] at h; simp at h
  · cases h

def notInit : MEvent Nat → Bool
  | .init _ => false
  | _ => true

/-- Started with a region size, and only once. -/
def initOnce (evs : List (MEvent Nat)) : Bool :=
  (match evs with | .init cfg :: _ => decide (cfg = [("t", 0x40000000)]) | _ => false) && evs.tail.all notInit

theorem initOnce_configured {evs : List (MEvent Nat)} (h : initOnce evs = true) : Configured [("t", 0x40000000)] evs := by
  unfold initOnce at h
  rw [Bool.and_eq_true] at h
  cases evs with
  | nil => simp at h
  | cons e rest =>
    cases e with
    | init cfg =>
      refine ⟨rest, by rw [of_decide_eq_true h.1], fun t ht => ?_⟩
      have := List.all_eq_true.mp h.2 _ ht
      simp [notInit] at this
    | _ => simp at h

/-- A handler that is given both tablets with their contents. -/
example : ∃ evs c m, MHistory exTxnU evs c ∧ Configured [("t", 0x40000000)] evs ∧ Calls exTxnU c.m m 7 () 2 exSeen ∧ UrisDiffer exTxnU.data m.world.md ∧
    (exKnown.map fun m => (m.tabletId, m.version)).Nodup := by
  have h : holdsU exBoth (fun c evs => initOnce evs && callsU 7 2 exSeen c) = true := by decide +kernel
  obtain ⟨evs, c, h1, h2⟩ := holdsU_history h
  rw [Bool.and_eq_true] at h2
  obtain ⟨m, h3, h4⟩ := callsU_calls h2.2
  exact ⟨evs, c, m, h1, initOnce_configured h2.1, h3, h4, by decide +kernel⟩

/-- One tablet is loaded by a transaction; then another transaction uses it and a second tablet. -/
def exCached : List (Cmd Nat) :=
  [.init [("t", 0x40000000)], .start, .process 2 [exQuery [5]] 7, .progress, .progress, .take,
   .input (.response 201 ⟨true, [exList [exMeta 10 "x", exMeta 20 "y"]]⟩), .progress, .take, .input (.data (.load 301 .succeeded [1])), .progress,
   .start, .process 3 [exQuery [5, 12, 14]] 0, .progress, .progress]

/-- C83 fails as stated: a handler is called without the contents of a tablet that is stored, before the storage was even asked for them,
because another tablet of the request was cached.  Uris tell the tablets apart and all versions differ. -/
theorem C83_missing_fails : ∃ evs c m, MHistory exTxnU evs c ∧ Configured [("t", 0x40000000)] evs ∧
    Calls exTxnU c.m m 0 () 3 [(.create 7 "t" [5], 10, some [1]), (.create 7 "t" [14], 20, none)] ∧ UrisDiffer exTxnU.data m.world.md ∧
    ∀ corr s b, .input (.data (.load corr s b)) ∈ evs → corr = 301 := by
  have h : holdsU exCached (fun c evs => (initOnce evs && callsU 0 3 [(.create 7 "t" [5], 10, some [1]), (.create 7 "t" [14], 20, none)] c) &&
      evs.all fun e => match e with | .input (.data (.load corr _ _)) => decide (corr = 301) | _ => true) = true := by decide +kernel
  obtain ⟨evs, c, h1, h2⟩ := holdsU_history h
  rw [Bool.and_eq_true, Bool.and_eq_true] at h2
  obtain ⟨m, h3, h4⟩ := callsU_calls h2.1.2
  refine ⟨evs, c, m, h1, initOnce_configured h2.1.1, h3, h4, fun corr s b hm => ?_⟩
  have := List.all_eq_true.mp h2.2 _ hm
  simpa using this

/-- A transaction uses a new tablet; afterwards another one uses another new tablet. -/
def exFresh : List (Cmd Nat) :=
  [.init [("t", 0x40000000)], .start, .process 2 [exQuery [5]] 7, .progress, .progress, .take,
   .input (.response 201 ⟨true, [exList [exTablet 10 0, exTablet 20 0]]⟩), .progress, .take, .input (.data (.load 301 .succeeded [1])), .progress, .abort 2,
   .start, .process 3 [exQuery [12, 14]] 7, .progress, .progress]

/-- C83 fails for new tablets, which all have the empty uri: once one of them is cached, a transaction that uses another one crashes the
manager. -/
theorem C83_new_tablets_fails : ∃ evs c, MHistory exTxn evs c ∧ c.m.makeProgress exTxn = .panic ∧
    (∀ r corr, .input (.response corr r) ∈ evs → r = ⟨true, [exList [Metadata.new 10, Metadata.new 20]]⟩) := by
  have h : holds exFresh (fun c evs => (match c.m.makeProgress exTxn with | .panic => true | .ok _ => false) &&
      evs.all fun e => match e with | .input (.response _ r) => decide (r = ⟨true, [exList [Metadata.new 10, Metadata.new 20]]⟩) | _ => true) = true := by decide +kernel
  obtain ⟨evs, c, h1, h2⟩ := holds_history h
  rw [Bool.and_eq_true] at h2
  refine ⟨evs, c, h1, ?_, fun r corr hm => ?_⟩
  · cases hp : c.m.makeProgress exTxn with
    | panic => rfl
    | ok _ => rw [hp] at h2; simp at h2
  · have := List.all_eq_true.mp h2.2 _ hm
    simpa using this

/-! ## C84 -/

/-- An update that a transaction commits was written by one of its handlers: the handler set the contents of the tablet with that id, in
answer to a query for that table; the storage has confirmed, before the commit, that it stored the serialised contents under the uri of
the update; and the update has the hash and the size of these bytes. -/
theorem C84_stored {env : TxnEnv α η ω} (hsane : Sane env) {cfg : List (String × UInt32)} {evs : List (MEvent η)} {c : Client α η ω}
    (h : MHistory env evs c) (hcfg : Configured cfg evs) {i corr : Nat} {ops : List TabletOp} (hc : .commit i [(corr, ops)] ∈ evs)
    {table : String} {m : Metadata} (ho : ⟨table, some (.update (some m))⟩ ∈ ops) :
    ∃ a b c1, evs = a ++ .commit i [(corr, ops)] :: b ∧ MHistory env a c1 ∧ MSteps env c1 (.commit i [(corr, ops)] :: b) c ∧
      ∃ x w vs w' sets, CalledIn env a c1 x w i vs ∧ env.handle x w i vs = .ok (w', sets) ∧
        ∃ (j : Nat) (q : Query) (old : Option α) (v : α) (bytes : Bytes), vs[j]? = some (q, m.tabletId, old) ∧ sets[j]? = some (some v) ∧ q.table = table ∧
          env.data.ser v = some bytes ∧ MStored a c1.m m.uri bytes ∧ m.hash = env.data.hash bytes ∧ m.size = UInt32.ofNat bytes.length ∧ Named env.data m := by
  obtain ⟨a, b, rfl⟩ := List.append_of_mem hc
  obtain ⟨c1, c2, h1, h2, h3⟩ := h.split
  have hcfg' : Configured cfg a := by
    obtain ⟨rest, he, hno⟩ := hcfg
    cases a with
    | nil => simp at he
    | cons e a =>
      simp only [List.cons_append, List.cons.injEq] at he
      obtain ⟨rfl, rfl⟩ := he
      exact ⟨a, rfl, fun t ht => hno t (by simp [ht])⟩
  obtain ⟨c0, ins, devs, R, k1, k2⟩ := history_gw hsane h1 hcfg'
  obtain ⟨_, ps, g1, g2, g3⟩ := commit_step h2
  simp only [List.cons.injEq, Prod.mk.injEq, and_true] at g3
  rw [g3.2] at ho
  obtain ⟨p, hp, ho⟩ := List.mem_flatMap.mp ho
  obtain ⟨e, he, heo⟩ := List.mem_map.mp ho
  have hcomp : p.status = .completed := by
    by_cases e : p.status = .completed
    · exact e
    · rw [active_of hp e] at g2; cases g2
  obtain ⟨qs, _, hg⟩ := k1.procs i ps (AMap.mem_of_get g1) p hp
  rw [hcomp] at hg
  obtain ⟨w, vs, hr, hd⟩ := hg
  obtain ⟨w', sets, ts, d1, dv, _, d2, d3⟩ := completed_tablets (m := c1.m) k1.wh.hist k1.io hcomp hd
  obtain ⟨j, hj⟩ := List.mem_iff_getElem?.mp he
  have hlt : j < ts.length := by rw [← d2]; exact (List.getElem?_eq_some_iff.mp hj).1
  obtain ⟨e', f1, f2, f3, f4, f5⟩ := d3 j ts[j] (by simp [hlt])
  rw [hj] at f1
  simp only [Option.some.injEq] at f1
  subst f1
  simp only [TabletState.op, TabletOp.mk.injEq, Option.some.injEq] at heo
  by_cases hv : ∃ v, sets[j]? = some (some v)
  · obtain ⟨v, hv⟩ := hv
    obtain ⟨f6, _, bytes, f7, f8, f9, f10, f11⟩ := f4 v hv
    rw [f6] at heo
    simp only [if_true, Op.update.injEq, Option.some.injEq] at heo
    rw [heo.2] at f3 f8 f9 f10 f11
    refine ⟨a, b, c1, rfl, h1, ?_, p.handler, w, vs, w', sets, k2 _ hr, d1, j, ts[j].2.query, ts[j].2.tablet.contents, v, bytes, ?_, hv, ?_, f7, f8, f9, f10, f11⟩
    · exact (MSteps.single h2).append h3
    · rw [show vs = views ts from dv, f3]; simp [hlt, views]
    · rw [← f2]; exact heo.1
  · rw [(f5 (fun v hn => hv ⟨v, hn⟩)).2] at heo
    simp at heo

/-- Nothing a handler did is left out.  When a transaction is committed, for every call of a handler for it so far: every tablet given
contents by the handler is in the commit as an update with the bytes of these contents, confirmed by the storage, and every tablet the
handler was given and left alone is in the commit as a check. -/
theorem C84_complete {env : TxnEnv α η ω} (hsane : Sane env) {cfg : List (String × UInt32)} {evs : List (MEvent η)} {c c' : Client α η ω}
    (hcfg : Configured cfg evs) {i corr : Nat} {ops : List TabletOp} (hc : MStep env c (.commit i [(corr, ops)]) c')
    {x : η} {w w' : ω} {vs : List (Query × UInt32 × Option α)} {sets : List (Option α)} (hx : CalledIn env evs c x w i vs)
    (hs : env.handle x w i vs = .ok (w', sets)) {j : Nat} {q : Query} {id : UInt32} {old : Option α} (hj : vs[j]? = some (q, id, old)) :
    (∀ v, sets[j]? = some (some v) → ∃ m bytes, ⟨q.table, some (.update (some m))⟩ ∈ ops ∧ m.tabletId = id ∧ env.data.ser v = some bytes ∧
      MStored evs c.m m.uri bytes ∧ m.hash = env.data.hash bytes ∧ m.size = UInt32.ofNat bytes.length) ∧
    ((∀ v, sets[j]? ≠ some (some v)) → ∃ version, ⟨q.table, some (.check id version)⟩ ∈ ops) := by
  obtain ⟨c0, ins, devs, R, k1, k2⟩ := called_gw hsane hcfg (x := (x, w, i, vs)) hx
  obtain ⟨_, ps, g1, g2, g3⟩ := commit_step hc
  simp only [List.cons.injEq, Prod.mk.injEq, and_true] at g3
  obtain ⟨p, hp, hd⟩ := k1.did _ k2 ps (AMap.mem_of_get g1)
  have hcomp : p.status = .completed := by
    by_cases e : p.status = .completed
    · exact e
    · rw [active_of hp e] at g2; cases g2
  obtain ⟨w2, sets2, ts, d1, dv, _, d2, d3⟩ := completed_tablets (m := c.m) k1.wh.hist k1.io hcomp hd
  rw [hs] at d1
  simp only [Run.ok.injEq, Prod.mk.injEq] at d1
  obtain ⟨rfl, rfl⟩ := d1
  have dv' : vs = views ts := dv
  rw [dv'] at hj
  unfold views at hj
  rw [List.getElem?_map, Option.map_eq_some_iff] at hj
  obtain ⟨e0, he0, hj⟩ := hj
  simp only [Prod.mk.injEq] at hj
  obtain ⟨e, f1, f2, f3, f4, f5⟩ := d3 j e0 he0
  rw [hj.1] at f2
  rw [hj.2.1] at f3
  have hmem : e.2.op ∈ ops := by
    rw [g3.2]
    exact List.mem_flatMap.mpr ⟨p, hp, List.mem_map.mpr ⟨e, List.mem_of_getElem? f1, rfl⟩⟩
  constructor
  · intro v hv
    obtain ⟨f6, _, bytes, f7, f8, f9, f10, _⟩ := f4 v hv
    refine ⟨e.2.tablet.metadata, bytes, ?_, f3, f7, f8, f9, f10⟩
    unfold TabletState.op at hmem
    rw [f6, f2] at hmem
    exact hmem
  · intro hn
    refine ⟨e.2.tablet.metadata.version, ?_⟩
    unfold TabletState.op at hmem
    rw [(f5 hn).2, f2, f3] at hmem
    exact hmem

/-- Handler 8 writes the first tablet it is given, and reads the others. -/
def exTxnF : TxnEnv Bytes Nat Unit :=
  { exTxn with handle := fun h w _ vs => .ok (w, vs.zipIdx.map fun y => if y.2 = 0 then some [UInt8.ofNat h] else none) }

/-- A transaction that is given two tablets, writes one of them and is committed, as C84_stored and C84_complete require. -/
example : ∃ evs c c', Sane exTxnF ∧ MHistory exTxnF (evs ++ [.commit 2 [(101, [⟨"t", some (.update (some ⟨10, 1, false, [], 1, [8], "10/1"⟩))⟩, ⟨"t", some (.check 20 0)⟩])]]) c' ∧
    Configured [("t", 0x40000000)] evs ∧ CalledIn exTxnF evs c 8 () 2 exSeen ∧
    MStep exTxnF c (.commit 2 [(101, [⟨"t", some (.update (some ⟨10, 1, false, [], 1, [8], "10/1"⟩))⟩, ⟨"t", some (.check 20 0)⟩])]) c' ∧
    exTxnF.handle 8 () 2 exSeen = .ok ((), [some [8], none]) := by
  have h : (match execAll exTxnF exManager ([.init [("t", 0x40000000)], .start, .process 2 [exQuery [5, 12, 14]] 8, .progress, .progress, .take,
      .input (.response 201 ⟨true, [exList [exMeta 10 "x", exMeta 20 "y"]]⟩), .progress, .take, .input (.data (.load 301 .succeeded [1])),
      .input (.data (.load 302 .succeeded [2]))]) with
    | .ok (c1, evs1) => initOnce evs1 && (match c1.m.makeProgress exTxnF with
      | .ok m => (match c1.m.makeProgress (without exTxnF 8 () 2 exSeen) with | .panic => true | .ok _ => false) &&
        match execAll exTxnF { c1 with m := m } [.take, .input (.data (.store 303 .succeeded)), .progress] with
        | .ok (c, evs2) => initOnce (evs1 ++ .progress :: evs2) && match exec exTxnF c (.commit 2) with
          | .ok (_, ev) => decide (ev = .commit 2 [(101, [⟨"t", some (.update (some ⟨10, 1, false, [], 1, [8], "10/1"⟩))⟩, ⟨"t", some (.check 20 0)⟩])])
          | .panic => false
        | .panic => false
      | .panic => false)
    | .panic => false) = true := by decide +kernel
  split at h
  · rename_i c1 evs1 he1
    rw [Bool.and_eq_true] at h
    obtain ⟨_, h⟩ := h
    split at h
    · rename_i m hm
      rw [Bool.and_eq_true] at h
      obtain ⟨hp, h⟩ := h
      split at h
      · rename_i c evs2 he2
        rw [Bool.and_eq_true] at h
        obtain ⟨hin, h⟩ := h
        split at h
        · rename_i c' ev hev
          obtain rfl := of_decide_eq_true h
          have hh1 : MHistory exTxnF evs1 c1 := ⟨_, _, _, _, execAll_sound he1⟩
          have s1 : MStep exTxnF c1 .progress { c1 with m := m } := .progress hm
          have s2 := execAll_sound he2
          have s3 := exec_sound hev
          refine ⟨evs1 ++ .progress :: evs2, c, c', ?_, ?_, initOnce_configured hin, ⟨evs1, evs2, c1, m, rfl, hh1, ⟨hm, ?_⟩, s2⟩, s3, by decide +kernel⟩
          · intro es k hk; simp [exTxnF, exTxn, exPolicy] at hk
          · obtain ⟨a1, a2, a3, a4, a5⟩ := hh1
            exact ⟨a1, a2, a3, a4, (a5.append ((MSteps.single s1).append s2)).append (MSteps.single s3)⟩
          · cases hq : c1.m.makeProgress (without exTxnF 8 () 2 exSeen) with
            | panic => rfl
            | ok _ => rw [hq] at hp; simp at hp
        · cases h
      · cases h
    · cases h
  · cases h

end TCP.Cache.Props
