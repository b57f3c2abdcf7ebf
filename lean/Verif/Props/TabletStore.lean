import Verif.Proofs.TabletStore

/-!
# C40–C45, C60, C61: the tablet store
-/

namespace TCP.TabletStore
open TCP ActorSpec Spec

/-! ## A concrete run: table "t" with tablets 10 and 20 -/

def exCtx : ActorCtx := ⟨1, 0, [2], true⟩
def exMeta (i v : UInt32) : Metadata := { Metadata.new i with version := v, uri := "blob" }
def exUpd (i v : UInt32) : TabletOp := ⟨"t", some (.update (some (exMeta i v)))⟩
def exChk (i v : UInt32) : TabletOp := ⟨"t", some (.check i v)⟩
def exLst (a b : UInt32) : TabletOp := ⟨"t", some (.list a b)⟩
def exEv (ops : List TabletOp) : ActorEvent := ⟨9, exEnv.encReq ops⟩
def exS1 : State := initTables exEnv ⟨[], 0⟩ [("t", 2)]

theorem exStarted : Started (actor exEnv) ⟨[], 0⟩ exCtx exS1 := rfl
theorem exReachable : Reachable exEnv [2] exS1 := ⟨⟨[], 0⟩, exCtx, exS1, [], rfl, rfl, exStarted, .refl⟩
theorem exS1_tables : exS1.tables = [("t", [(10, Metadata.new 10), (20, Metadata.new 20)])] := by decide

/-- The state after updating tablet 10 to version 1. -/
def exS2 : State := ⟨[("t", [(10, exMeta 10 1), (20, Metadata.new 20)])], 1⟩

theorem exApply : applyRequest exEnv exS1.tables [exUpd 10 1, exChk 20 0] =
    .ok (exS2.tables, ⟨true, [⟨"t", .succeeded, some (.update (some (Metadata.new 10)))⟩, ⟨"t", .succeeded, some (.check none)⟩]⟩) := by
  decide

theorem apply_of {env : Env} (hl : Lawful env) {s s' : State} {ops : List TabletOp} {resp : Response} (ctx : ActorCtx) (ec : ActorEventCtx) (c : Nat)
    (hd : s'.draws = s.draws) (h : applyRequest env s.tables ops = .ok (s'.tables, resp)) :
    Step (actor env) s (.apply ctx ec ⟨c, env.encReq ops⟩ (.ok ⟨if ec.owned then [⟨c, env.encOut .response, env.encResp resp⟩] else []⟩)) s' := by
  obtain ⟨t, d⟩ := s'
  simp only at hd h
  subst hd
  exact .apply (by simp only [actor, onApplyEvent, hl.req, h, Run.bind_ok])

theorem exStep2 : Step (actor exEnv) exS1 (.apply exCtx ⟨1, true⟩ (exEv [exUpd 10 1, exChk 20 0])
    (.ok ⟨[⟨9, exEnv.encOut .response, [1]⟩]⟩)) exS2 :=
  apply_of (s := exS1) (s' := exS2) exEnv_lawful exCtx ⟨1, true⟩ 9 rfl exApply

/-! ## C40 -/

/-- A decodable request is answered by one result per op, in order, each as specified on the state before the request;
it succeeds overall iff every op can be carried out; and then all its updates happened, otherwise nothing did. -/
theorem C40_atomic {env : Env} {cfg : Bytes} {s s' : State} {ctx : ActorCtx} {ec : ActorEventCtx} {ev : ActorEvent}
    {res : Except ActorErr EventOutcome} {ops : List TabletOp} (hr : Reachable env cfg s) (hd : env.decReq ev.contents = some ops)
    (h : Step (actor env) s (.apply ctx ec ev res) s') :
    ∃ resp : Response,
      res = .ok ⟨if ec.owned then [⟨ev.correlationId, env.encOut .response, env.encResp resp⟩] else []⟩ ∧
      Matched (OpAnswer (view s)) ops resp.results ∧
      (resp.succeeded = true ↔ ∀ o ∈ ops, OpSucceeds (view s) o) ∧
      view s' = if resp.succeeded then (view s).after ops else view s := by
  cases h with
  | apply h =>
    rcases apply_cases (ctx := ctx) h with ⟨hn, _⟩ | ⟨ops', resp, hd', h1, _, hres⟩
    · rw [hd] at hn; simp at hn
    · rw [hd] at hd'
      cases hd'
      exact ⟨resp, hres, apply_effect (reachable_wf hr) h1⟩

/-- An event whose contents are not a request changes nothing and is an internal error. -/
theorem C40_undecodable {env : Env} {s s' : State} {ctx : ActorCtx} {ec : ActorEventCtx} {ev : ActorEvent}
    {res : Except ActorErr EventOutcome} (hd : env.decReq ev.contents = none)
    (h : Step (actor env) s (.apply ctx ec ev res) s') : s' = s ∧ res = .error .internal := by
  cases h with
  | apply h =>
    simp only [actor, onApplyEvent, hd, Run.ok.injEq, Prod.mk.injEq] at h
    exact ⟨h.1.symm, h.2.symm⟩

/-- A two-op request succeeds; one with a failing op leaves the update undone. -/
example : (Reachable exEnv [2] exS1 ∧ exEnv.decReq (exEv [exUpd 10 1, exChk 20 0]).contents = some [exUpd 10 1, exChk 20 0] ∧
      ∃ res, Step (actor exEnv) exS1 (.apply exCtx ⟨1, true⟩ (exEv [exUpd 10 1, exChk 20 0]) res) exS2) ∧
    (∃ rs, applyRequest exEnv exS1.tables [exUpd 10 1, exChk 20 7] = .ok (exS1.tables, ⟨false, rs⟩)) :=
  ⟨⟨exReachable, exEnv_lawful.req _, _, exStep2⟩,
   [⟨"t", .succeeded, some (.update (some (Metadata.new 10)))⟩, ⟨"t", .failed, some (.check (some (Metadata.new 20)))⟩], by decide⟩

example : exEnv.decReq (⟨1, [0xff]⟩ : ActorEvent).contents = none := by decide

/-! ## C41 -/

/-- A check succeeds iff the tablet has the expected version; an update iff the tablet exists and the supplied version
is one above the current one. -/
theorem C41_ops {env : Env} {cfg : Bytes} {s s' : State} {ops : List TabletOp} {resp : Response} (hr : Reachable env cfg s)
    (h : applyRequest env s.tables ops = .ok (s'.tables, resp)) :
    Matched (fun o a =>
      (∀ n i v, Checks o n i v → (a.status = .succeeded ↔ ∃ t, at_ (view s) n i = some t ∧ t.version = v)) ∧
      (∀ n i u, Updates o n i u → (a.status = .succeeded ↔ ∃ t, at_ (view s) n i = some t ∧ u.version = t.version + 1)))
      ops resp.results := by
  refine (apply_effect (reachable_wf hr) h).1.imp ?_
  rintro o a ⟨_, h2, _⟩
  constructor
  · rintro n i v ⟨rfl, hop⟩
    rw [h2]
    unfold OpSucceeds at_
    rw [hop]
    cases view s o.table <;> simp
  · rintro n i u ⟨rfl, hop, rfl⟩
    rw [h2]
    unfold OpSucceeds at_
    rw [hop]
    cases view s o.table <;> simp

/-- One request: every tablet keeps its content, or the request succeeded, contains an update of the tablet, and the
tablet has the content of such an update with the version exactly one up. A succeeding request changes all it updates. -/
theorem C41_versions {env : Env} {cfg : Bytes} {s s' : State} {ops : List TabletOp} {resp : Response} (hr : Reachable env cfg s)
    (ho : env.overflowChecks = true) (h : applyRequest env s.tables ops = .ok (s'.tables, resp)) (n : String) (i : UInt32) :
    (at_ (view s') n i = at_ (view s) n i ∧ (resp.succeeded = true → ∀ o ∈ ops, ∀ u, ¬ Updates o n i u)) ∨
    (resp.succeeded = true ∧ ∃ t u, at_ (view s) n i = some t ∧ at_ (view s') n i = some u ∧ (∃ o ∈ ops, Updates o n i u) ∧
      u.version.toNat = t.version.toNat + 1) := apply_tablet (reachable_wf hr) ho h n i

/-- Along every history without snapshot loads tablets are neither created nor destroyed and versions never decrease. -/
theorem C41_history {env : Env} {cfg : Bytes} {s s' : State} {cs : List Call} (hr : Reachable env cfg s) (ho : env.overflowChecks = true)
    (h : Steps (actor env) s cs s') (hn : NoLoad cs) (n : String) (i : UInt32) :
    (at_ (view s) n i = none ↔ at_ (view s') n i = none) ∧
    ∀ t t', at_ (view s) n i = some t → at_ (view s') n i = some t' → t.version ≤ t'.version :=
  steps_tablet (reachable_wf hr) ho h hn n i

/-- Once a request updated a tablet to version `w`, every later request that updates the tablet to a version up to `w`
or checks a lower version fails and changes nothing: of two transactions prepared against the same version, at most one
updater succeeds, and not after the other. -/
theorem C41_conflict {env : Env} {cfg : Bytes} {s s1 s2 s3 : State} {ops1 ops2 : List TabletOp} {r1 r2 : Response} {cs : List Call}
    {n : String} {i : UInt32} {o o' : TabletOp} {u : Metadata} (hr : Reachable env cfg s) (ho : env.overflowChecks = true)
    (h1 : applyRequest env s.tables ops1 = .ok (s1.tables, r1)) (hr1 : Reachable env cfg s1) (hs1 : r1.succeeded = true)
    (hm : o ∈ ops1) (hu : Updates o n i u)
    (hs : Steps (actor env) s1 cs s2) (hn : NoLoad cs)
    (h2 : applyRequest env s2.tables ops2 = .ok (s3.tables, r2)) (hm' : o' ∈ ops2)
    (hc : (∃ u', Updates o' n i u' ∧ u'.version ≤ u.version) ∨ ∃ v, Checks o' n i v ∧ v < u.version) :
    r2.succeeded = false ∧ view s3 = view s2 := by
  have hw2 := reachable_wf (hr1.steps hs)
  obtain ⟨_, e2, e3⟩ := apply_effect hw2 h2
  have key : r2.succeeded = false := by
    cases hsucc : r2.succeeded with
    | false => rfl
    | true =>
      exfalso
      -- the version after the first request is that of `u`
      have hall1 := (apply_effect (reachable_wf hr) h1).2.1.mp hs1
      obtain ⟨t1, ht1, hv1⟩ : ∃ t1, at_ (view s1) n i = some t1 ∧ t1.version = u.version := by
        rcases apply_tablet (reachable_wf hr) ho h1 n i with ⟨_, hx⟩ | ⟨_, t, w, ht, hw, ⟨o1, hm1, hw1⟩, _⟩
        · exact absurd hu (hx hs1 o hm u)
        · refine ⟨w, hw, ?_⟩
          have a1 := hall1 o hm
          have a2 := hall1 o1 hm1
          obtain ⟨rfl, hop, rfl⟩ := hu
          obtain ⟨htab, hop1, hid⟩ := hw1
          unfold OpSucceeds at a1 a2
          rw [hop] at a1
          rw [hop1, htab] at a2
          obtain ⟨ra, hra, ta, hta, hva⟩ := a1
          obtain ⟨rb, hrb, tb, htb, hvb⟩ := a2
          rw [hra] at hrb
          cases hrb
          rw [hid, hta] at htb
          cases htb
          rw [hva, hvb]
      obtain ⟨hdom, hmono⟩ := steps_tablet (reachable_wf hr1) ho hs hn n i
      obtain ⟨t2, ht2⟩ : ∃ t2, at_ (view s2) n i = some t2 := by
        cases hx : at_ (view s2) n i with
        | some t => exact ⟨t, rfl⟩
        | none => rw [hdom.mpr hx] at ht1; simp at ht1
      have hle := hmono t1 t2 ht1 ht2
      have hso := e2.mp hsucc o' hm'
      rcases hc with ⟨u', ⟨rfl, hop, rfl⟩, hlt⟩ | ⟨v, ⟨rfl, hop⟩, hlt⟩
      · obtain ⟨rs, hp, _⟩ := applyRequest_cases h2
        unfold OpSucceeds at hso
        rw [hop] at hso
        obtain ⟨r, hr', t, ht, hv⟩ := hso
        simp [at_, hr', ht] at ht2
        subst ht2
        cases hg : s2.tables.get o'.table with
        | none => rw [view_none.mpr hg] at hr'; simp at hr'
        | some m =>
          rw [view_some hg] at hr'
          simp at hr'
          subst hr'
          have := toNat_succ (prepared_lt ho hp hm' ⟨rfl, hop, rfl⟩ hg ht)
          rw [hv, ← hv1] at hlt
          simp only [UInt32.le_iff_toNat_le] at hle hlt
          omega
      · unfold OpSucceeds at hso
        rw [hop] at hso
        obtain ⟨r, hr', t, ht, hv⟩ := hso
        simp [at_, hr', ht] at ht2
        subst ht2
        rw [← hv1, ← hv] at hlt
        simp only [UInt32.le_iff_toNat_le, UInt32.lt_iff_toNat_lt] at hle hlt
        omega
  exact ⟨key, by rw [e3, key]; rfl⟩

/-- Two transactions prepared against version 0 of tablet 10. -/
example : Reachable exEnv [2] exS1 ∧ Reachable exEnv [2] exS2 ∧ exEnv.overflowChecks = true ∧
    applyRequest exEnv exS1.tables [exUpd 10 1, exChk 20 0] = .ok (exS2.tables,
      ⟨true, [⟨"t", .succeeded, some (.update (some (Metadata.new 10)))⟩, ⟨"t", .succeeded, some (.check none)⟩]⟩) ∧
    Updates (exUpd 10 1) "t" 10 (exMeta 10 1) ∧ Steps (actor exEnv) exS2 [] exS2 ∧ NoLoad [] ∧
    applyRequest exEnv exS2.tables [exUpd 10 1] = .ok (exS2.tables,
      ⟨false, [⟨"t", .failed, some (.update (some (exMeta 10 1)))⟩]⟩) :=
  ⟨exReachable, exReachable.step exStep2, rfl, exApply, ⟨rfl, rfl, rfl⟩, .refl, by simp [NoLoad], by decide⟩

/-- In builds without overflow checks the version of a tablet can decrease: at the largest version the next one is 0. -/
theorem C41_unchecked_fails : ∃ (s s' : State) (resp : Response) (t t' : Metadata),
    applyRequest { exEnv with overflowChecks := false } s.tables [exUpd 10 0] = .ok (s'.tables, resp) ∧ resp.succeeded = true ∧
    at_ (view s) "t" 10 = some t ∧ at_ (view s') "t" 10 = some t' ∧ t'.version < t.version :=
  ⟨⟨[("t", [(10, exMeta 10 0xffffffff)])], 1⟩, ⟨[("t", [(10, exMeta 10 0)])], 1⟩,
   ⟨true, [⟨"t", .succeeded, some (.update (some (exMeta 10 0xffffffff)))⟩]⟩, exMeta 10 0xffffffff, exMeta 10 0,
   by decide, rfl, by decide, by decide, by decide⟩

/-! ## C42 -/

/-- A transaction with two updates of one tablet succeeds, the first update is lost, and the version went up by one only —
whereas after the first update alone the second one fails. -/
theorem C42_duplicate_fails : ∃ (s1 s2 : State) (a b : Metadata) (rs1 rs2 : List TabletOpResult),
    a ≠ b ∧
    applyRequest exEnv exS1.tables [⟨"t", some (.update (some a))⟩, ⟨"t", some (.update (some b))⟩] = .ok (s1.tables, ⟨true, rs1⟩) ∧
    rs1.length = 2 ∧ at_ (view s1) "t" 10 = some b ∧ b.version = 1 ∧ at_ (view exS1) "t" 10 = some (Metadata.new 10) ∧
    applyRequest exEnv exS1.tables [⟨"t", some (.update (some a))⟩] =
      .ok (s2.tables, ⟨true, [⟨"t", .succeeded, some (.update (some (Metadata.new 10)))⟩]⟩) ∧
    applyRequest exEnv s2.tables [⟨"t", some (.update (some b))⟩] = .ok (s2.tables, ⟨false, rs2⟩) :=
  ⟨⟨[("t", [(10, { exMeta 10 1 with uri := "other" }), (20, Metadata.new 20)])], 1⟩, exS2, exMeta 10 1,
   { exMeta 10 1 with uri := "other" },
   [⟨"t", .succeeded, some (.update (some (Metadata.new 10)))⟩, ⟨"t", .succeeded, some (.update (some (Metadata.new 10)))⟩],
   [⟨"t", .failed, some (.update (some (exMeta 10 1)))⟩],
   by decide, by decide, rfl, by decide, by decide, by decide, by decide, by decide⟩

theorem singles {env : Env} (hl : Lawful env) {ops : List TabletOp} (hd : Disjoint ops) :
    ∀ {s : State}, WFTables s.tables → (∀ o ∈ ops, OpSucceeds (view s) o) →
    (env.overflowChecks = true → ∀ o ∈ ops, ∀ n i u, Updates o n i u → u.version ≠ 0) →
    ∃ cs s', Steps (actor env) s cs s' ∧
      Matched (fun o c => ∃ r, c = .apply exCtx ⟨0, true⟩ ⟨0, env.encReq [o]⟩
        (.ok ⟨[⟨0, env.encOut .response, env.encResp ⟨true, [r]⟩⟩]⟩)) ops cs ∧
      view s' = (view s).after ops := by
  induction ops with
  | nil =>
    intro s _ _ _
    refine ⟨[], s, .refl, .nil, ?_⟩
    apply store_ext
    intro n i
    simp [Store.after, lastUpdate]
  | cons o ops ih =>
    intro s hw hs hv
    obtain ⟨t, r, h1⟩ := single_ok (env := env) (hs o (by simp)) (fun ho => hv ho o (by simp))
    have h2 := apply_effect (s' := ⟨t, s.draws⟩) hw h1
    have hv2 : view ⟨t, s.draws⟩ = (view s).after [o] := by rw [h2.2.2]; rfl
    have hstep := apply_of hl (s := s) (s' := ⟨t, s.draws⟩) exCtx ⟨0, true⟩ 0 rfl h1
    obtain ⟨hd1, hd2⟩ := List.pairwise_cons.mp hd
    obtain ⟨cs, s', hsteps, hm, hv'⟩ := ih hd2 (s := ⟨t, s.draws⟩) (wf_step hw hstep)
      (fun o' ho' => by rw [hv2]; exact succeeds_after (hs o' (by simp [ho'])) (hd1 o' ho'))
      (fun ho o' ho' => hv ho o' (by simp [ho']))
    exact ⟨_, s', .step hstep hsteps, .cons ⟨r, rfl⟩ hm, by rw [hv', hv2, after_cons]⟩

/-- If no op of a transaction comes after an update of the tablet it updates or checks, a succeeding transaction has the
effect of executing its ops one after another, as requests of their own that all succeed.
Missing: transactions that update a tablet twice (`C42_duplicate_fails`) or check a tablet after updating it. -/
theorem C42_distinct_partial {env : Env} (hl : Lawful env) {cfg : Bytes} {s s' : State} {ops : List TabletOp} {rs : List TabletOpResult}
    (hr : Reachable env cfg s) (hd : Disjoint ops) (h : applyRequest env s.tables ops = .ok (s'.tables, ⟨true, rs⟩)) :
    ∃ cs s'', Steps (actor env) s cs s'' ∧
      Matched (fun o c => ∃ r, c = .apply exCtx ⟨0, true⟩ ⟨0, env.encReq [o]⟩
        (.ok ⟨[⟨0, env.encOut .response, env.encResp ⟨true, [r]⟩⟩]⟩)) ops cs ∧
      view s'' = view s' := by
  have hw := reachable_wf hr
  obtain ⟨_, h2, h3⟩ := apply_effect hw h
  have hall := h2.mp rfl
  obtain ⟨cs, s'', a, b, c⟩ := singles hl hd hw hall (by
    rintro ho o hm n i u ⟨rfl, hop, rfl⟩
    have hso := hall o hm
    unfold OpSucceeds at hso
    rw [hop] at hso
    obtain ⟨r, hr', t, ht, hv⟩ := hso
    obtain ⟨rs, hp, _⟩ := applyRequest_cases h
    cases hg : s.tables.get o.table with
    | none => rw [view_none.mpr hg] at hr'; simp at hr'
    | some m =>
      rw [view_some hg] at hr'
      simp at hr'
      subst hr'
      have := toNat_succ (prepared_lt ho hp hm ⟨rfl, hop, rfl⟩ hg ht)
      rw [hv]
      intro he
      rw [he] at this
      simp at this)
  exact ⟨cs, s'', a, b, by rw [c, h3]; rfl⟩

example : Reachable exEnv [2] exS1 ∧ Disjoint [exUpd 10 1, exChk 20 0] ∧ Disjoint [exChk 10 0, exUpd 10 1] ∧
    ∃ rs, applyRequest exEnv exS1.tables [exUpd 10 1, exChk 20 0] = .ok (exS2.tables, ⟨true, rs⟩) := by
  refine ⟨exReachable, ?_, ?_, _, exApply⟩
  · unfold Disjoint
    rw [List.pairwise_cons]
    refine ⟨?_, by simp⟩
    rintro a ha n i u ⟨_, hu, rfl⟩
    simp at ha
    subst ha
    refine ⟨by rintro u' ⟨_, h, _⟩; simp [exChk] at h, ?_⟩
    rintro v ⟨_, h⟩
    simp [exUpd] at hu
    simp [exChk] at h
    rw [← hu] at h
    exact absurd h.1 (by decide)
  · unfold Disjoint
    rw [List.pairwise_cons]
    refine ⟨?_, by simp⟩
    rintro a ha n i u ⟨_, hu, rfl⟩
    simp [exChk] at hu

/-! ## C43 -/

/-- Listing from `x` to `y` returns, without duplicates, exactly the tablets that own some hash met going clockwise from `x`
up to and including `y`; this includes all owners of the documented range (which excludes `y`), and is not empty
unless the table is. Missing: the documented range itself (`C43_exclusive_fails`). -/
theorem C43_closed_partial {env : Env} {cfg : Bytes} {s : State} (hr : Reachable env cfg s) {n : String} {x y : UInt32}
    {a : TabletOpResult} {r : Ring} (hv : view s n = some r) (h : prepare env s.tables ⟨n, some (.list x y)⟩ = .ok a) :
    ∃ ts, a = ⟨n, .succeeded, some (.list x y ts)⟩ ∧ (ts.map Metadata.tabletId).Nodup ∧
      (∀ t, t ∈ ts ↔ ∃ k, InClosed x y k ∧ Owns r t k) ∧
      (∀ t k, InDocumented x y k → Owns r t k → t ∈ ts) ∧
      ((∃ i, r i ≠ none) → ts ≠ []) := by
  have hw := reachable_wf hr
  cases hg : s.tables.get n with
  | none => rw [view_none.mpr hg] at hv; simp at hv
  | some m =>
    rw [view_some hg] at hv
    simp at hv
    subst hv
    simp [prepare, hg, prepareOp] at h
    subst h
    obtain ⟨h1, h2⟩ := findTablets_spec (hw.2 n m hg) x y
    have hcl : ∀ k, InDocumented x y k → InClosed x y k := by
      intro k hk
      unfold InDocumented at hk
      unfold InClosed
      split at hk
      · rename_i hxy
        simp only [UInt32.le_iff_toNat_le, UInt32.lt_iff_toNat_lt] at hk hxy ⊢
        split <;> omega
      · rename_i hxy
        simp only [UInt32.le_iff_toNat_le, UInt32.lt_iff_toNat_lt] at hk hxy ⊢
        split <;> omega
    refine ⟨_, rfl, h1, h2, fun t k hk ho => (h2 t).mpr ⟨k, hcl k hk, ho⟩, ?_⟩
    rintro ⟨i, hi⟩
    obtain ⟨t, ht⟩ := owner_exists (hw.2 n m hg) hi x
    have : t ∈ findTablets m x y := (h2 t).mpr ⟨x, by
      unfold InClosed
      split
      · rename_i hxy
        simp only [UInt32.le_iff_toNat_le, UInt32.lt_iff_toNat_lt] at hxy ⊢; omega
      · left; simp, ht⟩
    exact List.ne_nil_of_mem this

/-- Listing from 0 to 10, where 10 is documented as excluded, of tablets 9 and 20 returns tablet 20 too, although it owns no
hash below 10. -/
theorem C43_exclusive_fails : ∃ (s : State) (r : Ring) (a : TabletOpResult) (ts : List Metadata) (t : Metadata), view s "t" = some r ∧
    prepare exEnv s.tables (exLst 0 10) = .ok a ∧ a.result = some (.list 0 10 ts) ∧ t ∈ ts ∧
    ∀ k, InDocumented 0 10 k → ¬ Owns r t k := by
  refine ⟨⟨[("t", [(9, Metadata.new 9), (20, Metadata.new 20)])], 1⟩,
    fun i => SMap.get [(9, Metadata.new 9), (20, Metadata.new 20)] i,
    ⟨"t", .succeeded, some (.list 0 10 [Metadata.new 9, Metadata.new 20])⟩, [Metadata.new 9, Metadata.new 20], Metadata.new 20,
    rfl, by decide, rfl, by simp, ?_⟩
  intro k hk ho
  simp only [InDocumented] at hk
  rw [if_pos (by decide)] at hk
  obtain ⟨_, h | h⟩ := ho
  · have := h.2 9 (by decide) (by
      have := hk.2
      rw [UInt32.lt_iff_toNat_lt] at this
      rw [UInt32.le_iff_toNat_le]
      have e1 : (10 : UInt32).toNat = 10 := rfl
      have e2 : (9 : UInt32).toNat = 9 := rfl
      omega)
    exact absurd this (by decide)
  · exact absurd (h.2 9 (by decide)) (by decide)

/-- A wrap-around listing. -/
example : Reachable exEnv [2] exS1 ∧ (∃ r, view exS1 "t" = some r ∧ r 10 ≠ none) ∧
    prepare exEnv exS1.tables (exLst 15 5) = .ok ⟨"t", .succeeded, some (.list 15 5 [Metadata.new 20, Metadata.new 10])⟩ :=
  ⟨exReachable, ⟨_, rfl, by decide⟩, by decide⟩

/-! ## C44 -/

/-- Loading the snapshot of a store with the same tables gives exactly the saver's tablets. -/
theorem C44_restore {env : Env} (hl : Lawful env) {cfg : Bytes} {s s' t t' : State} {ctx ctx' : ActorCtx} {b : Bytes}
    {res : Except ActorErr Unit} (hs : Reachable env cfg s) (ht : Reachable env cfg t)
    (hsave : Step (actor env) s (.save ctx (.ok b)) s') (hload : Step (actor env) t (.load ctx' b res) t') :
    res = .ok () ∧ view t' = view s ∧ s' = s := by
  cases hsave with
  | save h1 =>
    cases hload with
    | load h2 =>
      simp [actor, onSaveSnapshot] at h1
      rw [← h1.2] at h2
      obtain ⟨a, b⟩ := restore (ctx := ctx') (reachable_wf hs) hl (fun n => reachable_names hs ht n) h2
      exact ⟨a, view_of_get b, h1.1.symm⟩

/-- Saving and loading return (they do not panic). -/
theorem C44_total {env : Env} (s : State) (ctx : ActorCtx) (b : Bytes) :
    (∃ x, Step (actor env) s (.save ctx (.ok x)) s) ∧ ∃ t' res, Step (actor env) s (.load ctx b res) t' := by
  refine ⟨⟨_, .save rfl⟩, ?_⟩
  cases hd : env.decSnap b with
  | none => exact ⟨s, .error .snapshotLoading, .load (by simp [actor, onLoadSnapshot, hd])⟩
  | some l => exact ⟨_, _, .load (by simp only [actor, onLoadSnapshot, hd]; rfl)⟩

/-- A snapshot naming a table the store does not have is refused. -/
theorem C44_unknown_table {env : Env} {t t' : State} {ctx : ActorCtx} {b : Bytes} {res : Except ActorErr Unit}
    {l : List (String × List Metadata)} {e : String × List Metadata} (hd : env.decSnap b = some l) (he : e ∈ l) (hn : view t e.1 = none)
    (h : Step (actor env) t (.load ctx b res) t') : res = .error .snapshotLoading := by
  cases h with
  | load h =>
    simp only [actor, onLoadSnapshot, hd, Run.ok.injEq, Prod.mk.injEq] at h
    rw [← h.2]
    exact loadTables_err he (view_none.mp hn)

/-- A refused snapshot may have been loaded in part: tables before the unknown one are already replaced. -/
theorem C44_refused_may_change : ∃ (t' : State) (ctx : ActorCtx) (b : Bytes),
    Step (actor exEnv) exS1 (.load ctx b (.error .snapshotLoading)) t' ∧ view t' ≠ view exS1 := by
  refine ⟨⟨[("t", [])], 1⟩, exCtx, exEnv.encSnap [("t", []), ("u", [])], .load ?_, ?_⟩
  · simp only [actor, onLoadSnapshot, exEnv_lawful.snap]
    rw [exS1_tables]
    rfl
  · intro h
    have := congrArg (fun st => at_ st "t" 10) h
    revert this
    decide

/-- A used store saves, a store with other random tablets (the ids differ) loads. -/
example : Lawful exEnv ∧ Reachable exEnv [2] exS2 ∧ (∃ t, Reachable exEnv [2] t ∧ view t ≠ view exS1) ∧
    exEnv.decSnap (exEnv.encSnap [("u", [])]) = some [("u", [])] ∧ view exS1 "u" = none := by
  refine ⟨exEnv_lawful, exReachable.step exStep2, ⟨initTables exEnv ⟨[], 5⟩ [("t", 2)], ⟨⟨[], 5⟩, exCtx, _, [], rfl, rfl, rfl, .refl⟩, ?_⟩,
    exEnv_lawful.snap _, by rw [view_none, exS1_tables]; rfl⟩
  intro h
  have := congrArg (fun st => at_ st "t" 10) h
  revert this
  decide

/-! ## C45 -/

/-- A decodable request that adds (or removes) a tablet crashes every replica that applies it. -/
theorem C45_add_fails : ∃ ops, exEnv.decReq (exEv ops).contents = some ops ∧
    (∃ e, onProcessCommand exEnv exCtx exS1 (some ⟨9, [1], exEnv.encReq ops⟩) = .ok (exS1, .ok ⟨[], some e⟩) ∧ e = exEv ops) ∧
    ∀ ctx ec, (actor exEnv).onApplyEvent ctx exS1 ec (exEv ops) = .panic := by
  refine ⟨[⟨"t", some (.add (some (exMeta 30 0)))⟩], exEnv_lawful.req _, ⟨_, ?_, rfl⟩, fun ctx ec => ?_⟩
  · simp only [onProcessCommand, exCtx, exEnv_lawful.req]
    rfl
  · simp only [actor, onApplyEvent, exEv, exEnv_lawful.req]
    have : applyRequest exEnv exS1.tables [⟨"t", some (.add (some (exMeta 30 0)))⟩] = .panic := by decide
    rw [this]; rfl

/-- Requests without additions and removals on existing tables, and, with overflow checks, without updates of tablets at
the largest version, are applied without a panic. Missing: the requests excluded, which do panic (`C45_add_fails`). -/
theorem C45_safe_ops_partial {env : Env} {cfg : Bytes} {s : State} (hr : Reachable env cfg s) {ops : List TabletOp}
    (hadd : ∀ o ∈ ops, view s o.table ≠ none → (∀ u, o.op ≠ some (.add u)) ∧ ∀ i v, o.op ≠ some (.remove i v))
    (hmax : env.overflowChecks = true → ∀ o ∈ ops, ∀ n i u t, Updates o n i u → at_ (view s) n i = some t → t.version ≠ 0xffffffff) :
    ∃ t resp, applyRequest env s.tables ops = .ok (t, resp) := by
  obtain ⟨rs, hp⟩ := prepareAll_ok (env := env) (s := s) hadd hmax
  have hm := prepareAll_answers (reachable_wf hr) hp
  unfold applyRequest
  rw [hp, Run.bind_ok]
  split
  · rename_i hall
    obtain ⟨t, ht⟩ := commitAll_ok (s := s) ((all_succeed hm).mp (by simpa using hall))
    exact ⟨t, ⟨true, rs⟩, by rw [ht]; rfl⟩
  · exact ⟨_, _, rfl⟩

/-- The same with the request as an event, for every event (undecodable ones are answered by an error). -/
theorem C45_event_partial {env : Env} {cfg : Bytes} {s : State} (hr : Reachable env cfg s) (ctx : ActorCtx) (ec : ActorEventCtx)
    (ev : ActorEvent)
    (hadd : ∀ ops, env.decReq ev.contents = some ops → ∀ o ∈ ops, view s o.table ≠ none →
      (∀ u, o.op ≠ some (.add u)) ∧ ∀ i v, o.op ≠ some (.remove i v))
    (hmax : ∀ ops, env.decReq ev.contents = some ops → env.overflowChecks = true →
      ∀ o ∈ ops, ∀ n i u t, Updates o n i u → at_ (view s) n i = some t → t.version ≠ 0xffffffff) :
    ∃ s' res, (actor env).onApplyEvent ctx s ec ev = .ok (s', res) := by
  simp only [actor, onApplyEvent]
  cases hd : env.decReq ev.contents with
  | none => exact ⟨_, _, rfl⟩
  | some ops =>
    obtain ⟨t, resp, h⟩ := C45_safe_ops_partial hr (hadd ops hd) (hmax ops hd)
    simp only [h, Run.bind_ok]
    exact ⟨_, _, rfl⟩

example : Reachable exEnv [2] exS1 ∧
    (∀ o ∈ [exUpd 10 1, exUpd 10 7, exChk 99 0, ⟨"nope", some (.add none)⟩, ⟨"t", none⟩, ⟨"t", some (.update none)⟩], view exS1 o.table ≠ none →
      (∀ u, o.op ≠ some (.add u)) ∧ ∀ i v, o.op ≠ some (.remove i v)) := by
  refine ⟨exReachable, ?_⟩
  have hno : view exS1 "nope" = none := by rw [view_none, exS1_tables]; rfl
  intro o ho
  simp only [List.mem_cons, List.not_mem_nil, or_false] at ho
  rcases ho with rfl | rfl | rfl | rfl | rfl | rfl <;> simp [exUpd, exChk, hno]

/-! ## C60 -/

/-- Commands never change the store. Only a leader proposes, and what it proposes is the request itself, which decodes;
a non-leader answers Rejected, and a leader answers InvalidOperation to anything that is not a well-formed request. -/
theorem C60_decisions {env : Env} {s s' : State} {ctx : ActorCtx} {c : ActorCommand} {res : Except ActorErr CommandOutcome}
    (h : Step (actor env) s (.command ctx (some c) res) s') :
    s' = s ∧
    (ctx.leader = false → res = .ok ⟨[.withHeader c.correlationId (env.encOut (.error .rejected))], none⟩) ∧
    (ctx.leader = true → env.decIn c.header = some true → (env.decReq c.payload).isSome →
      res = .ok ⟨[], some ⟨c.correlationId, c.payload⟩⟩) ∧
    (ctx.leader = true → (env.decIn c.header ≠ some true ∨ env.decReq c.payload = none) →
      res = .ok ⟨[.withHeader c.correlationId (env.encOut (.error .invalidOperation))], none⟩) := by
  cases h with
  | command h =>
    refine ⟨command_state (env := env) (ctx := ctx) (c := some c) (res := res) h, ?_⟩
    simp only [actor, onProcessCommand] at h
    cases hlead : ctx.leader with
    | false =>
      rw [hlead] at h
      simp at h
      exact ⟨fun _ => h.2.symm, by simp, by simp⟩
    | true =>
      rw [hlead] at h
      simp only [Bool.true_eq_false, if_false] at h
      refine ⟨by simp, ?_, ?_⟩
      · intro _ h1 h2
        rw [h1] at h
        cases hd : env.decReq c.payload with
        | none => rw [hd] at h2; simp at h2
        | some ops => rw [hd] at h; simp at h; exact h.2.symm
      · rintro _ (h1 | h1)
        · split at h
          · rename_i hx; exact absurd hx h1
          · simp at h; exact h.2.symm
        · rw [h1] at h
          split at h <;> simp at h <;> exact h.2.symm

/-- Every proposed event is a request that decodes, so applying it never ends in the internal error. -/
theorem C60_proposals_decode {env : Env} {s s' : State} {ctx : ActorCtx} {c : Option ActorCommand} {cs : List ActorCommand} {e : ActorEvent}
    (h : Step (actor env) s (.command ctx c (.ok ⟨cs, some e⟩)) s') : ctx.leader = true ∧ cs = [] ∧
      ∃ cmd ops, c = some cmd ∧ e = ⟨cmd.correlationId, cmd.payload⟩ ∧ env.decReq e.contents = some ops := by
  cases c with
  | none =>
    cases h with
    | command h => simp [actor, onProcessCommand] at h
  | some c =>
    obtain ⟨_, h1, h2, h3⟩ := C60_decisions h
    cases hl : ctx.leader with
    | false => have := h1 hl; simp at this
    | true =>
      by_cases hh : env.decIn c.header = some true ∧ (env.decReq c.payload).isSome = true
      · have := h2 hl hh.1 hh.2
        simp at this
        obtain ⟨rfl, rfl⟩ := this
        obtain ⟨ops, ho⟩ := Option.isSome_iff_exists.mp hh.2
        exact ⟨rfl, rfl, c, ops, rfl, rfl, ho⟩
      · have hh' : env.decIn c.header ≠ some true ∨ env.decReq c.payload = none := by
          by_cases hx : env.decIn c.header = some true
          · right
            cases hd : env.decReq c.payload with
            | none => rfl
            | some o => exact absurd ⟨hx, by simp [hd]⟩ hh
          · exact Or.inl hx
        have := h3 hl hh'
        simp at this

example : Step (actor exEnv) exS1 (.command exCtx (some ⟨9, [1], exEnv.encReq [exUpd 10 1]⟩)
    (.ok ⟨[], some ⟨9, exEnv.encReq [exUpd 10 1]⟩⟩)) exS1 :=
  .command (by simp only [actor, onProcessCommand, exEnv_lawful.req]; rfl)

/-! ## C61 -/

/-- In a cluster where one replica bootstraps and the others join by a snapshot, the contents of every replica are a function of
the events it reflects. -/
theorem C61_converge {env : Env} (hl : Lawful env) {cfg : Bytes} {b s : State} {evs : List ActorEvent} (h : Member env cfg b evs s) :
    view s = evs.foldl (Store.next env) (view b) := member_view hl h

/-- Two replicas of such a cluster that reflect the same events answer the next event identically. -/
theorem C61_answers {env : Env} (hl : Lawful env) {cfg : Bytes} {b s t : State} {evs : List ActorEvent} (hs : Member env cfg b evs s)
    (ht : Member env cfg b evs t) (ctx ctx' : ActorCtx) (ec : ActorEventCtx) (ev : ActorEvent) :
    ((actor env).onApplyEvent ctx s ec ev = .panic ∧ (actor env).onApplyEvent ctx' t ec ev = .panic) ∨
    ∃ s' t' res, Step (actor env) s (.apply ctx ec ev res) s' ∧ Step (actor env) t (.apply ctx' ec ev res) t' ∧ view s' = view t' := by
  have hv : view s = view t := by rw [member_view hl hs, member_view hl ht]
  have hg := get_of_view (reachable_wf (member_reachable hs)) (reachable_wf (member_reachable ht)) hv
  rcases apply_congr hg ctx ctx' ec ev with h | ⟨s', t', res, h1, h2⟩
  · exact Or.inl h
  · refine Or.inr ⟨s', t', res, .apply h1, .apply h2, ?_⟩
    rw [member_view hl (.apply (ctx := ctx) hs (.apply h1)), member_view hl (.apply (ctx := ctx') ht (.apply h2))]

/-- A replica that joined from a snapshot, having drawn other tablets before. -/
example : ∃ t, Member exEnv [2] exS1 [exEv [exUpd 10 1, exChk 20 0]] exS2 ∧ Member exEnv [2] exS1 [exEv [exUpd 10 1, exChk 20 0]] t ∧
    t ≠ exS2 := by
  have h2 : Member exEnv [2] exS1 ([] ++ [exEv [exUpd 10 1, exChk 20 0]]) exS2 := .apply (.boot (s0 := ⟨[], 0⟩) rfl rfl exStarted) exStep2
  refine ⟨⟨exS2.tables, 6⟩, h2, ?_, by decide⟩
  refine .load (s := initTables exEnv ⟨[], 5⟩ [("t", 2)]) (ctx := exCtx) (ctx1 := exCtx)
    ⟨⟨[], 5⟩, exCtx, _, [], rfl, rfl, rfl, .refl⟩ h2 (.save rfl) (.load ?_)
  simp only [actor, onLoadSnapshot, exEnv_lawful.snap]
  have : loadTables (initTables exEnv ⟨[], 5⟩ [("t", 2)]).tables (exS2.tables.map fun e => (e.1, saveTable e.2)) = (exS2.tables, .ok ()) := by
    have hg : Good [(10, exMeta 10 1), (20, Metadata.new 20)] := (reachable_wf (exReachable.step exStep2)).2 "t" _ rfl
    show loadTables [("t", [(15, Metadata.new 15), (25, Metadata.new 25)])] [("t", saveTable [(10, exMeta 10 1), (20, Metadata.new 20)])] = _
    simp only [loadTables]
    rw [load_save hg]
    rfl
  rw [this]
  rfl

/-- Without the snapshot replicas started with the same configuration differ from the start: the tablets are drawn at random. -/
theorem C61_without_snapshot_differ : ∃ (ctx : ActorCtx) (s0 t0 s t : State), s0.tables = [] ∧ t0.tables = [] ∧
    Started (actor exEnv) s0 ctx s ∧ Started (actor exEnv) t0 ctx t ∧ view s ≠ view t := by
  refine ⟨exCtx, ⟨[], 0⟩, ⟨[], 5⟩, _, _, rfl, rfl, rfl, rfl, ?_⟩
  intro h
  have := congrArg (fun st => at_ st "t" 10) h
  revert this
  decide

end TCP.TabletStore
