import Verif.Proofs.CacheSerial
import Verif.Props.CacheTxn

/-!
# C85: committed transactions take effect atomically at their place in the log of the tablet store

Histories of the manager are those of C49 – C63 and C83; the log is that of the tablet store (`Spec.Log`), whose requests may come from any
number of managers and other clients.
-/

namespace TCP.Cache.Props
open TCP TCP.TabletStore TCP.Cache.Spec

variable {α η ω : Type} [DecidableEq α] [DecidableEq η] [DecidableEq ω]

/-- A commit that is reported as succeeded was answered after it was made by the store, which carried it out successfully. -/
theorem answered_after {env : TxnEnv α η ω} {evs : List (MEvent η)} {c : Client α η ω} {i : Nat} (h : MHistory env evs c) (hok : .check i (some .succeeded) ∈ evs)
    {senv : TabletStore.Env} {s0 : State} (hw : WFTables s0.tables) {log : List (List TabletOp × Response)} {t : Tables} (hlog : Log senv s0.tables log t) (hf : FromLog evs log) (hk : TablesKnown evs s0.tables) :
    ∃ corr ops a b, evs = a ++ .commit i [(corr, ops)] :: b ∧ (ops ≠ [] → ∃ r, .input (.response corr r) ∈ b ∧ (ops, r) ∈ log ∧ r.succeeded = true) := by
  obtain ⟨corr', ops', a', b', h1, h2⟩ := C53_confirmed_partial h (i := i) hok
  have hmem : .commit i [(corr', ops')] ∈ evs := by rw [h1]; simp
  refine ⟨corr', ops', a', b', h1, fun hne => ?_⟩
  have hin : ∀ r, .input (.response corr' r) ∈ b' → .input (.response corr' r) ∈ evs := fun r hr => by rw [h1]; simp [hr]
  have hansw : ∀ r, .input (.response corr' r) ∈ b' → ∃ pre post before after, log = pre ++ (ops', r) :: post ∧ Log senv s0.tables pre before ∧
      applyRequest senv before ops' = .ok (after, r) := by
    intro r hr
    obtain ⟨pre, post, t1, t2, e1, e2, e3, _⟩ := moment_of_mem hlog (hf.commits i corr' ops' r hmem (hin r hr))
    exact ⟨pre, post, t1, t2, e1, e2, e3⟩
  obtain ⟨r, h3, h4⟩ := h2 (fun r hr => by
    obtain ⟨pre, post, t1, t2, e1, e2, e3⟩ := hansw r hr
    obtain ⟨k1, k2, _⟩ := commit_answers h hw hk hmem e2 e3
    rw [k1, k2]) hne
  obtain ⟨pre, post, before, after, e1, e2, e3⟩ := hansw r h3
  obtain ⟨k1, k2, _, k4, k5⟩ := commit_answers h hw hk hmem e2 e3
  refine ⟨r, h3, by rw [e1]; simp, ?_⟩
  rw [k4]
  intro x hx
  obtain ⟨n, hn⟩ := List.mem_iff_getElem?.mp hx
  have hlt : n < ops'.length := by rw [← k2]; exact (List.getElem?_eq_some_iff.mp hn).1
  obtain ⟨y, hy, hy2, _⟩ := h4 n ops'[n] (by simp [hlt])
  rw [k1, hn] at hy
  cases hy; exact hy2

/-- A commit that is reported as succeeded was answered by the store, which carried it out successfully. -/
theorem C85_answered {env : TxnEnv α η ω} {evs : List (MEvent η)} {c : Client α η ω} {i : Nat} (h : MHistory env evs c) (hok : .check i (some .succeeded) ∈ evs)
    {senv : TabletStore.Env} {s0 : State} (hw : WFTables s0.tables) {log : List (List TabletOp × Response)} {t : Tables} (hlog : Log senv s0.tables log t) (hf : FromLog evs log) (hk : TablesKnown evs s0.tables) :
    ∃ corr ops, .commit i [(corr, ops)] ∈ evs ∧ (ops ≠ [] → ∃ r, .input (.response corr r) ∈ evs ∧ (ops, r) ∈ log ∧ r.succeeded = true) := by
  obtain ⟨corr, ops, a, b, rfl, h1⟩ := answered_after h hok hw hlog hf hk
  exact ⟨corr, ops, by simp, fun hne => (h1 hne).imp fun r hr => ⟨by simp [hr.1], hr.2⟩⟩

/-- Wherever the request of a commit is in the log with success, it is as if the handlers of the transaction had run there: see `C85_serial_partial`. -/
theorem C85_every_partial {env : TxnEnv α η ω} (hsane : Sane env) {cfg : List (String × UInt32)} {a b : List (MEvent η)} {c1 c : Client α η ω}
    {i corr : Nat} {ops : List TabletOp} (ha : MHistory env a c1) (hcfg : Configured cfg a) (hb : MSteps env c1 (.commit i [(corr, ops)] :: b) c)
    {senv : TabletStore.Env} (ho : senv.overflowChecks = true) {scfg : Bytes} {s0 : State} (hs0 : TabletStore.Spec.Reachable senv scfg s0)
    {log : List (List TabletOp × Response)} {t : Tables} (hlog : Log senv s0.tables log t) (hf : FromLog (a ++ .commit i [(corr, ops)] :: b) log)
    (hk : TablesKnown (a ++ .commit i [(corr, ops)] :: b) s0.tables) (hd : AllRejected (a ++ .commit i [(corr, ops)] :: b))
    (hu : UpdatedOnce (a ++ .commit i [(corr, ops)] :: b)) (hn : AnswersDiffer cfg a c1.m.world.md) (hdiff : UrisDiffer env.data c1.m.world.md) {pre post : List (List TabletOp × Response)} {r : Response} {before after : Tables}
    (e1 : log = pre ++ (ops, r) :: post) (e2 : Log senv s0.tables pre before) (e3 : applyRequest senv before ops = .ok (after, r)) (hs : r.succeeded = true) :
      ∀ x w vs w' sets, CalledIn env a c1 x w i vs → env.handle x w i vs = .ok (w', sets) →
        ∀ (j : Nat) (q : Query) (id : UInt32) (old : Option α), vs[j]? = some (q, id, old) →
          ∃ m, stored before q.table id = some m ∧ (∀ v, old = some v → MCame env a c1.m m.uri v) ∧
            ∀ v, sets[j]? = some (some v) → ∃ m' bytes, stored after q.table id = some m' ∧ env.data.ser v = some bytes ∧
              MStored a c1.m m'.uri bytes ∧ m'.hash = env.data.hash bytes ∧ m'.size = UInt32.ofNat bytes.length := by
  have hw := reachable_wf hs0
  have h : MHistory env (a ++ .commit i [(corr, ops)] :: b) c := by
    obtain ⟨x1, x2, x3, x4, x5⟩ := ha
    exact ⟨x1, x2, x3, x4, x5.append hb⟩
  have hmem : .commit i [(corr, ops)] ∈ a ++ .commit i [(corr, ops)] :: b := by simp
  have e4 : Moment senv s0.tables log before := ⟨pre, _, e1, e2⟩
  obtain ⟨k1, k2, _, k4, k5⟩ := commit_answers h hw hk hmem e2 e3
  have hsucc := k5.mp hs
  intro x w vs w' sets hx hset j q id old hj
  obtain ⟨c0, ins, devs, R, g1, g2⟩ := called_gw hsane hcfg (x := (x, w, i, vs)) hx
  have hstep : ∃ c3, MStep env c1 (.commit i [(corr, ops)]) c3 := by
    obtain ⟨c2, c3, q1, q2, q3⟩ := hb.split (a := []) rfl
    have : c2 = c1 := by
      generalize hl : ([] : List (MEvent η)) = l at q1
      cases q1 with
      | refl => rfl
      | step => simp at hl
    subst this
    exact ⟨_, q2⟩
  obtain ⟨_, hstep⟩ := hstep
  obtain ⟨_, ps, f1, f2, f3⟩ := commit_step hstep
  simp only [List.cons.injEq, Prod.mk.injEq, and_true] at f3
  obtain ⟨p, hp, hdid⟩ := g1.did _ g2 ps (AMap.mem_of_get f1)
  have hcomp : p.status = .completed := by
    by_cases e : p.status = .completed
    · exact e
    · rw [active_of hp e] at f2; cases f2
  obtain ⟨w2, sets2, ts, d1, dv, hts, d2, d3⟩ := completed_tablets (m := c1.m) g1.wh.hist g1.io hcomp hdid
  rw [hset] at d1
  simp only [Run.ok.injEq, Prod.mk.injEq] at d1
  obtain ⟨rfl, rfl⟩ := d1
  have dv' : vs = views ts := dv
  rw [dv'] at hj
  unfold views at hj
  rw [List.getElem?_map, Option.map_eq_some_iff] at hj
  obtain ⟨e0, he0, hj⟩ := hj
  simp only [Prod.mk.injEq] at hj
  obtain ⟨hj1, hj2, hj3⟩ := hj
  -- what it was given
  obtain ⟨qs, lid, ts0, loaded, l1, l2, l3⟩ := hts
  obtain ⟨res, l4, l5⟩ := given_ts g1 l1 l2 l3
  obtain ⟨xs, rfl, l6, l7, _⟩ := l5 (hn qs res l4) hdiff
  have hres : (e0.2.query, e0.2.tablet.metadata) ∈ res := by
    rw [← l6, List.map_map]
    exact List.mem_map.mpr ⟨e0, List.mem_of_getElem? he0, rfl⟩
  -- and was in the store once
  obtain ⟨c0', ins', k, p1, p2, p3, p4, p5⟩ := l4
  have hprov := feedAll_p p2 (started_p p1) (sourced_once h (fun e he => by simp [he]) p3 hlog hw ho hf hk hd hu)
  obtain ⟨tm, hm1, hm2⟩ := hprov.cells _ _ p5 _ hres
  dsimp only at hm2
  rw [hj1, hj2] at hm2
  -- what became of it
  obtain ⟨e, v1, v2, v3, v4, v5⟩ := d3 j e0 he0
  have hop : e.2.op ∈ ops := by
    rw [f3.2]
    exact List.mem_flatMap.mpr ⟨p, hp, List.mem_map.mpr ⟨e, List.mem_of_getElem? v1, rfl⟩⟩
  rw [hj1] at v2
  rw [hj2] at v3
  have hsame : stored before q.table id = some e0.2.tablet.metadata := by
    obtain ⟨ring, o1, o2⟩ := hsucc _ hop
    have key : ∃ m, stored before q.table id = some m ∧ m.version = e0.2.tablet.metadata.version := by
      have o1' := o1
      unfold TabletState.op at o1 o2
      rw [show (⟨e.2.query.table, _⟩ : TabletOp).table = q.table by rw [← v2]] at o1
      by_cases hv : ∃ v, sets[j]? = some (some v)
      · obtain ⟨v, hv⟩ := hv
        obtain ⟨u1, u2, _⟩ := v4 v hv
        rw [u1] at o2
        simp only [if_true] at o2
        obtain ⟨tb, o3, o4⟩ := o2
        refine ⟨tb, by rw [view_stored o1, ← v3]; exact o3, ?_⟩
        rw [u2] at o4
        exact (UInt32.add_left_inj 1).mp o4.symm
      · obtain ⟨u1, u2⟩ := v5 fun v hn => hv ⟨v, hn⟩
        rw [u2] at o2
        simp only [Bool.false_eq_true, if_false] at o2
        obtain ⟨tb, o3, o4⟩ := o2
        exact ⟨tb, by rw [view_stored o1, ← v3]; exact o3, by rw [o4, u1]⟩
    obtain ⟨m, o3, o4⟩ := key
    rw [o3, moment_same ho hw e4 hm1 o3 hm2 o4]
  refine ⟨_, hsame, fun v hv => ?_, fun v hv => ?_⟩
  · rw [← hj3] at hv
    exact l7 _ (List.mem_map.mpr ⟨e0, List.mem_of_getElem? he0, rfl⟩) v hv
  · obtain ⟨u1, _, bytes, u3, u4, u5, u6, _⟩ := v4 v hv
    refine ⟨e.2.tablet.metadata, bytes, ?_, u3, u4, u5, u6⟩
    rw [← v3]
    refine updated_stored (e2.wf hw) ho e3 hs (hu i corr ops hmem) ?_
    unfold TabletState.op at hop
    rw [u1, v2] at hop
    exact hop

/-- A transaction that is reported as succeeded is in the log, and it is as if its handlers had run there, without anything in between:
for every tablet a handler of the transaction was given, the contents it was given (if any) are those of the tablet the store has just
before the transaction; and if the handler set the contents, the store has the tablet with these contents just after it.
Missing: transactions refused although some of their ops were answered as succeeded (`C85_dirty_read_fails`); transactions that update a
tablet twice (`C85_lost_update_fails`, `C85_stale_read_fails`); tablets that share a uri or, answered together, an id and a version (C83, C63); unknown tables;
overflow of versions in builds without overflow checks (C41). -/
theorem C85_serial_partial {env : TxnEnv α η ω} (hsane : Sane env) {cfg : List (String × UInt32)} {a b : List (MEvent η)} {c1 c : Client α η ω}
    {i corr : Nat} {ops : List TabletOp} (ha : MHistory env a c1) (hcfg : Configured cfg a) (hb : MSteps env c1 (.commit i [(corr, ops)] :: b) c)
    (hok : .check i (some .succeeded) ∈ b) (hne : ops ≠ [])
    {senv : TabletStore.Env} (ho : senv.overflowChecks = true) {scfg : Bytes} {s0 : State} (hs0 : TabletStore.Spec.Reachable senv scfg s0)
    {log : List (List TabletOp × Response)} {t : Tables} (hlog : Log senv s0.tables log t) (hf : FromLog (a ++ .commit i [(corr, ops)] :: b) log)
    (hk : TablesKnown (a ++ .commit i [(corr, ops)] :: b) s0.tables) (hd : AllRejected (a ++ .commit i [(corr, ops)] :: b))
    (hu : UpdatedOnce (a ++ .commit i [(corr, ops)] :: b)) (hn : AnswersDiffer cfg a c1.m.world.md) (hdiff : UrisDiffer env.data c1.m.world.md) :
    ∃ pre r post before after, log = pre ++ (ops, r) :: post ∧ Log senv s0.tables pre before ∧ applyRequest senv before ops = .ok (after, r) ∧ r.succeeded = true ∧
      ∀ x w vs w' sets, CalledIn env a c1 x w i vs → env.handle x w i vs = .ok (w', sets) →
        ∀ (j : Nat) (q : Query) (id : UInt32) (old : Option α), vs[j]? = some (q, id, old) →
          ∃ m, stored before q.table id = some m ∧ (∀ v, old = some v → MCame env a c1.m m.uri v) ∧
            ∀ v, sets[j]? = some (some v) → ∃ m' bytes, stored after q.table id = some m' ∧ env.data.ser v = some bytes ∧
              MStored a c1.m m'.uri bytes ∧ m'.hash = env.data.hash bytes ∧ m'.size = UInt32.ofNat bytes.length := by
  have h : MHistory env (a ++ .commit i [(corr, ops)] :: b) c := by
    obtain ⟨x1, x2, x3, x4, x5⟩ := ha
    exact ⟨x1, x2, x3, x4, x5.append hb⟩
  obtain ⟨corr', ops', h1, h2⟩ := C85_answered h (i := i) (by simp [hok]) (reachable_wf hs0) hlog hf hk
  have he := (C53_requests h (show MEvent.commit i [(corr, ops)] ∈ a ++ .commit i [(corr, ops)] :: b by simp)).2.1 [(corr', ops')] h1
  simp only [List.cons.injEq, Prod.mk.injEq, and_true] at he
  obtain ⟨rfl, rfl⟩ := he
  obtain ⟨r, _, h3, h4⟩ := h2 hne
  obtain ⟨pre, post, before, after, e1, e2, e3, _⟩ := moment_of_mem hlog h3
  exact ⟨pre, r, post, before, after, e1, e2, e3, h4, C85_every_partial hsane ha hcfg hb ho hs0 hlog hf hk hd hu hn hdiff e1 e2 e3 h4⟩

theorem procCalls_txn {env : TxnEnv α η ω} {i : Nat} {x : Call α η ω} : ∀ {ps : List (Proc α η)} {w : World α ω}, x ∈ procCalls env i ps w → x.2.2.1 = i := by
  intro ps
  induction ps with
  | nil => intro w h; simp [procCalls] at h
  | cons p rest ih =>
    intro w h
    simp only [procCalls, List.mem_append] at h
    rcases h with h | h
    · unfold callOf at h
      split at h
      · split at h
        · split at h
          · simp only [List.mem_singleton] at h
            subst h; rfl
          · simp at h
        · simp at h
      · simp at h
    · split at h
      · exact ih h
      · simp at h

theorem txnCalls_preparing {env : TxnEnv α η ω} {x : Call α η ω} : ∀ {ts : AMap Nat (TxnState α η)} {w : World α ω}, x ∈ txnCalls env ts w →
    ∃ ps, (x.2.2.1, TxnState.preparing ps) ∈ ts := by
  intro ts
  induction ts with
  | nil => intro w h; simp [txnCalls] at h
  | cons e rest ih =>
    intro w h
    obtain ⟨i, s⟩ := e
    cases s with
    | preparing ps =>
      simp only [txnCalls, List.mem_append] at h
      rcases h with h | h
      · exact ⟨ps, by rw [procCalls_txn h]; simp⟩
      · split at h
        · obtain ⟨ps', h'⟩ := ih h
          exact ⟨ps', List.mem_cons_of_mem _ h'⟩
        · simp at h
    | committing _ => obtain ⟨ps', h'⟩ := ih (w := w) h; exact ⟨ps', List.mem_cons_of_mem _ h'⟩
    | completed _ => obtain ⟨ps', h'⟩ := ih (w := w) h; exact ⟨ps', List.mem_cons_of_mem _ h'⟩

/-- Handlers run before their transaction ends: none is called for a transaction that has been committed or aborted. -/
theorem C85_not_after {env : TxnEnv α η ω} (hsane : Sane env) {cfg : List (String × UInt32)} {evs : List (MEvent η)} {c : Client α η ω} (h : MHistory env evs c)
    (hcfg : Configured cfg evs) {m : Manager α η ω} {x : η} {w : ω} {i : Nat} {vs : List (Query × UInt32 × Option α)} (hx : Calls env c.m m x w i vs) :
    .abort i ∉ evs ∧ ∀ sent, .commit i sent ∉ evs := by
  obtain ⟨c0, ins, devs, R, k1, _⟩ := history_gw hsane h hcfg
  have hm := hx.1
  unfold Manager.makeProgress at hm
  obtain ⟨md, h1, hm⟩ := Run.bind_eq_ok.mp hm
  obtain ⟨d, h2, hm⟩ := Run.bind_eq_ok.mp hm
  obtain ⟨r, h3, _⟩ := Run.bind_eq_ok.mp hm
  obtain ⟨ps, hps⟩ := txnCalls_preparing ((calls_iff h1 h2 h3 hx.1).mp hx)
  have hps := AMap.get_of_mem k1.wf hps
  have gone : ¬ Follow (fun _ => False) c i := by
    intro hf
    unfold Follow at hf
    rw [hps] at hf
    obtain ⟨_, _, hf⟩ := hf
    exact hf
  have key : ∀ {a b ev}, evs = a ++ ev :: b → (∀ c1 c2, MHistory env a c1 → MStep env c1 ev c2 → Follow (fun _ => False) c2 i) → False := by
    rintro a b ev rfl hf
    obtain ⟨c1, c2, g1, g2, g3⟩ := h.split
    exact gone (follow_steps (fun _ _ _ _ _ hp _ => hp) (cinv_step (history_cinv g1) g2) (hf c1 c2 g1 g2) g3)
  refine ⟨fun hm => ?_, fun sent hm => ?_⟩
  · obtain ⟨a, b, he⟩ := List.append_of_mem hm
    refine key he fun c1 c2 g1 g2 => ?_
    cases g2 with
    | abort ho =>
      obtain ⟨ps, hps⟩ := (history_cinv g1).opened _ ho
      have := (history_cinv g1).le _ _ hps
      unfold Follow
      simp only [Coordinator.abort]
      rw [AMap.get_erase]
      simpa using this
  · obtain ⟨a, b, he⟩ := List.append_of_mem hm
    refine key he fun c1 c2 g1 g2 => ?_
    generalize hev : (MEvent.commit i sent : MEvent η) = ev at g2
    cases g2 with
    | commit ho hs =>
      simp only [MEvent.commit.injEq] at hev
      obtain ⟨rfl, _⟩ := hev
      obtain ⟨ps, hps, ha, rfl⟩ := commit_cases hs
      unfold Follow
      dsimp only
      rw [AMap.get_set_self]
      trivial
    | _ => cases hev

/-! ### Concrete histories with a log -/

/-- Applying requests one after the other. -/
def runLog (senv : TabletStore.Env) (t : Tables) : List (List TabletOp) → Run (List (List TabletOp × Response) × Tables)
  | [] => .ok ([], t)
  | ops :: rest => (applyRequest senv t ops).bind fun x => (runLog senv x.1 rest).bind fun y => .ok ((ops, x.2) :: y.1, y.2)

theorem runLog_sound {senv : TabletStore.Env} {t0 : Tables} : ∀ {reqs : List (List TabletOp)} {pre : List (List TabletOp × Response)} {t : Tables} {x},
    Log senv t0 pre t → runLog senv t reqs = .ok x → Log senv t0 (pre ++ x.1) x.2 := by
  intro reqs
  induction reqs with
  | nil => intro pre t x h hx; simp only [runLog, Run.ok.injEq] at hx; subst hx; simpa using h
  | cons ops rest ih =>
    intro pre t x h hx
    simp only [runLog] at hx
    obtain ⟨y, h1, h2⟩ := Run.bind_eq_ok.mp hx
    obtain ⟨z, h3, h4⟩ := Run.bind_eq_ok.mp h2
    simp only [Run.ok.injEq] at h4
    subst h4
    have := ih (.snoc h h1) h3
    simpa using this

/-- Like `exTxnU`, but the uri also depends on the contents, and handlers from 100 on write the first tablet they are given only. -/
def exUriH (i v : UInt32) (h : Bytes) : String := String.ofList (List.replicate i.toNat 'a' ++ 'b' :: (List.replicate v.toNat 'c' ++ List.replicate h.head!.toNat 'd'))

def exTxnH : TxnEnv Bytes Nat Unit :=
  { exTxn with
    data := { exEnv with uri := exUriH }
    handle := fun h w _ vs => .ok (w, vs.zipIdx.map fun y => if y.2 = 0 ∨ h < 100 then some [UInt8.ofNat h] else none) }

theorem exTxnH_sane : Sane exTxnH := by intro es k hk; simp [exTxnH, exTxn, exPolicy] at hk

/-- The commands run without panic: after `cmds1`, making progress calls the handler; then `cmds2`, the commit and `cmds3`. -/
def serialRun (env : TxnEnv Bytes Nat Unit) (cmds1 cmds2 cmds3 : List (Cmd Nat)) (x i : Nat) (vs : List (Query × UInt32 × Option Bytes))
    (p : List (MEvent Nat) → Client Bytes Nat Unit → List (MEvent Nat) → Nat → List TabletOp → Bool) : Bool :=
  match execAll env exManager cmds1 with
  | .ok (k, evs1) => match k.m.makeProgress env with
    | .ok m => (match k.m.makeProgress (without env x () i vs) with | .panic => true | .ok _ => false) &&
      match execAll env { k with m := m } cmds2 with
      | .ok (c1, evs2) => match exec env c1 (.commit i) with
        | .ok (c2, .commit j [(corr, ops)]) => decide (j = i) && match execAll env c2 cmds3 with
          | .ok (_, evs3) => p (evs1 ++ .progress :: evs2) c1 evs3 corr ops
          | .panic => false
        | _ => false
      | .panic => false
    | .panic => false
  | .panic => false

theorem serialRun_sound {env : TxnEnv Bytes Nat Unit} {cmds1 cmds2 cmds3 : List (Cmd Nat)} {x i : Nat} {vs : List (Query × UInt32 × Option Bytes)}
    {p : List (MEvent Nat) → Client Bytes Nat Unit → List (MEvent Nat) → Nat → List TabletOp → Bool} (h : serialRun env cmds1 cmds2 cmds3 x i vs p = true) :
    ∃ a c1 b c corr ops, MHistory env a c1 ∧ CalledIn env a c1 x () i vs ∧ MSteps env c1 (.commit i [(corr, ops)] :: b) c ∧ p a c1 b corr ops = true := by
  unfold serialRun at h
  split at h
  · rename_i k evs1 he1
    split at h
    · rename_i m hm
      rw [Bool.and_eq_true] at h
      obtain ⟨hp, h⟩ := h
      split at h
      · rename_i c1 evs2 he2
        split at h
        · rename_i c2 j corr ops hc
          rw [Bool.and_eq_true] at h
          obtain ⟨hj, h⟩ := h
          obtain rfl := of_decide_eq_true hj
          split at h
          · rename_i c evs3 he3
            have hh1 : MHistory env evs1 k := ⟨_, _, _, _, execAll_sound he1⟩
            have s1 : MStep env k .progress { k with m := m } := .progress hm
            have s2 := execAll_sound he2
            have s3 := exec_sound hc
            refine ⟨evs1 ++ .progress :: evs2, c1, evs3, c, corr, ops, ?_, ⟨evs1, evs2, k, m, rfl, hh1, ⟨hm, ?_⟩, s2⟩, (MSteps.single s3).append (execAll_sound he3), h⟩
            · obtain ⟨a1, a2, a3, a4, a5⟩ := hh1
              exact ⟨a1, a2, a3, a4, a5.append ((MSteps.single s1).append s2)⟩
            · cases hq : k.m.makeProgress (without env x () j vs) with
              | panic => rfl
              | ok _ => rw [hq] at hp; simp at hp
          · cases h
        · cases h
      · cases h
    · cases h
  · cases h

/-- Tablet 10 and 20 as other clients write them. -/
def exOther (i v : UInt32) (uri : String) : Metadata := ⟨i, v, false, [], 1, [1], uri⟩

def exOtherUpd (i v : UInt32) (uri : String) : TabletOp := ⟨"t", some (.update (some (exOther i v uri)))⟩

def exListOps : List TabletOp := [⟨"t", some (.list 0 0x3fffffff)⟩]

def respB (log : List (List TabletOp × Response)) : MEvent Nat → Bool
  | .input (.response _ r) => log.any fun x => decide (x.2 = r)
  | _ => true

def answerB (q : List TabletOp → Response → Bool) : MEvent Nat → MEvent Nat → Bool
  | .commit _ [(corr, ops)], .input (.response corr' r) => decide (corr ≠ corr') || q ops r
  | _, _ => true

def opsB (q : List TabletOp → Bool) : MEvent Nat → Bool
  | .commit _ [(_, ops)] => q ops
  | _ => true

def fromLogB (evs : List (MEvent Nat)) (log : List (List TabletOp × Response)) : Bool :=
  evs.all (respB log) && evs.all fun e => evs.all (answerB (fun ops r => decide ((ops, r) ∈ log)) e)

theorem fromLogB_sound {evs : List (MEvent Nat)} {log : List (List TabletOp × Response)} (h : fromLogB evs log = true) : FromLog evs log := by
  unfold fromLogB at h
  rw [Bool.and_eq_true] at h
  refine ⟨fun corr r hr => ?_, fun i corr ops r hc hr => ?_⟩
  · have := List.all_eq_true.mp h.1 _ hr
    obtain ⟨x, h1, h2⟩ := List.any_eq_true.mp this
    exact ⟨x.1, by rw [← of_decide_eq_true h2]; exact h1⟩
  · have := List.all_eq_true.mp (List.all_eq_true.mp h.2 _ hc) _ hr
    simpa [answerB] using this

def rejectedB (evs : List (MEvent Nat)) : Bool :=
  evs.all fun e => evs.all (answerB (fun _ r => r.succeeded || r.results.all fun x => decide (x.status ≠ .succeeded)) e)

theorem rejectedB_sound {evs : List (MEvent Nat)} (h : rejectedB evs = true) : AllRejected evs := by
  intro i corr ops r hc hr hs x hx
  have := List.all_eq_true.mp (List.all_eq_true.mp h _ hc) _ hr
  simp only [answerB, ne_eq, not_true_eq_false, decide_false, Bool.false_or, hs] at this
  exact of_decide_eq_true (List.all_eq_true.mp this _ hx)

def updOf (o : TabletOp) : Option (String × Metadata) :=
  match o.op with
  | some (.update (some m)) => some (o.table, m)
  | _ => none

def onceB (evs : List (MEvent Nat)) : Bool :=
  evs.all (opsB fun ops => (ops.filterMap updOf).all fun x => (ops.filterMap updOf).all fun y => decide (x.1 = y.1 → x.2.tabletId = y.2.tabletId → x.2 = y.2))

theorem onceB_sound {evs : List (MEvent Nat)} (h : onceB evs = true) : UpdatedOnce evs := by
  intro i corr ops hc table m m' h1 h2 he
  have := List.all_eq_true.mp h _ hc
  simp only [opsB] at this
  have g : ∀ m, (⟨table, some (.update (some m))⟩ : TabletOp) ∈ ops → (table, m) ∈ ops.filterMap updOf := fun m hm => List.mem_filterMap.mpr ⟨_, hm, rfl⟩
  exact of_decide_eq_true (List.all_eq_true.mp (List.all_eq_true.mp this _ (g m h1)) _ (g m' h2)) rfl he

def knownB (evs : List (MEvent Nat)) (t : Tables) : Bool := evs.all (opsB fun ops => ops.all fun o => (t.get o.table).isSome)

theorem knownB_sound {evs : List (MEvent Nat)} {t : Tables} (h : knownB evs t = true) : TablesKnown evs t := by
  intro i corr ops hc o ho
  have := List.all_eq_true.mp h _ hc
  exact List.all_eq_true.mp this _ ho

def differB (md : MetaCache) : Bool := md.cells.all fun e => decide ((e.2.map fun p => (p.2.tabletId, p.2.version)).Nodup)

theorem differB_sound {md : MetaCache} (h : differB md = true) (cfg : List (String × UInt32)) (evs : List (MEvent Nat)) : AnswersDiffer cfg evs md := by
  rintro qs res ⟨c0, ins, k, _, _, _, _, hg⟩
  exact of_decide_eq_true (List.all_eq_true.mp h _ (AMap.mem_of_get hg))

theorem count_uriH (i v : UInt32) (h : Bytes) : (exUriH i v h).toList.count 'a' = i.toNat ∧ (exUriH i v h).toList.count 'b' = 1 ∧
    (exUriH i v h).toList.count 'c' = v.toNat := by
  unfold exUriH
  simp [List.count_append, List.count_replicate]

/-- The uris of these tell them apart, and from those of the cache. -/
def plainB (l : List Metadata) : Bool :=
  l.all fun m => decide (m.uri.toList.count 'b' = 0) && l.all fun m' => decide (m.uri = m'.uri → m.tabletId = m'.tabletId ∧ m.version = m'.version)

def urisB (l : List Metadata) (md : MetaCache) : Bool :=
  plainB l && md.cells.all fun e => e.2.all fun p => decide (p.2 ∈ l) || decide (p.2.uri = exUriH p.2.tabletId p.2.version p.2.hash)

theorem urisB_sound {l : List Metadata} {md : MetaCache} (h : urisB l md = true) : UrisDiffer exTxnH.data md := by
  unfold urisB at h
  rw [Bool.and_eq_true] at h
  have known : ∀ m, KnownMeta exTxnH.data md m → m ∈ l ∨ m.uri = exUriH m.tabletId m.version m.hash := by
    rintro m (⟨id, res, h1, h2⟩ | h1)
    · obtain ⟨p, hp, rfl⟩ := List.mem_map.mp h2
      have := List.all_eq_true.mp (List.all_eq_true.mp h.2 _ (AMap.mem_of_get h1)) _ hp
      simpa using this
    · exact .inr h1
  have nob : ∀ m ∈ l, m.uri.toList.count 'b' = 0 := fun m hm => by
    have := List.all_eq_true.mp h.1 m hm
    rw [Bool.and_eq_true] at this
    exact of_decide_eq_true this.1
  have two : ∀ m ∈ l, ∀ m' ∈ l, m.uri = m'.uri → m.tabletId = m'.tabletId ∧ m.version = m'.version := fun m hm m' hm' => by
    have := List.all_eq_true.mp h.1 m hm
    rw [Bool.and_eq_true] at this
    exact of_decide_eq_true (List.all_eq_true.mp this.2 m' hm')
  intro m m' hm hm' he
  rcases known m hm with h1 | h1 <;> rcases known m' hm' with h2 | h2
  · exact two m h1 m' h2 he
  · have := nob m h1
    rw [he, h2, (count_uriH _ _ _).2.1] at this; cases this
  · have := nob m' h2
    rw [← he, h1, (count_uriH _ _ _).2.1] at this; cases this
  · rw [h1, h2] at he
    have a1 := (count_uriH m.tabletId m.version m.hash).1
    have c1 := (count_uriH m.tabletId m.version m.hash).2.2
    rw [he] at a1 c1
    rw [(count_uriH _ _ _).1] at a1
    rw [(count_uriH _ _ _).2.2] at c1
    exact ⟨UInt32.toNat_inj.mp a1.symm, UInt32.toNat_inj.mp c1.symm⟩

/-! The storage and the tablet store at work: another client has written tablet 20, the transaction writes tablet 10. -/

def exSerial1 : List (Cmd Nat) := [.init [("t", 0x40000000)], .start, .process 2 [exQuery [5, 12, 14]] 107, .progress, .progress, .take,
  .input (.response 201 ⟨true, [exList [Metadata.new 10, exOther 20 1 "y"]]⟩), .progress, .take,
  .input (.data (.load 301 .succeeded [1])), .input (.data (.load 302 .succeeded [2]))]

def exSerial2 : List (Cmd Nat) := [.take, .input (.data (.store 303 .succeeded)), .progress]

def exWrote (i v : UInt32) (b : UInt8) : Metadata := ⟨i, v, false, [], 1, [b], exUriH i v [b]⟩

def exSerialOps : List TabletOp := [⟨"t", some (.update (some (exWrote 10 1 107)))⟩, ⟨"t", some (.check 20 1)⟩]

def exSerialAnswer : Response :=
  ⟨true, [⟨"t", .succeeded, some (.update (some (Metadata.new 10)))⟩, ⟨"t", .succeeded, some (.check none)⟩]⟩

def exSerial3 : List (Cmd Nat) := [.take, .input (.response 101 exSerialAnswer), .check 2]

/-- The conditions of C85 but `AllRejected` and `UpdatedOnce`. -/
def settingB (l : List Metadata) (i : Nat) (reqs : List (List TabletOp)) (a : List (MEvent Nat)) (c1 : Client Bytes Nat Unit) (b : List (MEvent Nat)) (corr : Nat)
    (ops : List TabletOp) : Bool :=
  match runLog TabletStore.Spec.exEnv TabletStore.exS1.tables reqs with
  | .ok (log, _) => (initOnce a && decide (.check i (some .succeeded) ∈ b) && decide (ops ≠ [])) &&
    (fromLogB (a ++ .commit i [(corr, ops)] :: b) log && knownB (a ++ .commit i [(corr, ops)] :: b) TabletStore.exS1.tables) &&
    (differB c1.m.world.md && urisB l c1.m.world.md)
  | .panic => false

structure Setting (i : Nat) (log : List (List TabletOp × Response)) (t : Tables) (a : List (MEvent Nat)) (c1 : Client Bytes Nat Unit) (b : List (MEvent Nat))
    (corr : Nat) (ops : List TabletOp) : Prop where
  configured : Configured [("t", 0x40000000)] a
  succeeded : .check i (some .succeeded) ∈ b
  ne : ops ≠ []
  logged : Log TabletStore.Spec.exEnv TabletStore.exS1.tables log t
  fromLog : FromLog (a ++ .commit i [(corr, ops)] :: b) log
  known : TablesKnown (a ++ .commit i [(corr, ops)] :: b) TabletStore.exS1.tables
  answers : AnswersDiffer [("t", 0x40000000)] a c1.m.world.md
  uris : UrisDiffer exTxnH.data c1.m.world.md

theorem settingB_sound {l : List Metadata} {i : Nat} {reqs : List (List TabletOp)} {a : List (MEvent Nat)} {c1 : Client Bytes Nat Unit} {b : List (MEvent Nat)} {corr : Nat}
    {ops : List TabletOp} (h : settingB l i reqs a c1 b corr ops = true) :
    ∃ log t, runLog TabletStore.Spec.exEnv TabletStore.exS1.tables reqs = .ok (log, t) ∧ Setting i log t a c1 b corr ops := by
  unfold settingB at h
  split at h
  · rename_i log t hl
    simp only [Bool.and_eq_true] at h
    obtain ⟨⟨⟨⟨h1, h2⟩, h3⟩, h4, h5⟩, h6, h7⟩ := h
    refine ⟨log, t, hl, initOnce_configured h1, of_decide_eq_true h2, of_decide_eq_true h3, ?_, fromLogB_sound h4, knownB_sound h5, differB_sound h6 _ _, urisB_sound h7⟩
    simpa using runLog_sound .nil hl
  · cases h

/-- Non-vacuity of C85. -/
example : ∃ a c1 b c corr ops log t, MHistory exTxnH a c1 ∧ MSteps exTxnH c1 (.commit 2 [(corr, ops)] :: b) c ∧ Setting 2 log t a c1 b corr ops ∧
    AllRejected (a ++ .commit 2 [(corr, ops)] :: b) ∧ UpdatedOnce (a ++ .commit 2 [(corr, ops)] :: b) ∧
    CalledIn exTxnH a c1 107 () 2 [(.create 7 "t" [5], 10, some [1]), (.create 7 "t" [14], 20, some [2])] ∧
    ops = exSerialOps ∧ stored t "t" 10 = some (exWrote 10 1 107) := by
  have hl : (match runLog TabletStore.Spec.exEnv TabletStore.exS1.tables [[exOtherUpd 20 1 "y"], exListOps, exSerialOps] with
      | .ok (_, t) => decide (stored t "t" 10 = some (exWrote 10 1 107)) | .panic => false) = true := by decide +kernel
  have h : serialRun exTxnH exSerial1 exSerial2 exSerial3 107 2 [(.create 7 "t" [5], 10, some [1]), (.create 7 "t" [14], 20, some [2])] (fun a c1 b corr ops =>
      settingB [Metadata.new 10, exOther 20 1 "y"] 2 [[exOtherUpd 20 1 "y"], exListOps, exSerialOps] a c1 b corr ops &&
        (rejectedB (a ++ .commit 2 [(corr, ops)] :: b) && onceB (a ++ .commit 2 [(corr, ops)] :: b)) && decide (ops = exSerialOps)) = true := by decide +kernel
  obtain ⟨a, c1, b, c, corr, ops, h1, h2, h3, h4⟩ := serialRun_sound h
  simp only [Bool.and_eq_true] at h4
  obtain ⟨⟨h4, h5, h6⟩, h7⟩ := h4
  obtain ⟨log, t, hr, h8⟩ := settingB_sound h4
  rw [hr] at hl
  exact ⟨a, c1, b, c, corr, ops, log, t, h1, h3, h8, rejectedB_sound h5, onceB_sound h6, h2, of_decide_eq_true h7, of_decide_eq_true hl⟩

/-! ### Reading what was never committed -/

/-- Transaction 2 writes tablets 10 and 20. -/
def exDirty1 : List (Cmd Nat) := [.init [("t", 0x40000000)], .start, .process 2 [exQuery [5, 12, 14]] 7, .progress, .progress, .take,
  .input (.response 201 ⟨true, [exList [exOther 10 1 "x", exOther 20 1 "y"]]⟩), .progress, .take,
  .input (.data (.load 301 .succeeded [1])), .input (.data (.load 302 .succeeded [2])), .progress, .take, .input (.data (.store 303 .succeeded)),
  .input (.data (.store 304 .succeeded)), .progress, .commit 2, .take,
  .input (.response 101 ⟨false, [⟨"t", .succeeded, some (.update (some (exOther 10 1 "x")))⟩, ⟨"t", .failed, some (.update (some (exOther 20 2 "z")))⟩]⟩), .check 2,
  .start, .process 3 [exQuery [5]] 8, .progress, .progress, .take,
  .input (.response 202 ⟨true, [exList [exOther 10 2 "w", exOther 20 2 "z"]]⟩), .progress, .take]

def exDirty2 : List (Cmd Nat) := [.take, .input (.data (.store 305 .succeeded)), .progress]

def exDirty3 : List (Cmd Nat) :=
  [.take, .input (.response 102 ⟨true, [⟨"t", .succeeded, some (.update (some (exOther 10 2 "w")))⟩]⟩), .check 3]

/-- What the tablet store is asked before transaction 3 commits; the other client writes "x", "y", "z" and, at last, "w". -/
def exDirtyReqs : List (List TabletOp) :=
  [[exOtherUpd 10 1 "x", exOtherUpd 20 1 "y"], exListOps, [exOtherUpd 20 2 "z"],
   [⟨"t", some (.update (some (exWrote 10 2 7)))⟩, ⟨"t", some (.update (some (exWrote 20 2 7)))⟩], [exOtherUpd 10 2 "w"], exListOps]

def exDirtyOps : List TabletOp := [⟨"t", some (.update (some (exWrote 10 3 8)))⟩]

def notUri (u : String) : DataOut → Bool
  | .load _ v => decide (v ≠ u)
  | .store _ v _ => decide (v ≠ u)

/-- Nothing was asked for, or written, under the uri. -/
theorem notUri_came {env : TxnEnv Bytes Nat Unit} {a : List (MEvent Nat)} {m : Manager Bytes Nat Unit} {u : String} (h : (mrequests a m).all (notUri u) = true) (v : Bytes) :
    ¬ MCame env a m u v := by
  have h := List.all_eq_true.mp h
  rintro (⟨corr, b, h1, _⟩ | ⟨b, _, corr, h1, _⟩)
  · have := h _ h1; simp [notUri] at this
  · have := h _ h1; simp [notUri] at this

/-- The log ends with this request, applied to a store where tablet 10 is `before`; afterwards it is `after`. -/
def lastB (reqs : List (List TabletOp)) (ops : List TabletOp) (before after : Metadata) : Bool :=
  match runLog TabletStore.Spec.exEnv TabletStore.exS1.tables reqs with
  | .ok (_, t) => match runLog TabletStore.Spec.exEnv t [ops] with
    | .ok ([(_, r)], t') => r.succeeded && (decide (stored t "t" 10 = some before) && decide (stored t' "t" 10 = some after))
    | _ => false
  | .panic => false

theorem runLog_append {senv : TabletStore.Env} {ops : List TabletOp} : ∀ {reqs : List (List TabletOp)} {t : Tables} {x y},
    runLog senv t reqs = .ok x → runLog senv x.2 [ops] = .ok y → runLog senv t (reqs ++ [ops]) = .ok (x.1 ++ y.1, y.2) := by
  intro reqs
  induction reqs with
  | nil => intro t x y h1 h2; simp only [runLog, Run.ok.injEq] at h1; subst h1; simpa using h2
  | cons o rest ih =>
    intro t x y h1 h2
    simp only [runLog, List.cons_append] at h1 ⊢
    obtain ⟨u, g1, g2⟩ := Run.bind_eq_ok.mp h1
    obtain ⟨v, g3, g4⟩ := Run.bind_eq_ok.mp g2
    simp only [Run.ok.injEq] at g4
    subst g4
    rw [g1, Run.bind_ok, ih g3 h2, Run.bind_ok]
    simp

theorem lastB_sound {reqs : List (List TabletOp)} {ops : List TabletOp} {before after : Metadata} (h : lastB reqs ops before after = true) {log t}
    (hl : runLog TabletStore.Spec.exEnv TabletStore.exS1.tables (reqs ++ [ops]) = .ok (log, t)) :
    ∃ pre r t0, log = pre ++ [(ops, r)] ∧ Log TabletStore.Spec.exEnv TabletStore.exS1.tables pre t0 ∧ applyRequest TabletStore.Spec.exEnv t0 ops = .ok (t, r) ∧
      r.succeeded = true ∧ stored t0 "t" 10 = some before ∧ stored t "t" 10 = some after := by
  unfold lastB at h
  split at h
  · rename_i pre t0 h1
    split at h
    · rename_i o r t' h2
      simp only [Bool.and_eq_true, decide_eq_true_eq] at h
      rw [runLog_append h1 h2] at hl
      simp only [Run.ok.injEq, Prod.mk.injEq] at hl
      obtain ⟨rfl, rfl⟩ := hl
      simp only [runLog] at h2
      obtain ⟨u, g1, g2⟩ := Run.bind_eq_ok.mp h2
      simp only [Run.bind_ok, Run.ok.injEq, Prod.mk.injEq, List.cons.injEq, and_true] at g2
      obtain ⟨⟨rfl, rfl⟩, rfl⟩ := g2
      exact ⟨pre, _, t0, rfl, by simpa using runLog_sound .nil h1, g1, h.1, h.2.1, h.2.2⟩
    · cases h
  · cases h

/-- C85 fails as stated: a transaction is refused, but the manager takes the ops answered as succeeded for carried out.  Its next transaction
is given contents that were never committed to the tablet store, and commits successfully on top of what another client has written
there meanwhile — which nobody here has read. -/
theorem C85_dirty_read_fails : ∃ a c1 b c corr ops log t, MHistory exTxnH a c1 ∧ MSteps exTxnH c1 (.commit 3 [(corr, ops)] :: b) c ∧
    Setting 3 log t a c1 b corr ops ∧ UpdatedOnce (a ++ .commit 3 [(corr, ops)] :: b) ∧
    .check 2 (some .failed) ∈ a ∧ CalledIn exTxnH a c1 8 () 3 [(.create 7 "t" [5], 10, some [7])] ∧
    ∃ pre r before, log = pre ++ [(ops, r)] ∧ Log TabletStore.Spec.exEnv TabletStore.exS1.tables pre before ∧
      applyRequest TabletStore.Spec.exEnv before ops = .ok (t, r) ∧ r.succeeded = true ∧
      stored before "t" 10 = some (exOther 10 2 "w") ∧ (∀ v, ¬ MCame exTxnH a c1.m "w" v) ∧ stored t "t" 10 = some (exWrote 10 3 8) := by
  have hl : lastB exDirtyReqs exDirtyOps (exOther 10 2 "w") (exWrote 10 3 8) = true := by decide +kernel
  have h : serialRun exTxnH exDirty1 exDirty2 exDirty3 8 3 [(.create 7 "t" [5], 10, some [7])] (fun a c1 b corr ops =>
      settingB [exOther 10 1 "x", exOther 20 1 "y", exOther 20 2 "z", exOther 10 2 "w"] 3 (exDirtyReqs ++ [exDirtyOps]) a c1 b corr ops &&
      onceB (a ++ .commit 3 [(corr, ops)] :: b) && (decide (ops = exDirtyOps) && (decide (.check 2 (some .failed) ∈ a) && (mrequests a c1.m).all (notUri "w")))) = true := by
    decide +kernel
  obtain ⟨a, c1, b, c, corr, ops, h1, h2, h3, h4⟩ := serialRun_sound h
  simp only [Bool.and_eq_true, decide_eq_true_eq] at h4
  obtain ⟨⟨h4, h5⟩, rfl, h6, h7⟩ := h4
  obtain ⟨log, t, hr, h8⟩ := settingB_sound h4
  obtain ⟨pre, r, t0, k1, k2, k3, k4, k5, k6⟩ := lastB_sound hl hr
  exact ⟨a, c1, b, c, corr, _, log, t, h1, h3, h8, onceB_sound h5, h6, h2, pre, r, t0, k1, k2, k3, k4, k5, notUri_came h7, k6⟩

/-! ### Two process requests of one transaction on the same tablet -/

def exLost1 : List (Cmd Nat) := [.init [("t", 0x40000000)], .start, .process 2 [exQuery [5]] 7, .process 2 [exQuery [5]] 8, .progress, .progress, .take,
  .input (.response 201 ⟨true, [exList [exOther 10 1 "x", Metadata.new 20]]⟩), .progress, .take, .input (.data (.load 301 .succeeded [1]))]

def exLost2 : List (Cmd Nat) := [.take, .input (.data (.store 302 .succeeded)), .input (.data (.store 303 .succeeded)), .progress]

def exLost3 : List (Cmd Nat) := [.take, .input (.response 101 ⟨true, [⟨"t", .succeeded, some (.update (some (exOther 10 1 "x")))⟩,
  ⟨"t", .succeeded, some (.update (some (exOther 10 1 "x")))⟩]⟩), .check 2]

def exLost4 : List (Cmd Nat) := [.start, .process 3 [exQuery [5]] 9, .progress, .progress]

def exLost5 : List (Cmd Nat) := [.take, .input (.data (.store 304 .succeeded)), .progress]

def exLost6 : List (Cmd Nat) := [.take, .input (.response 102 ⟨true, [⟨"t", .succeeded, some (.update (some (exWrote 10 2 8)))⟩]⟩), .check 3]

def exLostReqs : List (List TabletOp) := [[exOtherUpd 10 1 "x"], exListOps]

def exLostOps : List TabletOp := [⟨"t", some (.update (some (exWrote 10 2 7)))⟩, ⟨"t", some (.update (some (exWrote 10 2 8)))⟩]

def exLostOps2 : List TabletOp := [⟨"t", some (.update (some (exWrote 10 3 9)))⟩]

/-- C85 fails as stated for a transaction that updates a tablet twice: two of its handlers set the contents of the same tablet, both updates
are accepted and the transaction succeeds, but what the first handler has written is nowhere in the store. -/
theorem C85_lost_update_fails : ∃ a c1 b c corr ops log t, MHistory exTxnH a c1 ∧ MSteps exTxnH c1 (.commit 2 [(corr, ops)] :: b) c ∧
    Setting 2 log t a c1 b corr ops ∧ AllRejected (a ++ .commit 2 [(corr, ops)] :: b) ∧
    CalledIn exTxnH a c1 7 () 2 [(.create 7 "t" [5], 10, some [1])] ∧ exTxnH.handle 7 () 2 [(.create 7 "t" [5], 10, some [1])] = .ok ((), [some [7]]) ∧
    ∃ pre r before, log = pre ++ [(ops, r)] ∧ Log TabletStore.Spec.exEnv TabletStore.exS1.tables pre before ∧
      applyRequest TabletStore.Spec.exEnv before ops = .ok (t, r) ∧ r.succeeded = true ∧
      stored t "t" 10 = some (exWrote 10 2 8) ∧ (exWrote 10 2 8).hash ≠ exTxnH.data.hash [7] := by
  have hl : lastB exLostReqs exLostOps (exOther 10 1 "x") (exWrote 10 2 8) = true := by decide +kernel
  have h : serialRun exTxnH exLost1 exLost2 exLost3 7 2 [(.create 7 "t" [5], 10, some [1])] (fun a c1 b corr ops =>
      settingB [exOther 10 1 "x", Metadata.new 20] 2 (exLostReqs ++ [exLostOps]) a c1 b corr ops && rejectedB (a ++ .commit 2 [(corr, ops)] :: b) &&
      decide (ops = exLostOps)) = true := by decide +kernel
  obtain ⟨a, c1, b, c, corr, ops, h1, h2, h3, h4⟩ := serialRun_sound h
  simp only [Bool.and_eq_true, decide_eq_true_eq] at h4
  obtain ⟨⟨h4, h5⟩, rfl⟩ := h4
  obtain ⟨log, t, hr, h8⟩ := settingB_sound h4
  obtain ⟨pre, r, t0, k1, k2, k3, k4, k5, k6⟩ := lastB_sound hl hr
  exact ⟨a, c1, b, c, corr, _, log, t, h1, h3, h8, rejectedB_sound h5, h2, by rfl, pre, r, t0, k1, k2, k3, k4, k6, by decide +kernel⟩

def otherBytes (u : String) (v : Bytes) : DataOut → Bool
  | .load _ w => decide (w ≠ u)
  | .store _ w b => decide (w = u → b ≠ v)

theorem otherBytes_came {a : List (MEvent Nat)} {m : Manager Bytes Nat Unit} {u : String} {v : Bytes} (h : (mrequests a m).all (otherBytes u v) = true) :
    ¬ MCame exTxnH a m u v := by
  have h := List.all_eq_true.mp h
  rintro (⟨corr, b, h1, _⟩ | ⟨b, h0, corr, h1, _⟩)
  · have := h _ h1; simp [otherBytes] at this
  · have := h _ h1
    have e : some v = some b := h0
    cases e
    simp [otherBytes] at this

/-- The same manager then goes on with the lost contents: its next transaction is given what the first handler has written, although the store
has what the second one has, and it succeeds. -/
theorem C85_stale_read_fails : ∃ a c1 b c corr ops log t, MHistory exTxnH a c1 ∧ MSteps exTxnH c1 (.commit 3 [(corr, ops)] :: b) c ∧
    Setting 3 log t a c1 b corr ops ∧ AllRejected (a ++ .commit 3 [(corr, ops)] :: b) ∧ .check 2 (some .succeeded) ∈ a ∧
    CalledIn exTxnH a c1 9 () 3 [(.create 7 "t" [5], 10, some [7])] ∧
    ∃ pre r before, log = pre ++ [(ops, r)] ∧ Log TabletStore.Spec.exEnv TabletStore.exS1.tables pre before ∧
      applyRequest TabletStore.Spec.exEnv before ops = .ok (t, r) ∧ r.succeeded = true ∧
      stored before "t" 10 = some (exWrote 10 2 8) ∧ ¬ MCame exTxnH a c1.m (exWrote 10 2 8).uri [7] := by
  have hl : lastB (exLostReqs ++ [exLostOps]) exLostOps2 (exWrote 10 2 8) (exWrote 10 3 9) = true := by decide +kernel
  have h : serialRun exTxnH (exLost1 ++ .progress :: exLost2 ++ .commit 2 :: exLost3 ++ exLost4) exLost5 exLost6 9 3 [(.create 7 "t" [5], 10, some [7])] (fun a c1 b corr ops =>
      settingB [exOther 10 1 "x", Metadata.new 20] 3 (exLostReqs ++ [exLostOps] ++ [exLostOps2]) a c1 b corr ops && rejectedB (a ++ .commit 3 [(corr, ops)] :: b) &&
      (decide (ops = exLostOps2) && (decide (.check 2 (some .succeeded) ∈ a) && (mrequests a c1.m).all (otherBytes (exWrote 10 2 8).uri [7])))) = true := by decide +kernel
  obtain ⟨a, c1, b, c, corr, ops, h1, h2, h3, h4⟩ := serialRun_sound h
  simp only [Bool.and_eq_true, decide_eq_true_eq] at h4
  obtain ⟨⟨h4, h5⟩, rfl, h6, h7⟩ := h4
  obtain ⟨log, t, hr, h8⟩ := settingB_sound h4
  obtain ⟨pre, r, t0, k1, k2, k3, k4, k5, k6⟩ := lastB_sound hl hr
  exact ⟨a, c1, b, c, corr, _, log, t, h1, h3, h8, rejectedB_sound h5, h6, h2, pre, r, t0, k1, k2, k3, k4, k5, otherBytes_came h7⟩

end TCP.Cache.Props
