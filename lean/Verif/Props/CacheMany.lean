import Verif.Proofs.CacheMany
import Verif.Props.CacheSerial
import Verif.Props.Blob

/-!
# C88: what transactions read is what transactions wrote
-/

namespace TCP.Cache.Props

open TCP TCP.Cache TCP.Cache.Spec TCP.TabletStore

section
variable {α η ω : Type} [DecidableEq α] [DecidableEq η] [DecidableEq ω]
variable {ι : Type} {env : TxnEnv α η ω} {senv : TabletStore.Env} {scfg : Bytes} {s0 : State} {log : List (List TabletOp × Response)} {t : Tables} {blank : Bytes}
  {cfg : ι → List (String × UInt32)} {evs : ι → List (MEvent η)} {c : ι → Client α η ω}

/-- In a deployment uris tell tablets apart as far as a manager knows. -/
theorem deployment_differ (hsane : Sane env) (ho : senv.overflowChecks = true) (hw : WFTables s0.tables) (D : Deployment env senv s0 log t blank cfg evs c) {p : ι}
    {a : List (MEvent η)} {c1 : Client α η ω} (hb : MHistory env a c1) (hcfg : Configured (cfg p) a) (hsub : ∀ e ∈ a, e ∈ evs p) (hnew : OneNew c1.m.world.md) :
    UrisDiffer env.data c1.m.world.md := by
  obtain ⟨c0, ins, devs, R, k1, _⟩ := history_gw hsane hb hcfg
  have hprov := feedAll_p k1.wh.fed (started_p k1.wh.started) (sourced_once (D.history p) hsub k1.sourced D.applied hw ho (D.fromLog p) (D.tables p)
    (D.rejected p) (D.once p))
  have hcell : ∀ id res, c1.m.world.md.cells.get id = some res → ∀ m ∈ res.map Prod.snd, m.uri = "" ∨ Named env.data m := by
    intro id res h1 m h2
    obtain ⟨x, h3, rfl⟩ := List.mem_map.mp h2
    exact deployment_named hsane ho hw D (hprov.cells _ _ h1 _ h3)
  by_cases hn : ∃ id res m, c1.m.world.md.cells.get id = some res ∧ m ∈ res.map Prod.snd ∧ m.uri = ""
  · obtain ⟨id0, res0, m0, h1, h2, h3⟩ := hn
    refine C86_differ D.uris (id0 := m0.tabletId) (v0 := m0.version) fun id res h4 m h5 => ?_
    rcases hcell id res h4 m h5 with h6 | h6
    · obtain ⟨h7, h8⟩ := hnew id res id0 res0 h4 h1 m h5 m0 h2 h6 h3
      exact .inr ⟨h6, h7, h8⟩
    · exact .inl h6
  · refine C86_differ D.uris (id0 := 0) (v0 := 0) fun id res h4 m h5 => ?_
    rcases hcell id res h4 m h5 with h6 | h6
    · exact absurd ⟨id, res, m, h4, h5, h6⟩ hn
    · exact .inl h6

/-- Wherever the request of a transaction is in the log with success, whether or not its manager has heard of it, the transaction reads the contents
the store's tablets have just before it, and writes the contents they have just after it: see `C88_values_partial`. -/
theorem C88_commits_partial (hsane : Sane env) (ho : senv.overflowChecks = true) (hs0 : TabletStore.Spec.Reachable senv scfg s0)
    (D : Deployment env senv s0 log t blank cfg evs c) :
    ∃ value : Metadata → Option α, (∀ m, m.uri = "" → value m = env.data.deser blank) ∧
      ∀ p i corr ops a b c1, evs p = a ++ .commit i [(corr, ops)] :: b → MHistory env a c1 → MSteps env c1 (.commit i [(corr, ops)] :: b) (c p) →
        AnswersDiffer (cfg p) a c1.m.world.md → OneNew c1.m.world.md →
        ∀ pre before after, AppliedAt senv s0.tables log ops pre before after →
          (∀ table id v, Read env a c1 i table id v → (stored before table id).bind value = some v) ∧
          (∀ table id v, Wrote env a c1 i table id v → (stored after table id).bind value = some v) := by
  have hw := reachable_wf hs0
  have uniq : ∀ {p q corr corr' k b b' v v'}, .store corr k b ∈ mrequests (evs p) (c p).m → .store corr' k b' ∈ mrequests (evs q) (c q).m →
      env.data.deser b = some v → env.data.deser b' = some v' → v = v' := by
    intro p q corr corr' k b b' v v' h1 h2 h3 h4
    have := D.hashes p q corr corr' k k b b' h1 h2 (C86_immutable D.uris D.uris rfl hsane hsane (D.history p) (D.history q) h1 h2)
    subst this
    rw [h3] at h4
    exact Option.some.inj h4
  have named : ∀ {p corr k b}, .store corr k b ∈ mrequests (evs p) (c p).m → k ≠ "" := by
    rintro p corr k b h1 rfl
    obtain ⟨devs, w⟩ := history_winv hsane (D.history p)
    rw [← requests_lift w.io] at h1
    obtain ⟨i, j, h2, _⟩ := (history_blob w.hist).1 _ _ _ h1
    rw [D.uris] at h2
    exact formatBlobUri_ne h2.symm
  let V : Metadata → α → Prop := fun m v => if m.uri = "" then env.data.deser blank = some v else
    ∃ p corr b, .store corr m.uri b ∈ mrequests (evs p) (c p).m ∧ env.data.deser b = some v
  have hval : ∃ value : Metadata → Option α, ∀ m v, value m = some v ↔ V m v := by
    classical
    refine ⟨fun m => if h : ∃ v, V m v then some h.choose else none, fun m v => ?_⟩
    dsimp only
    constructor
    · intro h
      split at h
      · rename_i hx; rw [← Option.some.inj h]; exact hx.choose_spec
      · cases h
    · intro hv
      have hx : ∃ v, V m v := ⟨v, hv⟩
      rw [dif_pos hx]
      have hx2 := hx.choose_spec
      generalize hx.choose = v2 at hx2
      simp only [V] at hv hx2
      split at hv
      · rename_i he
        rw [if_pos he, hv] at hx2
        exact hx2.symm
      · rename_i he
        rw [if_neg he] at hx2
        obtain ⟨p, corr, b, h1, h2⟩ := hv
        obtain ⟨q, corr', b', h3, h4⟩ := hx2
        rw [uniq h3 h1 h4 h2]
  obtain ⟨value, hval⟩ := hval
  refine ⟨value, fun m hm => ?_, fun p i corr ops a b c1 hev Sbefore Safter Sanswers Snew => ?_⟩
  · have hV : ∀ v, value m = some v ↔ env.data.deser blank = some v := fun v => by rw [hval]; simp only [V, if_pos hm]
    cases hd : env.data.deser blank with
    | some v => exact (hV v).mpr hd
    | none =>
      cases hv : value m with
      | none => rfl
      | some v => rw [hV, hd] at hv; cases hv
  · have hsub : ∀ e ∈ a, e ∈ evs p := fun e he => by rw [hev]; simp [he]
    have hcfg : Configured (cfg p) a := by
      obtain ⟨rest, he, hno⟩ := D.configured p
      rw [hev] at he
      cases a with
      | nil => simp at he
      | cons e a =>
        simp only [List.cons_append, List.cons.injEq] at he
        obtain ⟨rfl, rfl⟩ := he
        exact ⟨a, rfl, fun t ht => hno t (by simp [ht])⟩
    have hdiff : UrisDiffer env.data c1.m.world.md := deployment_differ hsane ho hw D Sbefore hcfg hsub Snew
    have hmono := mrequests_steps hsane Sbefore Safter
    rw [← hev] at hmono
    rintro pre before after ⟨r, post, e1, e2, e3, e4⟩
    have e5 := C85_every_partial hsane Sbefore hcfg Safter ho hs0 D.applied
      (by rw [← hev]; exact D.fromLog p) (by rw [← hev]; exact D.tables p) (by rw [← hev]; exact D.rejected p) (by rw [← hev]; exact D.once p) Sanswers hdiff
      e1 e2 e3 e4
    refine ⟨?_, ?_⟩
    · rintro table id v ⟨x, w, vs, w', sets, j, q, h1, h2, h3, rfl⟩
      obtain ⟨m, k1, k2, _⟩ := e5 x w vs w' sets h1 h2 j q id _ h3
      rw [k1, Option.bind_some, hval]
      rcases k2 v rfl with ⟨corr', bs, l1, l2, l3⟩ | ⟨bs, l1, corr', l2, _⟩
      · have l4 := D.storage p corr' m.uri bs (hmono _ l1) (hsub _ l2)
        simp only [V]
        split at l4
        · rename_i he
          subst l4
          rw [if_pos he]; exact l3
        · rename_i he
          rw [if_neg he]
          obtain ⟨q', corr2, l4⟩ := l4
          exact ⟨q', corr2, bs, l4, l3⟩
      · simp only [V]
        rw [if_neg (named (hmono _ l2))]
        exact ⟨p, corr', bs, hmono _ l2, D.codec _ _ l1⟩
    · rintro table id v ⟨x, w, vs, w', sets, j, q, old, h1, h2, h3, rfl, h4⟩
      obtain ⟨m, _, _, k3⟩ := e5 x w vs w' sets h1 h2 j q id _ h3
      obtain ⟨m', bs, k4, k5, ⟨corr', k6, _⟩, _⟩ := k3 v h4
      rw [k4, Option.bind_some, hval]
      simp only [V]
      rw [if_neg (named (hmono _ k6))]
      exact ⟨p, corr', bs, hmono _ k6, D.codec _ _ k5⟩

/-- Wherever the request of a transaction that succeeds is in the log with success, the transaction reads the contents the store's tablets have
just before it, and writes the contents they have just after it: see `C88_values_partial`. -/
theorem C88_every_partial (hsane : Sane env) (ho : senv.overflowChecks = true) (hs0 : TabletStore.Spec.Reachable senv scfg s0)
    (D : Deployment env senv s0 log t blank cfg evs c) :
    ∃ value : Metadata → Option α, (∀ m, m.uri = "" → value m = env.data.deser blank) ∧
      ∀ p i corr ops a b c1, Succeeded env (cfg p) (evs p) (c p) i corr ops a b c1 →
        ∀ pre before after, AppliedAt senv s0.tables log ops pre before after →
          (∀ table id v, Read env a c1 i table id v → (stored before table id).bind value = some v) ∧
          (∀ table id v, Wrote env a c1 i table id v → (stored after table id).bind value = some v) := by
  obtain ⟨value, h1, h2⟩ := C88_commits_partial hsane ho hs0 D
  exact ⟨value, h1, fun p i corr ops a b c1 S => h2 p i corr ops a b c1 S.events S.before S.after S.answers S.new⟩

/-- Any number of managers work on one tablet store and one blob storage.  Then the contents of tablets are a function of their metadata, blank
for new tablets, such that every transaction that succeeds, of any manager, reads the contents the store's tablets have just before it, and
writes the contents they have just after it, in the order of the store's log.
Missing: as for C85 (see `Deployment` and `Succeeded`). -/
theorem C88_values_partial (hsane : Sane env) (ho : senv.overflowChecks = true) (hs0 : TabletStore.Spec.Reachable senv scfg s0)
    (D : Deployment env senv s0 log t blank cfg evs c) :
    ∃ value : Metadata → Option α, (∀ m, m.uri = "" → value m = env.data.deser blank) ∧
      ∀ p i corr ops a b c1, Succeeded env (cfg p) (evs p) (c p) i corr ops a b c1 →
        ∃ pre before after, AppliedAt senv s0.tables log ops pre before after ∧
          (∀ table id v, Read env a c1 i table id v → (stored before table id).bind value = some v) ∧
          (∀ table id v, Wrote env a c1 i table id v → (stored after table id).bind value = some v) := by
  obtain ⟨value, h1, h2⟩ := C88_every_partial hsane ho hs0 D
  refine ⟨value, h1, fun p i corr ops a b c1 S => ?_⟩
  have hmem : .check i (some .succeeded) ∈ evs p := by rw [S.events]; simp [S.success]
  obtain ⟨corr', ops', k1, k2⟩ := C85_answered (D.history p) hmem (reachable_wf hs0) D.applied (D.fromLog p) (D.tables p)
  have he := (C53_requests (D.history p) (show MEvent.commit i [(corr, ops)] ∈ evs p by rw [S.events]; simp)).2.1 [(corr', ops')] k1
  simp only [List.cons.injEq, Prod.mk.injEq, and_true] at he
  obtain ⟨rfl, rfl⟩ := he
  obtain ⟨r, _, h3, h4⟩ := k2 S.some
  obtain ⟨pre, post, before, after, e1, e2, e3, _⟩ := moment_of_mem D.applied h3
  have hat : AppliedAt senv s0.tables log ops' pre before after := ⟨r, post, e1, e2, e3, h4⟩
  exact ⟨pre, before, after, hat, h2 p i corr' ops' a b c1 S pre before after hat⟩

/-- In particular, a transaction reads what the last one before it wrote: if two transactions succeed, of the same or of different managers, the
first wrote a tablet that the second read, and no request in between updated it, then what was read is what was written; and a tablet that no
request before a transaction updated is blank for it.  (By `C88_values_partial`, `pre` and `pre'` exist.) -/
theorem C88_last_partial (hsane : Sane env) (ho : senv.overflowChecks = true) (hs0 : TabletStore.Spec.Reachable senv scfg s0)
    (D : Deployment env senv s0 log t blank cfg evs c) {p p' : ι} {i i' corr corr' : Nat} {ops ops' : List TabletOp} {a b a' b' : List (MEvent η)} {c1 c1' : Client α η ω}
    (S : Succeeded env (cfg p) (evs p) (c p) i corr ops a b c1) (S' : Succeeded env (cfg p') (evs p') (c p') i' corr' ops' a' b' c1') :
    ∀ pre before after pre' before' after', AppliedAt senv s0.tables log ops pre before after → AppliedAt senv s0.tables log ops' pre' before' after' →
      ∀ table id v, Read env a c1 i table id v → (Untouched pre table id → env.data.deser blank = some v) ∧
        ∀ r' mid, pre = pre' ++ (ops', r') :: mid → Untouched mid table id → ∀ v', Wrote env a' c1' i' table id v' → v = v' := by
  have hw := reachable_wf hs0
  obtain ⟨value, hnew, hall⟩ := C88_every_partial hsane ho hs0 D
  intro pre before after pre' before' after' h1 h3 table id v hr
  have h2 := (hall p i corr ops a b c1 S pre before after h1).1
  have h4 := (hall p' i' corr' ops' a' b' c1' S' pre' before' after' h3).2
  refine ⟨fun hu => ?_, fun r' mid he hu v' hv' => ?_⟩
  · obtain ⟨r, post, e1, e2, _⟩ := h1
    have := h2 table id v hr
    rw [log_untouched ho e2 hw hu] at this
    cases hs : stored s0.tables table id with
    | none => rw [hs] at this; cases this
    | some m =>
      rw [hs, Option.bind_some, hnew m (D.new _ _ _ hs)] at this
      exact this
  · have hr := h2 table id v hr
    have hw' := h4 table id v' hv'
    obtain ⟨r, post, e1, e2, _⟩ := h1
    obtain ⟨r2, post2, f1, f2, f3, f4⟩ := h3
    have hr2 : r' = r2 := by
      rw [he, f1] at e1
      simp only [List.append_assoc, List.cons_append] at e1
      have := List.append_cancel_left e1
      simp only [List.cons.injEq, Prod.mk.injEq, true_and] at this
      exact this.1.symm
    subst hr2
    have e3 : pre = (pre' ++ [(ops', r')]) ++ mid := by simp [he]
    obtain ⟨t1, g1, g2⟩ := e2.split e3
    have : t1 = after' := g1.det (.snoc f2 f3)
    subst this
    rw [log_untouched ho g2 (g1.wf hw) hu, hw'] at hr
    exact (Option.some.inj hr).symm

end

/-! ### Two managers at work -/

/-- As `serialRun`; the property may also depend on the final state. -/
def serialRunC (env : TxnEnv Bytes Nat Unit) (cmds1 cmds2 cmds3 : List (Cmd Nat)) (x i : Nat) (vs : List (Query × UInt32 × Option Bytes))
    (p : List (MEvent Nat) → Client Bytes Nat Unit → List (MEvent Nat) → Nat → List TabletOp → Client Bytes Nat Unit → Bool) : Bool :=
  match execAll env exManager cmds1 with
  | .ok (k, evs1) => match k.m.makeProgress env with
    | .ok m => (match k.m.makeProgress (without env x () i vs) with | .panic => true | .ok _ => false) &&
      match execAll env { k with m := m } cmds2 with
      | .ok (c1, evs2) => match exec env c1 (.commit i) with
        | .ok (c2, .commit j [(corr, ops)]) => decide (j = i) && match execAll env c2 cmds3 with
          | .ok (c, evs3) => p (evs1 ++ .progress :: evs2) c1 evs3 corr ops c
          | .panic => false
        | _ => false
      | .panic => false
    | .panic => false
  | .panic => false

theorem serialRunC_sound {env : TxnEnv Bytes Nat Unit} {cmds1 cmds2 cmds3 : List (Cmd Nat)} {x i : Nat} {vs : List (Query × UInt32 × Option Bytes)}
    {p : List (MEvent Nat) → Client Bytes Nat Unit → List (MEvent Nat) → Nat → List TabletOp → Client Bytes Nat Unit → Bool}
    (h : serialRunC env cmds1 cmds2 cmds3 x i vs p = true) :
    ∃ a c1 b c corr ops, MHistory env a c1 ∧ CalledIn env a c1 x () i vs ∧ MSteps env c1 (.commit i [(corr, ops)] :: b) c ∧ p a c1 b corr ops c = true := by
  unfold serialRunC at h
  split at h
  · rename_i k evs1 he1
    split at h
    · rename_i m hm
      rw [Bool.and_eq_true] at h
      obtain ⟨hp, h⟩ := h
      split at h
      · rename_i c1 evs2 he2
        split at h
        · rename_i c2 j corr ops hc
          rw [Bool.and_eq_true] at h
          obtain ⟨hj, h⟩ := h
          obtain rfl := of_decide_eq_true hj
          split at h
          · rename_i c evs3 he3
            have hh1 : MHistory env evs1 k := ⟨_, _, _, _, execAll_sound he1⟩
            have s1 : MStep env k .progress { k with m := m } := .progress hm
            have s2 := execAll_sound he2
            have s3 := exec_sound hc
            refine ⟨evs1 ++ .progress :: evs2, c1, evs3, c, corr, ops, ?_, ⟨evs1, evs2, k, m, rfl, hh1, ⟨hm, ?_⟩, s2⟩, (MSteps.single s3).append (execAll_sound he3), h⟩
            · obtain ⟨a1, a2, a3, a4, a5⟩ := hh1
              exact ⟨a1, a2, a3, a4, a5.append ((MSteps.single s1).append s2)⟩
            · cases hq : k.m.makeProgress (without env x () j vs) with
              | panic => rfl
              | ok _ => rw [hq] at hp; simp at hp
          · cases h
        · cases h
      · cases h
    · cases h
  · cases h

/-- Transaction 2 of a manager runs handler `x` on tablet 10, given the list of tablets and the contents of tablet 10. -/
def exMany1 (x : Nat) (ts : List Metadata) (b : Bytes) : List (Cmd Nat) := [.init [("t", 0x40000000)], .start, .process 2 [exQuery [5]] x, .progress, .progress, .take,
  .input (.response 201 ⟨true, [exList ts]⟩), .progress, .take, .input (.data (.load 301 .succeeded b))]

def exMany2 : List (Cmd Nat) := [.take, .input (.data (.store 302 .succeeded)), .progress]

def exMany3 (m : Metadata) : List (Cmd Nat) := [.take, .input (.response 101 ⟨true, [⟨"t", .succeeded, some (.update (some m))⟩]⟩), .check 2]

def exFirst : Metadata := ⟨10, 1, false, [], 1, [7], "10_1_Bw"⟩

def exManyReqs : List (List TabletOp) := [exListOps, [exSeven 10 1 "10_1_Bw"], exListOps, [⟨"t", some (.update (some ⟨10, 2, false, [], 1, [8], "10_2_CA"⟩))⟩]]

def isCommitOf (ops : List TabletOp) : MEvent Nat → Bool
  | .commit _ [(_, ops')] => decide (ops' = ops)
  | _ => false

def isLoaded (corr : Nat) (q : Bytes → Bool) : MEvent Nat → Bool
  | .input (.data (.load corr' .succeeded b)) => decide (corr ≠ corr') || q b
  | _ => true

def isStored (k : String) (b : Bytes) : DataOut → Bool
  | .store _ k' b' => decide (k' = k ∧ b' = b)
  | _ => false

def storageB (evs : List (MEvent Nat)) (all : List DataOut) : DataOut → Bool
  | .load corr k => evs.all (isLoaded corr fun b => if k = "" then decide (b = []) else all.any (isStored k b))
  | _ => true

/-- What `Deployment` asks of one manager. -/
def localB (log : List (List TabletOp × Response)) (evs : List (MEvent Nat)) (c : Client Bytes Nat Unit) (all : List DataOut) : Bool :=
  fromLogB evs log && knownB evs TabletStore.exS1.tables && rejectedB evs && onceB evs && initOnce evs && (mrequests evs c.m).all (storageB evs all)

def oneNewB (md : MetaCache) : Bool := md.cells.all fun e => md.cells.all fun e' => e.2.all fun x => e'.2.all fun y =>
  decide (x.2.uri = "" → y.2.uri = "" → x.2.tabletId = y.2.tabletId ∧ x.2.version = y.2.version)

theorem oneNewB_sound {md : MetaCache} (h : oneNewB md = true) : OneNew md := by
  intro id res id' res' h1 h2 m hm m' hm'
  obtain ⟨x, hx, rfl⟩ := List.mem_map.mp hm
  obtain ⟨y, hy, rfl⟩ := List.mem_map.mp hm'
  have := List.all_eq_true.mp (List.all_eq_true.mp h _ (AMap.mem_of_get h1)) _ (AMap.mem_of_get h2)
  exact of_decide_eq_true (List.all_eq_true.mp (List.all_eq_true.mp this _ hx) _ hy)

def writesB (log : List (List TabletOp × Response)) (evs evs' : List (MEvent Nat)) : Bool :=
  log.all fun x => decide (x.1.filterMap updOf = []) || evs.any (isCommitOf x.1) || evs'.any (isCommitOf x.1)

def newB (t : Tables) : Bool := t.all fun x => x.2.all fun y => decide (y.2.uri = "")

theorem newB_sound {t : Tables} (h : newB t = true) {table : String} {id : UInt32} {m : Metadata} (hm : stored t table id = some m) : m.uri = "" := by
  unfold stored at hm
  obtain ⟨x, h1, h2⟩ := Option.bind_eq_some_iff.mp hm
  exact of_decide_eq_true (List.all_eq_true.mp (List.all_eq_true.mp h _ (AMap.mem_of_get h1)) _ (SMap.mem_of_get h2))

theorem isCommitOf_sound {ops : List TabletOp} {evs : List (MEvent Nat)} (h : evs.any (isCommitOf ops) = true) : ∃ i corr, .commit i [(corr, ops)] ∈ evs := by
  obtain ⟨e, h1, h2⟩ := List.any_eq_true.mp h
  unfold isCommitOf at h2
  split at h2
  · rename_i i corr ops'
    obtain rfl := of_decide_eq_true h2
    exact ⟨i, corr, h1⟩
  · cases h2

/-- Non-vacuity of C88: two managers, one of which writes tablet 10, which was new, and the other reads what it wrote, and writes the tablet again. -/
example : ∃ log t, ∃ evs : Bool → List (MEvent Nat), ∃ c : Bool → Client Bytes Nat Unit,
    Deployment exTxnB TabletStore.Spec.exEnv TabletStore.exS1 log t [] (fun _ => [("t", 0x40000000)]) evs c ∧
    ∃ corr ops a b c1 corr' ops' a' b' c1', Succeeded exTxnB [("t", 0x40000000)] (evs true) (c true) 2 corr ops a b c1 ∧
      Succeeded exTxnB [("t", 0x40000000)] (evs false) (c false) 2 corr' ops' a' b' c1' ∧
      Read exTxnB a c1 2 "t" 10 [7] ∧ Wrote exTxnB a' c1' 2 "t" 10 [7] := by
  have h : (match runLog TabletStore.Spec.exEnv TabletStore.exS1.tables exManyReqs with
    | .ok (log, _) =>
      serialRunC exTxnB (exMany1 8 [exFirst, Metadata.new 20] [7]) exMany2 (exMany3 exFirst) 8 2 [(.create 7 "t" [5], 10, some [7])] fun a c1 b corr ops c =>
      serialRunC exTxnB (exMany1 7 [Metadata.new 10, Metadata.new 20] []) exMany2 (exMany3 (Metadata.new 10)) 7 2 [(.create 7 "t" [5], 10, some [])] fun a' c1' b' corr' ops' c' =>
        let evs := a ++ .commit 2 [(corr, ops)] :: b
        let evs' := a' ++ .commit 2 [(corr', ops')] :: b'
        let all := mrequests evs c.m ++ mrequests evs' c'.m
        (localB log evs c all && localB log evs' c' all && writesB log evs evs' && newB TabletStore.exS1.tables) &&
        (decide (.check 2 (some .succeeded) ∈ b) && decide (ops ≠ []) && differB c1.m.world.md && oneNewB c1.m.world.md) &&
        (decide (.check 2 (some .succeeded) ∈ b') && decide (ops' ≠ []) && differB c1'.m.world.md && oneNewB c1'.m.world.md)
    | .panic => false) = true := by decide +kernel
  split at h
  · rename_i log t hl
    have hl := runLog_sound .nil hl
    obtain ⟨a, c1, b, c, corr, ops, h1, h2, h3, h4⟩ := serialRunC_sound h
    obtain ⟨a', c1', b', c', corr', ops', k1, k2, k3, k4⟩ := serialRunC_sound h4
    simp only [Bool.and_eq_true, localB] at k4
    obtain ⟨⟨⟨⟨⟨l1, l2⟩, l3⟩, l4⟩, ⟨⟨m1, m2⟩, m3⟩, m4⟩, ⟨⟨n1, n2⟩, n3⟩, n4⟩ := k4
    obtain ⟨⟨⟨⟨⟨x1, x2⟩, x3⟩, x4⟩, x5⟩, x6⟩ := l1
    obtain ⟨⟨⟨⟨⟨y1, y2⟩, y3⟩, y4⟩, y5⟩, y6⟩ := l2
    have hist : MHistory exTxnB (a ++ .commit 2 [(corr, ops)] :: b) c := by
      obtain ⟨z1, z2, z3, z4, z5⟩ := h1
      exact ⟨z1, z2, z3, z4, z5.append h3⟩
    have hist' : MHistory exTxnB (a' ++ .commit 2 [(corr', ops')] :: b') c' := by
      obtain ⟨z1, z2, z3, z4, z5⟩ := k1
      exact ⟨z1, z2, z3, z4, z5.append k3⟩
    let evs : Bool → List (MEvent Nat) := fun p => if p then a ++ .commit 2 [(corr, ops)] :: b else a' ++ .commit 2 [(corr', ops')] :: b'
    let cs : Bool → Client Bytes Nat Unit := fun p => if p then c else c'
    have all : ∀ {P : Bool → Prop}, P true → P false → ∀ p, P p := fun h1 h2 p => by cases p <;> assumption
    have hst : ∀ p corr k b, .load corr k ∈ mrequests (evs p) (cs p).m → .input (.data (.load corr .succeeded b)) ∈ evs p →
        if k = "" then b = [] else ∃ q corr', .store corr' k b ∈ mrequests (evs q) (cs q).m := by
      intro p corr k b g1 g2
      have g3 : storageB (evs p) (mrequests (evs true) (cs true).m ++ mrequests (evs false) (cs false).m) (.load corr k) = true := by
        cases p
        · exact List.all_eq_true.mp y6 _ g1
        · exact List.all_eq_true.mp x6 _ g1
      have g4 := List.all_eq_true.mp g3 _ g2
      simp only [isLoaded, ne_eq, not_true_eq_false, decide_false, Bool.false_or] at g4
      split at g4
      · rename_i he; rw [if_pos he]; exact of_decide_eq_true g4
      · rename_i he
        rw [if_neg he]
        obtain ⟨o, g5, g6⟩ := List.any_eq_true.mp g4
        cases o with
        | load _ _ => simp [isStored] at g6
        | store corr' k' b' =>
          simp only [isStored, decide_eq_true_eq] at g6
          obtain ⟨rfl, rfl⟩ := g6
          rcases List.mem_append.mp g5 with g5 | g5
          · exact ⟨true, corr', g5⟩
          · exact ⟨false, corr', g5⟩
    refine ⟨log, t, evs, cs, ⟨rfl, all hist hist', all (initOnce_configured x5) (initOnce_configured y5), by simpa using hl, all (fromLogB_sound x1) (fromLogB_sound y1),
      all (knownB_sound x2) (knownB_sound y2), all (rejectedB_sound x3) (rejectedB_sound y3), all (onceB_sound x4) (onceB_sound y4), fun _ _ _ hm => newB_sound l4 hm, ?_, hst,
      fun _ _ _ _ _ _ _ _ _ _ h => h, fun v b h => by cases (show some v = some b from h); rfl⟩, corr, ops, a, b, c1, corr', ops', a', b', c1', ⟨rfl, h1, h3, of_decide_eq_true m1, of_decide_eq_true m2,
      differB_sound m3 _ _, oneNewB_sound m4⟩, ⟨rfl, k1, k3, of_decide_eq_true n1, of_decide_eq_true n2, differB_sound n3 _ _, oneNewB_sound n4⟩,
      ⟨8, (), _, (), [some [8]], 0, _, h2, rfl, rfl, rfl⟩, ⟨7, (), _, (), [some [7]], 0, _, _, k2, rfl, rfl, rfl, rfl⟩⟩
    intro ops2 r hm table m ho
    have := List.all_eq_true.mp l3 _ hm
    simp only [Bool.or_eq_true, decide_eq_true_eq] at this
    rcases this with (g | g) | g
    · have : (table, m) ∈ ops2.filterMap updOf := List.mem_filterMap.mpr ⟨_, ho, rfl⟩
      rw [g] at this; cases this
    · obtain ⟨i, corr2, g⟩ := isCommitOf_sound g; exact ⟨true, i, corr2, g⟩
    · obtain ⟨i, corr2, g⟩ := isCommitOf_sound g; exact ⟨false, i, corr2, g⟩
  · cases h

end TCP.Cache.Props
