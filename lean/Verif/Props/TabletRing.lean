import Verif.Props.TabletStore
import Verif.Spec.TabletRing

/-!
# C111: every key has one responsible tablet, always the same
-/

namespace TCP.TabletStore
open TCP ActorSpec Spec

theorem ring_owner {m : Tablets} (hm : Good m) (hne : m ≠ []) (h : UInt32) : ∃ t, Owns (fun i => SMap.get m i) t h := by
  cases m with
  | nil => exact absurd rfl hne
  | cons e m => exact owner_exists hm (i := e.1) (by rw [SMap.get_of_mem hm.1 (v := e.2) List.mem_cons_self]; simp) h

/-- The responsible tablet depends on the ids in the ring only. -/
theorem owner_id {r r' : Ring} (hi : ∀ i, r i = none ↔ r' i = none) {t t' : Metadata} {h : UInt32} (ho : Owns r t h) (ho' : Owns r' t' h) :
    t'.tabletId = t.tabletId := by
  have ht : r t.tabletId ≠ none := by rw [ho.1]; simp
  have ht' : r' t'.tabletId ≠ none := by rw [ho'.1]; simp
  have ht2 : r' t.tabletId ≠ none := fun e => ht ((hi _).2 e)
  have ht2' : r t'.tabletId ≠ none := fun e => ht' ((hi _).1 e)
  rcases ho.2 with ⟨a, b⟩ | ⟨a, b⟩ <;> rcases ho'.2 with ⟨a', b'⟩ | ⟨a', b'⟩
  · exact UInt32.le_antisymm (b' _ ht2 a) (b _ ht2' a')
  · exact absurd a (UInt32.not_le.2 (a' _ ht2))
  · exact absurd a' (UInt32.not_le.2 (a _ ht2'))
  · exact UInt32.le_antisymm (b' _ ht2) (b _ ht2')

theorem lastUpdate_mem {n : String} {i : UInt32} {ops : List TabletOp} {u : Metadata} (h : lastUpdate n i ops = some u) :
    ∃ o ∈ ops, Updates o n i u := by
  induction ops with
  | nil => simp [lastUpdate] at h
  | cons o ops ih =>
    unfold lastUpdate at h
    split at h
    · cases h
    · rename_i t v rest heq
      obtain ⟨rfl, rfl⟩ := List.cons.inj heq
      split at h
      · rename_i hx
        rw [hx] at ih
        obtain ⟨o, ho, hu⟩ := ih h
        exact ⟨o, List.mem_cons_of_mem _ ho, hu⟩
      · split at h
        · rename_i hc
          cases h
          exact ⟨_, List.mem_cons_self, hc.1, rfl, hc.2⟩
        · cases h
    · rename_i heq
      obtain ⟨rfl, rfl⟩ := List.cons.inj heq
      obtain ⟨o, ho, hu⟩ := ih h
      exact ⟨o, List.mem_cons_of_mem _ ho, hu⟩

/-- No event adds or removes a tablet. -/
theorem next_ids (env : Env) (st : Store) (ev : ActorEvent) (n : String) :
    (st n = none ∧ st.next env ev n = none) ∨
    ∃ r r', st n = some r ∧ st.next env ev n = some r' ∧ ∀ i, r i = none ↔ r' i = none := by
  cases hn : st n with
  | none =>
    refine .inl ⟨rfl, ?_⟩
    unfold Store.next
    cases env.decReq ev.contents with
    | none => exact hn
    | some ops =>
      simp only
      split
      · simp [Store.after, hn]
      · exact hn
  | some r =>
    refine .inr ?_
    unfold Store.next
    cases env.decReq ev.contents with
    | none => exact ⟨r, r, rfl, hn, fun _ => Iff.rfl⟩
    | some ops =>
      simp only
      split
      · rename_i hs
        refine ⟨r, _, rfl, by rw [Store.after, hn, Option.map_some], fun i => ?_⟩
        cases hu : lastUpdate n i ops with
        | none => simp
        | some u =>
          obtain ⟨o, ho, h1, h2, h3⟩ := lastUpdate_mem hu
          obtain ⟨r', hr', hok⟩ := hs o ho
          rw [h1, hn] at hr'
          cases hr'
          rw [h2] at hok
          obtain ⟨t, ht, _⟩ := hok
          rw [h3] at ht
          simp [ht]
      · exact ⟨r, r, rfl, hn, fun _ => Iff.rfl⟩

theorem foldl_ids (env : Env) (evs : List ActorEvent) (st : Store) (n : String) :
    (st n = none ∧ evs.foldl (Store.next env) st n = none) ∨
    ∃ r r', st n = some r ∧ evs.foldl (Store.next env) st n = some r' ∧ ∀ i, r i = none ↔ r' i = none := by
  induction evs generalizing st with
  | nil =>
    cases h : st n with
    | none => exact .inl ⟨rfl, h⟩
    | some r => exact .inr ⟨r, r, rfl, h, fun _ => Iff.rfl⟩
  | cons e evs ih =>
    rcases next_ids env st e n with ⟨a, b⟩ | ⟨r, r1, a, b, c⟩ <;> rcases ih (st.next env e) with ⟨a', b'⟩ | ⟨r2, r', a', b', c'⟩
    · exact .inl ⟨a, b'⟩
    · rw [b] at a'; cases a'
    · rw [b] at a'; cases a'
    · rw [b] at a'; cases a'
      exact .inr ⟨r, r', a, b', fun i => (c i).trans (c' i)⟩

theorem view_good {cfg : Bytes} {env : Env} {s : State} {n : String} {r : Ring} (hr : Reachable env cfg s) (hv : view s n = some r) :
    ∃ m, Good m ∧ r = fun i => SMap.get m i := by
  unfold view at hv
  cases hg : s.tables.get n with
  | none => simp [hg] at hv
  | some m =>
    rw [hg] at hv
    simp at hv
    exact ⟨m, (reachable_wf hr).2 n m hg, hv.symm⟩

/-- In every reachable state every hash has exactly one responsible tablet in every table that has a tablet. -/
theorem C111_owner {env : Env} {cfg : Bytes} {s : State} {n : String} {r : Ring} (hr : Reachable env cfg s) (hv : view s n = some r)
    (hne : ∃ i, r i ≠ none) (h : UInt32) : ∃ t, Owns r t h ∧ ∀ t', Owns r t' h → t' = t := by
  obtain ⟨m, hm, rfl⟩ := view_good hr hv
  obtain ⟨t, ht⟩ := ring_owner hm (by obtain ⟨i, hi⟩ := hne; intro e; rw [e] at hi; exact hi rfl) h
  refine ⟨t, ht, fun t' ht' => ?_⟩
  have hid := owner_id (fun _ => Iff.rfl) ht ht'
  have h1 := ht.1
  have h2 := ht'.1
  rw [hid, h1] at h2
  exact (Option.some.inj h2).symm

/-- Whoever asks for the tablets of a range finds exactly one tablet responsible for each hash in it. -/
theorem C111_listed {env : Env} {cfg : Bytes} {s s' : State} {ctx : ActorCtx} {ec : ActorEventCtx} {ev : ActorEvent}
    {res : Except ActorErr EventOutcome} {n : String} {x y : UInt32} {r : Ring} (hr : Reachable env cfg s)
    (hd : env.decReq ev.contents = some [⟨n, some (.list x y)⟩]) (hv : view s n = some r) (hne : ∃ i, r i ≠ none)
    (h : Step (actor env) s (.apply ctx ec ev res) s') (ho : ec.owned = true) :
    ∃ resp ts, res = .ok ⟨[⟨ev.correlationId, env.encOut .response, env.encResp resp⟩]⟩ ∧
      resp.results = [⟨n, .succeeded, some (.list x y ts)⟩] ∧
      ∀ h, InClosed x y h → ∃ t ∈ ts, Owns r t h ∧ ∀ t', Owns r t' h → t' = t := by
  obtain ⟨resp, h1, h2, _⟩ := C40_atomic hr hd h
  rw [if_pos ho] at h1
  cases hrs : resp.results with
  | nil => rw [hrs] at h2; cases h2
  | cons a rest =>
    rw [hrs] at h2
    cases h2 with
    | cons ha hrest =>
      cases hrest
      obtain ⟨a1, a2, a3⟩ := ha
      rw [hv] at a3
      obtain ⟨ts, b1, _, b2⟩ := a3
      refine ⟨resp, ts, h1, ?_, fun k hk => ?_⟩
      · rw [hrs]
        have : a.status = .succeeded := a2.2 ⟨r, hv, trivial⟩
        obtain ⟨t, st, q⟩ := a
        simp only at a1 b1 this
        rw [a1, b1, this]
      · obtain ⟨t, ht, hu⟩ := C111_owner hr hv hne k
        exact ⟨t, (b2 t).2 ⟨k, hk, ht⟩, ht, hu⟩

/-- The hypotheses are met by a request for the tablets of the hashes 11 to 15, which is answered with tablet 20. -/
example : exEnv.decReq (exEv [exLst 11 15]).contents = some [⟨"t", some (.list 11 15)⟩] ∧
    Step (actor exEnv) exS1 (.apply exCtx ⟨1, true⟩ (exEv [exLst 11 15]) (.ok ⟨[⟨9, exEnv.encOut .response,
      exEnv.encResp ⟨true, [⟨"t", .succeeded, some (.list 11 15 [Metadata.new 20])⟩]⟩⟩]⟩)) exS1 :=
  ⟨exEnv_lawful.req _, apply_of exEnv_lawful exCtx ⟨1, true⟩ 9 rfl (by decide +kernel)⟩

/-- Any two replicas of a cluster at any two times agree on the tables and on which tablet id is responsible for a hash. -/
theorem C111_members {env : Env} (hl : Lawful env) {cfg : Bytes} {b s s' : State} {evs evs' : List ActorEvent}
    (hs : Member env cfg b evs s) (hs' : Member env cfg b evs' s') {n : String} {r : Ring} (hv : view s n = some r) :
    ∃ r', view s' n = some r' ∧ (∀ i, r i = none ↔ r' i = none) ∧
      ∀ t h, Owns r t h → ∃ t', Owns r' t' h ∧ t'.tabletId = t.tabletId := by
  have e := C61_converge hl hs
  have e' := C61_converge hl hs'
  obtain ⟨r', h1, h2⟩ : ∃ r', view s' n = some r' ∧ ∀ i, r i = none ↔ r' i = none := by
    rcases foldl_ids env evs (view b) n with ⟨a, b1⟩ | ⟨r0, r1, a, b1, c⟩
    · rw [e, b1] at hv; cases hv
    · rw [← e, hv] at b1; cases b1
      rcases foldl_ids env evs' (view b) n with ⟨a', _⟩ | ⟨r2, r3, a', b', c'⟩
      · rw [a] at a'; cases a'
      · rw [a] at a'; cases a'
        exact ⟨r3, by rw [e']; exact b', fun i => (c i).symm.trans (c' i)⟩
  refine ⟨r', h1, h2, fun t h ho => ?_⟩
  obtain ⟨t', ht', _⟩ := C111_owner (member_reachable hs') h1 ⟨t.tabletId, fun x => by
    have := (h2 _).2 x
    rw [ho.1] at this; cases this⟩ h
  exact ⟨t', ht', owner_id h2 ho ht'⟩

theorem createTable_ne {l : List UInt32} (hl : l ≠ []) : createTable l ≠ [] := by
  have key : ∀ (l : List UInt32) (m : Tablets), (m ≠ [] ∨ l ≠ []) → l.foldl (fun m i => SMap.insert m i (.new i)) m ≠ [] := by
    intro l
    induction l with
    | nil => intro m h; simpa using h
    | cons i l ih =>
      intro m _
      refine ih _ (.inl fun h => ?_)
      have := SMap.get_insert m i (Metadata.new i) i
      rw [show SMap.insert m i (Metadata.new i) = [] from h, if_pos rfl] at this
      cases this
  exact key l [] (.inr hl)

theorem initTables_ne {env : Env} (hd : Draws env) {n : String} (cs : List (String × Nat)) (s : State)
    (hp : ∀ k, (n, k) ∈ cs → 0 < k) (h : (∃ m, s.tables.get n = some m ∧ m ≠ []) ∨ ∃ k, (n, k) ∈ cs) :
    ∃ m, (initTables env s cs).tables.get n = some m ∧ m ≠ [] := by
  induction cs generalizing s with
  | nil =>
    rcases h with h | ⟨k, hk⟩
    · exact h
    · cases hk
  | cons c cs ih =>
    obtain ⟨x, k⟩ := c
    refine ih _ (fun k hk => hp k (List.mem_cons_of_mem _ hk)) ?_
    by_cases hx : x = n
    · subst hx
      refine .inl ⟨_, by rw [AMap.get_set, if_pos rfl], createTable_ne fun e => ?_⟩
      have h1 := hd s.draws k
      rw [e] at h1
      have := hp k List.mem_cons_self
      simp at h1; omega
    · rcases h with ⟨m, hm, hne⟩ | ⟨k', hk'⟩
      · exact .inl ⟨m, by rw [AMap.get_set, if_neg hx]; exact hm, hne⟩
      · rcases List.mem_cons.1 hk' with e | hk'
        · cases e; exact absurd rfl hx
        · exact .inr ⟨k', hk'⟩

theorem member_boot {env : Env} {cfg : Bytes} {b s : State} {evs : List ActorEvent} (h : Member env cfg b evs s) :
    ∃ s0 ctx, s0.tables = [] ∧ ctx.config = cfg ∧ Started (actor env) s0 ctx b := by
  induction h with
  | boot h0 hc h => exact ⟨_, _, h0, hc, h⟩
  | apply _ _ ih => exact ih
  | command _ _ ih => exact ih
  | save _ _ ih => exact ih
  | load _ _ _ _ ih => exact ih

/-- On every replica of a cluster, at all times, every hash has exactly one responsible tablet in every table that is configured
to have tablets. -/
theorem C111_configured_partial {env : Env} (hl : Lawful env) (hd : Draws env) {cfg : Bytes} {b s : State} {evs : List ActorEvent}
    (hs : Member env cfg b evs s) {cs : List (String × Nat)} (hc : env.decConfig cfg = some cs) {n : String}
    (hp : ∀ k, (n, k) ∈ cs → 0 < k) (hm : ∃ k, (n, k) ∈ cs) (h : UInt32) :
    ∃ r t, view s n = some r ∧ Owns r t h ∧ ∀ t', Owns r t' h → t' = t := by
  obtain ⟨s0, ctx, h0, hcfg, hst⟩ := member_boot hs
  have hb : Member env cfg b [] b := .boot h0 hcfg hst
  obtain ⟨cs', hc', rfl⟩ := started_eq hst
  rw [hcfg, hc] at hc'
  cases hc'
  obtain ⟨m, hg, hne⟩ := initTables_ne hd cs s0 hp (.inr hm)
  have hv : view (initTables env s0 cs) n = some fun i => SMap.get m i := by simp [view, hg]
  obtain ⟨t0, ht0⟩ := ring_owner ((reachable_wf (member_reachable hb)).2 n m hg) hne h
  obtain ⟨r, hr, _, ho⟩ := C111_members hl hb hs hv
  obtain ⟨t1, ht1, _⟩ := ho t0 h ht0
  obtain ⟨t, ht, hu⟩ := C111_owner (member_reachable hs) hr ⟨t1.tabletId, by rw [ht1.1]; simp⟩ h
  exact ⟨r, t, hr, ht, hu⟩

theorem exEnv_draws : Draws exEnv := fun d k => by simp [exEnv]

/-- The hypotheses are met by a cluster that has applied an update: hash 15 belongs to tablet 20 and hash 25 to tablet 10. -/
example : Member exEnv [2] exS1 [exEv [exUpd 10 1, exChk 20 0]] exS2 ∧ (∃ r, view exS2 "t" = some r ∧
    Owns r (Metadata.new 20) 15 ∧ Owns r (exMeta 10 1) 25) := by
  refine ⟨.apply (evs := []) (.boot (s0 := ⟨[], 0⟩) rfl rfl exStarted) exStep2, _, rfl, ?_, ?_⟩
  · refine ⟨by decide +kernel, .inl ⟨by decide, fun i hi h => ?_⟩⟩
    by_cases h10 : i = 10
    · subst h10; exact absurd h (by decide)
    · by_cases h20 : i = 20
      · subst h20; exact UInt32.le_refl _
      · exact absurd (show SMap.get _ i = none by simp [Ne.symm h10, Ne.symm h20]) hi
  · refine ⟨by decide +kernel, .inr ⟨fun i hi => ?_, fun i hi => ?_⟩⟩
    all_goals
      by_cases h10 : i = 10
      · subst h10; decide
      · by_cases h20 : i = 20
        · subst h20; decide
        · exact absurd (show SMap.get _ i = none by simp [Ne.symm h10, Ne.symm h20]) hi

theorem get_createTable (l : List UInt32) (i : UInt32) : SMap.get (createTable l) i ≠ none ↔ i ∈ l := by
  have key : ∀ (l : List UInt32) (m : Tablets),
      SMap.get (l.foldl (fun m i => SMap.insert m i (Metadata.new i)) m) i ≠ none ↔ (i ∈ l ∨ SMap.get m i ≠ none) := by
    intro l
    induction l with
    | nil => intro m; simp
    | cons x l ih =>
      intro m
      rw [List.foldl_cons, ih, SMap.get_insert, List.mem_cons]
      by_cases h : x = i
      · subst h; simp
      · simp [h, Ne.symm h]
  unfold createTable
  simpa using key l []

theorem initTables_get {env : Env} {n : String} (cs : List (String × Nat)) (s : State) (h : ∀ k, (n, k) ∉ cs) :
    (initTables env s cs).tables.get n = s.tables.get n := by
  induction cs generalizing s with
  | nil => rfl
  | cons c cs ih =>
    obtain ⟨x, k⟩ := c
    have hx : x ≠ n := by rintro rfl; exact h k List.mem_cons_self
    have := ih { tables := s.tables.set x (createTable (env.generate s.draws k)), draws := s.draws + 1 }
      (fun k hk => h k (List.mem_cons_of_mem _ hk))
    rw [initTables, this, AMap.get_set, if_neg hx]

theorem initTables_last {env : Env} {n : String} (pre post : List (String × Nat)) (k : Nat) (s : State) (h : ∀ k, (n, k) ∉ post) :
    ∃ d, (initTables env s (pre ++ (n, k) :: post)).tables.get n = some (createTable (env.generate d k)) := by
  induction pre generalizing s with
  | nil => exact ⟨s.draws, by rw [List.nil_append, initTables, initTables_get _ _ h, AMap.get_set, if_pos rfl]⟩
  | cons c pre ih => exact ih _

/-- On every replica of a cluster, at all times, a table has exactly as many tablets as it is configured to have. -/
theorem C111_count {env : Env} (hl : Lawful env) (hd : Draws env) {cfg : Bytes} {b s : State} {evs : List ActorEvent}
    (hs : Member env cfg b evs s) {pre post : List (String × Nat)} {n : String} {k : Nat}
    (hc : env.decConfig cfg = some (pre ++ (n, k) :: post)) (hlast : ∀ k, (n, k) ∉ post) (hk : Distinct env k) :
    ∃ (r : Ring) (ids : List UInt32), view s n = some r ∧ ids.Nodup ∧ ids.length = k ∧ ∀ i, r i ≠ none ↔ i ∈ ids := by
  obtain ⟨s0, ctx, h0, hcfg, hst⟩ := member_boot hs
  have hb : Member env cfg b [] b := .boot h0 hcfg hst
  obtain ⟨cs', hc', rfl⟩ := started_eq hst
  rw [hcfg, hc] at hc'
  cases hc'
  obtain ⟨d, hg⟩ := initTables_last (env := env) pre post k s0 hlast
  have hv : view (initTables env s0 (pre ++ (n, k) :: post)) n = some fun i => SMap.get (createTable (env.generate d k)) i := by
    simp [view, hg]
  obtain ⟨r, hr, hi, _⟩ := C111_members hl hb hs hv
  exact ⟨r, env.generate d k, hr, hk d, hd d k, fun i => by rw [← get_createTable]; exact not_congr (hi i).symm⟩

/-- The configuration of the example meets the hypotheses. -/
example : exEnv.decConfig [2] = some ([] ++ ("t", 2) :: []) ∧ Distinct exEnv 2 := by
  refine ⟨rfl, fun d => ?_⟩
  have h : UInt32.ofNat (d + 10) ≠ UInt32.ofNat (d + 20) := by
    intro h
    have := congrArg UInt32.toNat h
    simp only [UInt32.toNat_ofNat'] at this
    omega
  simpa [exEnv, List.range, List.range.loop] using h

/-- A table may be configured with no tablets. It exists, but no tablet is responsible for any of its keys, ever. -/
theorem C111_empty_fails : ∃ (cfg : Bytes) (b : State), Member exEnv cfg b [] b ∧ ∀ evs s, Member exEnv cfg b evs s →
    ∃ r, view s "t" = some r ∧ ∀ t h, ¬ Owns r t h := by
  have hb : Member exEnv [0] (initTables exEnv ⟨[], 0⟩ [("t", 0)]) [] (initTables exEnv ⟨[], 0⟩ [("t", 0)]) :=
    .boot (s0 := ⟨[], 0⟩) (ctx := ⟨1, 0, [0], true⟩) rfl rfl rfl
  refine ⟨[0], _, hb, fun evs s hs => ?_⟩
  obtain ⟨r, hr, hi, _⟩ := C111_members exEnv_lawful hb hs (n := "t") (r := fun _ => none) rfl
  refine ⟨r, hr, fun t h ho => ?_⟩
  have := (hi t.tabletId).1 rfl
  rw [ho.1] at this
  cases this

end TCP.TabletStore
