import Verif.Proofs.CacheResolve

/-!
# Properties of whole resolve requests (C82)

A request is split into parts, one per region and query (C46).  The theorems are about requests whose parts are about different regions;
`C82_twice_fails` and `C48_same_region_fails` show what happens otherwise.
-/

namespace TCP.Cache.Props

open TCP TCP.Cache TCP.Cache.Spec TCP.TabletStore TCP.TabletStore.Spec

variable {cfg : List (String × UInt32)} {c0 c : MetaCache} {ins : List Input} {k : Nat} {n : Notification} {qs : List Query}

theorem split_exists (hf : feedAll c0 ins = .ok c) (hk : (requestsOf ins)[k]? = some (n, qs)) : ∃ parts, splitAll c.tables qs = .ok parts := by
  generalize hm : ins.length = m
  induction m generalizing ins c with
  | zero =>
    obtain rfl := List.length_eq_zero_iff.mp hm
    simp [requestsOf] at hk
  | succ m ih =>
    have hne : ins ≠ [] := by rintro rfl; simp at hm
    rw [← List.dropLast_concat_getLast hne] at hf hk
    obtain ⟨c1, k1, k2⟩ := feedAll_snoc_inv hf
    rw [(feed_evolves k2).splitAll]
    rw [requestsOf_append, List.getElem?_append] at hk
    split at hk
    · exact ih k1 hk (by simp [hm])
    · generalize hi : ins.getLast hne = i at hk k2
      cases i with
      | resolve n' qs' =>
        have he : (requestsOf [Input.resolve n' qs']) = [(n', qs')] := rfl
        rw [he] at hk
        have h0 := (List.getElem?_eq_some_iff.mp hk).1
        simp only [List.length_singleton] at h0
        have : k - (requestsOf ins.dropLast).length = 0 := by omega
        rw [this] at hk
        simp only [List.getElem?_cons_zero, Option.some.injEq, Prod.mk.injEq] at hk
        obtain ⟨rfl, rfl⟩ := hk
        obtain ⟨parts, h1, _⟩ := Run.bind_eq_ok.mp k2
        exact ⟨parts, h1⟩
      | progress => simp [requestsOf] at hk
      | update t m b => simp [requestsOf] at hk
      | list rs => simp [requestsOf] at hk
      | take => simp [requestsOf] at hk

/-- After any history, every request has been answered exactly once or not at all.  If it has not, it waits for the region of one of its
parts.  If it has, it waits for none, and the answer says, about every hash at most once, exactly what the regions of its parts said at moments when
they were known. -/
theorem C82_answer_partial (h0 : Started cfg c0) (hf : feedAll c0 ins = .ok c) (hk : (requestsOf ins)[k]? = some (n, qs)) :
    ∃ parts, splitAll c.tables qs = .ok parts ∧ ((parts.map keyOf).Nodup →
      (answersTo c n (requestId k) = [] ∧ ∃ p ∈ parts, Awaited c p (requestId k)) ∨
      ((∀ p ∈ parts, ¬ Awaited c p (requestId k)) ∧
        ∃ (answer : List Place) (res : Query × Nat → List (Query × Metadata)), answersTo c n (requestId k) = [answer] ∧ answer.Nodup ∧ (∀ p ∈ parts, ResolvedAt c0 ins p (res p)) ∧
          ∀ x, x ∈ answer ↔ ∃ p ∈ parts, x ∈ placed (res p))) := by
  obtain ⟨parts, hs⟩ := split_exists hf hk
  refine ⟨parts, hs, fun hn => ?_⟩
  obtain ⟨r, res, ht⟩ := (resolve_history_inv h0 hf).tracked k n qs parts hk hs hn
  by_cases hp : r.pending = []
  · right
    obtain ⟨pl, a1, a2, a3⟩ := ht.answered hp
    refine ⟨fun p _ hw => ?_, pl, res, a1, a2, fun p hp' => ht.acc.done p hp' (by rw [hp]; rfl), a3⟩
    have hc := ht.cnt (keyOf p)
    simp only [List.count_nil, ite_self, Nat.add_zero, pendingCount, hp, AMap.get_nil, Option.isSome_none, Bool.false_eq_true, if_false] at hc
    have := List.count_pos_iff.mpr (mem_waiting.mp hw)
    omega
  · left
    refine ⟨(ht.waits hp).1, ?_⟩
    have hex : ∃ key q, r.pending.get key = some q := by
      cases hm : r.pending with
      | nil => exact absurd hm hp
      | cons e m => exact ⟨e.1, e.2, by simp [AMap.get]⟩
    obtain ⟨key, q, hq⟩ := hex
    obtain ⟨p1, p2⟩ := ht.acc.pend key q hq
    refine ⟨(q, key.2), p2, mem_waiting.mpr ?_⟩
    have hke : keyOf (q, key.2) = key := by simp [keyOf, ← p1]
    rw [hke]
    have hc := ht.cnt key
    simp only [List.count_nil, ite_self, Nat.add_zero, pendingCount, hq, Option.isSome_some, if_true] at hc
    exact List.count_pos_iff.mp (by omega)

/-- When the cache has made progress, a region a request waits for has been asked for, with its exact bounds, and no result about it has
arrived since.  `Awaited` regions that nobody listed are never forgotten. -/
theorem C82_asked_partial (h0 : Started cfg c0) (hf : feedAll c0 (ins ++ [.progress]) = .ok c) {p : Query × Nat} {id : Nat} (hw : Awaited c p id) :
    ∃ t, c.tables.get p.1.table = some t ∧ Asked c0 (ins ++ [.progress]) p.1.table t.size p.2 := by
  obtain ⟨t, reqs, b, ids, h1, h2, h3⟩ := hw
  refine ⟨t, h1, asked_inv h0 hf _ t _ h1 ?_⟩
  obtain ⟨c1, k1, k2⟩ := feedAll_snoc_inv hf
  have hreg := progress_region k2 (p.1.table, p.2)
  have : regionOf c.tables (p.1.table, p.2) = some ⟨.stale reqs b, ids⟩ := by simp [regionOf, h1, h2]
  rw [this] at hreg
  cases hr : regionOf c1.tables (p.1.table, p.2) with
  | none => simp [hr] at hreg
  | some r =>
    rw [hr] at hreg
    simp only [Option.map_some, Option.some.injEq] at hreg
    cases b with
    | true => exact ⟨reqs, ids, this⟩
    | false =>
      exfalso
      have ha := maybePrepare_again r
      rw [← hreg] at ha
      unfold Region.maybePrepare at ha
      have hne : reqs ≠ [] := by rintro rfl; simp at h3
      simp [hne] at ha

/-- Once every region a request asks about has been listed after the request was made, the request has been answered. -/
theorem C82_listed_partial (h0 : Started cfg c0) (hf : feedAll c0 ins = .ok c) (hk : (requestsOf ins)[k]? = some (n, qs))
    {parts : List (Query × Nat)} (hs : splitAll c.tables qs = .ok parts) (hn : (parts.map keyOf).Nodup) {more : List Input} {c' : MetaCache}
    (hm : feedAll c more = .ok c')
    (hl : ∀ p ∈ parts, ∃ rs, .list rs ∈ more ∧ ∃ x ∈ rs, ∃ t, c.tables.get p.1.table = some t ∧ About p.1.table t.size p.2 x ∧ x.status = .succeeded) :
    ∃ answer, answersTo c' n (requestId k) = [answer] := by
  -- the request is not awaiting a region that was listed
  have key : ∀ {more : List Input} {c1 : MetaCache}, feedAll c1 more = .ok c' → requestId k ≤ c1.resolveCounter →
      (∀ p, Awaited c' p (requestId k) → Awaited c1 p (requestId k)) ∧
      ∀ p rs x t, .list rs ∈ more → x ∈ rs → c1.tables.get p.1.table = some t → About p.1.table t.size p.2 x → x.status = .succeeded →
        ¬ Awaited c' p (requestId k) := by
    intro more
    induction more with
    | nil =>
      intro c1 h _
      simp only [feedAll, Run.ok.injEq] at h
      subst h
      exact ⟨fun _ h => h, by simp⟩
    | cons i more ih =>
      intro c1 h hid
      obtain ⟨c2, g1, g2⟩ := Run.bind_eq_ok.mp h
      have hcnt : c1.resolveCounter ≤ c2.resolveCounter := by
        cases i with
        | progress =>
          obtain ⟨x, _, e⟩ := Run.bind_eq_ok.mp g1
          simp only [Run.ok.injEq] at e
          subst e
          split <;> exact Nat.le_refl _
        | resolve n qs =>
          obtain ⟨_, _, e⟩ := Run.bind_eq_ok.mp g1
          obtain ⟨_, _, e⟩ := Run.bind_eq_ok.mp e
          obtain ⟨y, e1, e⟩ := Run.bind_eq_ok.mp e
          simp only [Run.ok.injEq] at e
          subst e
          have := (maybeResolve_frame (c' := y.1) (r' := y.2) e1).2.2.1
          simp only at this ⊢
          omega
        | update t m b =>
          simp only [feed, MetaCache.updateTablet] at g1
          split at g1
          · obtain ⟨_, _, e⟩ := Run.bind_eq_ok.mp g1
            simp only [Run.ok.injEq] at e
            subst e; exact Nat.le_refl _
          · simp only [Run.ok.injEq] at g1; subst g1; exact Nat.le_refl _
        | list rs => rw [processIn_counter g1]; exact Nat.le_refl _
        | take => simp only [feed, Run.ok.injEq] at g1; subst g1; exact Nat.le_refl _
      obtain ⟨i1, i2⟩ := ih g2 (Nat.le_trans hid hcnt)
      refine ⟨fun p hp => mem_waiting.mpr (feed_waiting g1 _ hid (mem_waiting.mp (i1 p hp))), fun p rs x t hrs hx ht ha hst hw => ?_⟩
      rcases List.mem_cons.mp hrs with rfl | hrs
      · have := (processIn_waiting g1 (keyOf p)).2 t ht x hx ha hst
        have hw2 := mem_waiting.mp (i1 p hw)
        rw [this] at hw2
        simp at hw2
      · obtain ⟨t2, e1, e2, _⟩ := (feed_evolves g1 p.1.table).2 t ht
        exact i2 p rs x t2 hrs hx e1 (by rw [e2]; exact ha) hst hw
  have hall : feedAll c0 (ins ++ more) = .ok c' := feedAll_append hf hm
  have hk' : (requestsOf (ins ++ more))[k]? = some (n, qs) := by
    rw [requestsOf_append, List.getElem?_append_left (List.getElem?_eq_some_iff.mp hk).1]; exact hk
  obtain ⟨parts', hs', h⟩ := C82_answer_partial h0 hall hk'
  rw [(feedAll_evolves hm).splitAll, hs] at hs'
  simp only [Run.ok.injEq] at hs'
  subst hs'
  rcases h hn with ⟨_, p, hp, hw⟩ | ⟨_, answer, _, ha, _⟩
  · obtain ⟨rs, hrs, x, hx, t, ht, hab, hst⟩ := hl p hp
    have hid : requestId k ≤ c.resolveCounter := by
      rw [(resolve_history_inv h0 hf).counter]
      have := (List.getElem?_eq_some_iff.mp hk).1
      unfold requestId
      omega
    exact absurd hw ((key hm hid).2 p rs x t hrs hx ht hab hst)
  · exact ⟨answer, ha⟩

/-- The claim that every request is answered is false: a region is asked for once.  If the message or its response is lost, no progress
ever asks again, whatever is waiting. -/
theorem C82_silent_fails {c1 : MetaCache} (h : feed c .progress = .ok c1) (m : Nat) :
    feedAll c1.takeOut.1 (List.replicate m .progress) = .ok c1.takeOut.1 := by
  obtain ⟨⟨x1, x2⟩, h1, h2⟩ := Run.bind_eq_ok.mp h
  simp only [Run.ok.injEq] at h2
  have ht : c1.tables = x1 := by subst h2; split <;> rfl
  have hp : feed c1.takeOut.1 .progress = .ok c1.takeOut.1 := by
    simp only [feed, MetaCache.makeProgress, MetaCache.takeOut, ht, prepareAll_again h1, Run.bind_ok, if_true]
  induction m with
  | zero => rfl
  | succ m ih => simp only [List.replicate_succ, feedAll, hp, Run.bind_ok, ih]

/-- The claim is false: a request with a handler and two queries for hashes in the same region calls the handler twice, and neither call
says anything about the hash of the first query. -/
theorem C82_twice_fails : ∃ c0 ins c a b, Started [("t", 0x40000000)] c0 ∧ feedAll c0 ins = .ok c ∧
    requestsOf ins = [(.handler, [exQuery [5], .create 8 "t" [6]])] ∧ answersTo c .handler 2 = [a, b] ∧ ∀ i, ("t", i, 5) ∉ a ++ b := by
  have h : ∃ c0 c, (MetaCache.create 0).init [("t", 0x40000000)] = .ok c0 ∧
    feedAll c0 [.resolve .handler [exQuery [5], .create 8 "t" [6]], .progress, .list [exList [exTablet 10 1]]] = .ok c ∧
    answersTo c .handler 2 = [[("t", 10, 6)], []] := ⟨_, _, rfl, rfl, by decide⟩
  obtain ⟨c0, c, h1, h2, h3⟩ := h
  exact ⟨c0, _, c, _, _, ⟨0, h1⟩, h2, rfl, h3, by simp⟩

/-- A request about two regions: asked for, half answered by the first response, answered by the second. -/
example : ∃ c0 c1 c2 c, Started [("t", 0x40000000)] c0 ∧
    feedAll c0 [.resolve .source [exQuery [5, 0x40000007]], .progress] = .ok c1 ∧
    splitAll c1.tables [exQuery [5, 0x40000007]] = .ok [(exQuery [5], 0), (exQuery [0x40000007], 1)] ∧
    feedAll c1 [.list [exList [exTablet 10 1]]] = .ok c2 ∧ answersTo c2 .source 2 = [] ∧ Awaited c2 (exQuery [0x40000007], 1) 2 ∧
    feedAll c2 [.list [⟨"t", .succeeded, some (.list 0x40000000 0x7fffffff [exTablet 0x50000000 1])⟩]] = .ok c ∧
    answersTo c .source 2 = [[("t", 10, 5), ("t", 0x50000000, 0x40000007)]] :=
  ⟨_, _, _, _, ⟨0, rfl⟩, rfl, rfl, rfl, rfl, ⟨_, _, _, _, rfl, rfl, by decide⟩, rfl, by decide⟩

end TCP.Cache.Props
