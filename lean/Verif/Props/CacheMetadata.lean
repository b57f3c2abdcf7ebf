import Verif.Proofs.CacheMetadata
import Verif.Spec.CacheMetadata

/-!
# Properties of the tablet metadata cache (C46–C49)
-/

namespace TCP.Cache.Props

open TCP TCP.Cache TCP.Cache.Spec TCP.TabletStore TCP.TabletStore.Spec

/-- A query for the given hashes of table `t`. -/
def exQuery (hs : List UInt32) : Query := .create 7 "t" hs

/-- A successful list result for the region starting at 0. -/
def exList (ts : List Metadata) : TabletOpResult := ⟨"t", .succeeded, some (.list 0 0x3fffffff ts)⟩

/-- Metadata of tablet `i` at version `v`. -/
def exTablet (i v : UInt32) : Metadata := { Metadata.new i with version := v }

/-- A cache of table `t` in three regions, fed some inputs. -/
def exRun (ins : List Input) : Run MetaCache := ((MetaCache.create 0).init [("t", 0x40000000)]).bind fun c => feedAll c ins

theorem exRun_reaches {ins : List Input} {c : MetaCache} (h : exRun ins = .ok c) : Reaches [("t", 0x40000000)] ins c := by
  obtain ⟨c0, h1, h2⟩ := Run.bind_eq_ok.mp h
  exact ⟨0, c0, h1, h2⟩

/-! ## C46 -/

/-- Splitting a query over the regions keeps every hash, exactly once and in order, puts every hash in the part of the region
containing it, and makes one part per region touched.  It does not crash, in particular no arithmetic overflows. -/
theorem C46_split {size : UInt32} (hz : size ≠ 0) {q : Query} (hq : QueryOk q) :
    ∃ parts, split size q = .ok parts ∧
      parts.flatMap (fun p => p.1.hashes) = q.hashes ∧
      (∀ p ∈ parts, p.1.id = q.id ∧ p.1.table = q.table ∧ p.1.hashes ≠ [] ∧ ∀ h ∈ p.1.hashes, region size h = p.2) ∧
      parts.Pairwise (fun a b => a.2 < b.2) := by
  obtain ⟨parts, n, h1, h2, h3⟩ := split_ok hz hq
  exact ⟨parts, h1, h3, h2.same, h2.asc⟩

theorem pairwise_lt_inj {α : Type _} {f : α → Nat} : ∀ {l : List α}, l.Pairwise (fun a b => f a < f b) →
    ∀ {a b : α}, a ∈ l → b ∈ l → f a = f b → a = b
  | [], _, _, _, ha, _, _ => by simp at ha
  | x :: l, h, a, b, ha, hb, he => by
      obtain ⟨hx, hl⟩ := List.pairwise_cons.mp h
      rcases List.mem_cons.mp ha with rfl | ha'
      · rcases List.mem_cons.mp hb with rfl | hb'
        · rfl
        · have := hx _ hb'; omega
      · rcases List.mem_cons.mp hb with rfl | hb'
        · have := hx _ ha'; omega
        · exact pairwise_lt_inj hl ha' hb' he

/-- The query for any list of hashes, in any order and with repetitions, is split: every hash asked for is in exactly one part,
once, and nothing else is in any part. -/
theorem C46_asked {size : UInt32} (hz : size ≠ 0) (id : Nat) (table : String) (hashes : List UInt32) :
    ∃ parts, split size (.create id table hashes) = .ok parts ∧
      (∀ h, (parts.flatMap fun p => p.1.hashes).count h = if h ∈ hashes then 1 else 0) ∧
      (∀ h ∈ hashes, ∃ p ∈ parts, h ∈ p.1.hashes ∧ ∀ p' ∈ parts, h ∈ p'.1.hashes → p' = p) := by
  have hq : QueryOk (.create id table hashes) := asc_setOf hashes
  obtain ⟨parts, h1, h2, h3, h4⟩ := C46_split hz hq
  refine ⟨parts, h1, fun h => ?_, fun h hh => ?_⟩
  · rw [h2]
    have hn : (Query.create id table hashes).hashes.Nodup :=
      List.Pairwise.imp (fun hab => by intro e; subst e; exact absurd hab (UInt32.lt_irrefl _)) hq
    rw [hn.count]
    simp [Query.create, mem_setOf]
  · have hm : h ∈ parts.flatMap fun p => p.1.hashes := by rw [h2]; simpa [Query.create, mem_setOf] using hh
    obtain ⟨p, hp, hhp⟩ := List.mem_flatMap.mp hm
    refine ⟨p, hp, hhp, fun p' hp' hh' => ?_⟩
    have he : p'.2 = p.2 := ((h3 p' hp').2.2.2 h hh').symm.trans ((h3 p hp).2.2.2 h hhp)
    exact pairwise_lt_inj h4 hp' hp he

/-- The bounds of a region are computed without overflow, and delimit the hashes of the region. -/
theorem C46_bounds {size : UInt32} (hz : size ≠ 0) {h0 : UInt32} :
    ∃ lo hi, regionBounds size (region size h0) = .ok (lo, hi) ∧ hi ≤ 0xffffffff ∧
      ∀ h : UInt32, region size h = region size h0 ↔ lo ≤ h.toNat ∧ h.toNat ≤ hi := by
  have hle : region size h0 * size.toNat ≤ h0.toNat := Nat.div_mul_le_self _ _
  have hp := size_pos hz
  refine ⟨_, _, regionBounds_ok hz (Nat.le_trans hle (toNat_le h0)), Nat.min_le_right _ _, fun h => ?_⟩
  have hm := toNat_le h
  simp only [region]
  constructor
  · intro he
    have h1 : h.toNat / size.toNat * size.toNat ≤ h.toNat := Nat.div_mul_le_self _ _
    have h2 : h.toNat < (h.toNat / size.toNat + 1) * size.toNat := Nat.lt_mul_of_div_lt (by omega) hp
    rw [he] at h1 h2
    rw [Nat.add_mul, Nat.one_mul] at h2
    refine ⟨h1, ?_⟩
    rw [Nat.le_min]
    omega
  · rintro ⟨h1, h2⟩
    rw [Nat.le_min] at h2
    apply Nat.div_eq_of_lt_le h1
    rw [Nat.add_mul, Nat.one_mul]
    omega

/-- A query over four regions, touching the first, second and last one. -/
example : QueryOk (exQuery [0xffffffff, 5, 0x40000000, 0x3fffffff]) ∧
    split 0x40000000 (exQuery [0xffffffff, 5, 0x40000000, 0x3fffffff]) =
      .ok [(exQuery [5, 0x3fffffff], 0), (exQuery [0x40000000], 1), (exQuery [0xffffffff], 3)] := by
  unfold QueryOk; decide +kernel

/-- The last region of a ring cut into pieces of three ends with the ring. -/
example : regionBounds 3 1431655765 = .ok (4294967295, 4294967295) ∧ regionBounds 3 7 = .ok (21, 23) := by decide

/-! ## C47 -/

/-- The claim is false: whatever the region size, the last hash of the ring has no region in the cache, and resolving any
query containing a hash without region crashes. -/
theorem C47_last_fails {cfg : List (String × UInt32)} {ins : List Input} {c : MetaCache} (hr : Reaches cfg ins c) {n : String} {t : Table}
    (ht : c.tables.get n = some t) :
    t.regions.get (region t.size 0xffffffff) = none ∧
    ∀ (k : Notification) (qs : List Query) (q : Query), q ∈ qs → QueryOk q → q.table = n →
      (∃ h ∈ q.hashes, t.regions.get (region t.size h) = none) → feed c (.resolve k qs) = .panic := by
  have hi := (reaches_inv hr).1
  have hinv := (hi n t ht).1
  refine ⟨?_, ?_⟩
  · cases hg : t.regions.get (region t.size 0xffffffff) with
    | none => rfl
    | some r =>
      have := (hinv.regions _).mp (by rw [hg]; rfl)
      simp only [Kept, region] at this
      exact absurd this (Nat.lt_irrefl _)
  · rintro k qs q hq ha rfl ⟨h, hh, hn⟩
    exact resolve_panics hi hq ha ht hh (fun hk => by have := (hinv.regions _).mpr hk; simp [hn] at this)

/-- Part of the claim: exactly the hashes below the last full multiple of the region size that leaves room for the last hash
have a region.  Missing: the hashes from there to the end of the ring (at least one, at most twice the region size). -/
theorem C47_partial {cfg : List (String × UInt32)} {ins : List Input} {c : MetaCache} (hr : Reaches cfg ins c) {n : String} {t : Table}
    (ht : c.tables.get n = some t) (h : UInt32) :
    (t.regions.get (region t.size h)).isSome ↔ h.toNat < 0xffffffff / t.size.toNat * t.size.toNat := by
  have hinv := ((reaches_inv hr).1 n t ht).1
  rw [hinv.regions]
  exact Nat.div_lt_iff_lt_mul (size_pos hinv.size)

/-- A table in three regions; resolving the last hash crashes, resolving another one does not. -/
example : ∃ c t, Reaches [("t", 0x40000000)] [] c ∧ c.tables.get "t" = some t ∧ (t.regions.get (region t.size 0xbfffffff)).isSome ∧
    t.regions.get (region t.size 0xc0000000) = none ∧ feed c (.resolve .source [exQuery [3, 0xc0000000]]) = .panic ∧
    feed c (.resolve .source [exQuery [3, 0xbfffffff]]) ≠ .panic := by
  have h : ∃ c, exRun [] = .ok c ∧ ∃ t, c.tables.get "t" = some t ∧ (t.regions.get (region t.size 0xbfffffff)).isSome ∧
    t.regions.get (region t.size 0xc0000000) = none ∧ feed c (.resolve .source [exQuery [3, 0xc0000000]]) = .panic ∧
    feed c (.resolve .source [exQuery [3, 0xbfffffff]]) ≠ .panic := ⟨_, rfl, _, rfl, by decide, by decide, by decide, by decide⟩
  obtain ⟨c, h1, t, h2, h3⟩ := h
  exact ⟨c, t, exRun_reaches h1, h2, h3⟩

/-! ## C48 -/

/-- The claim is false for every fresh region: if any hash of the query lies after the first tablet of the region, some
hash of the query is missing from the result. -/
theorem C48_drop_fails {cfg : List (String × UInt32)} {ins : List Input} {c : MetaCache} (hr : Reaches cfg ins c) {n : String} {t : Table}
    (ht : c.tables.get n = some t) {idx : Nat} {r : Region} (hg : t.regions.get idx = some r) {first : UInt32} {ids : List UInt32}
    (hf : r.freshIds = some (first :: ids)) {q : Query} (hq : QueryOk q) (hx : ∃ h ∈ q.hashes, h > first) :
    ∃ res, t.tryResolve idx q = .ok (some res) ∧ ∃ h ∈ q.hashes, occurrences res h = 0 := by
  have hinv := ((reaches_inv hr).1 n t ht).1
  have hasc := (hinv.fresh idx r hg _ hf).1
  have hcur : Cursor (first :: ids) 1 first [] q.hashes := by
    refine ⟨by simp, by simp, .inl ⟨by omega, rfl, fun j hj hlt => ?_⟩⟩
    rcases List.mem_cons.mp hj with rfl | hj
    · simp [UInt32.lt_iff_toNat_lt] at hlt
    · have := (List.pairwise_cons.mp hasc).1 j hj
      simp only [UInt32.lt_iff_toNat_lt] at this hlt
      omega
  obtain ⟨res, h1, h2, h3, h4, _⟩ := mergeLoop_ok hasc (hinv.known hg hf) q [] (by simpa [QueryOk] using hq) hcur
  refine ⟨res, by simp [Table.tryResolve, hg, hf, Run.unwrap, h1], ?_⟩
  have hlt := h4 hx
  simp only [List.nil_append] at h3 hlt
  refine Classical.byContradiction fun hne => ?_
  have hsub : ∀ h ∈ q.hashes, h ∈ res.flatMap (fun p => p.1.hashes) := by
    intro h hh
    refine Classical.byContradiction fun hm => hne ⟨h, hh, List.count_eq_zero_of_not_mem hm⟩
  have hnd : q.hashes.Nodup := hq.imp (fun hab => by rintro rfl; simp [UInt32.lt_iff_toNat_lt] at hab)
  rw [sublist_all h3 hnd hsub] at hlt
  omega

/-- A history in which it happens: tablets 10 and 20 are listed, hash 15 belongs to tablet 20 and is not in the result. -/
theorem C48_history_fails : ∃ ins c res, Reaches [("t", 0x40000000)] ins c ∧ c.cells.get 2 = some res ∧
    ins.head? = some (.resolve .source [exQuery [5, 15]]) ∧ occurrences res 5 = 1 ∧ occurrences res 15 = 0 := by
  have h : ∃ c, exRun [.resolve .source [exQuery [5, 15]], .progress, .take, .list [exList [exTablet 10 1, exTablet 20 1]]] = .ok c ∧
    ∃ res, c.cells.get 2 = some res ∧ occurrences res 5 = 1 ∧ occurrences res 15 = 0 := ⟨_, rfl, _, rfl, by decide, by decide⟩
  obtain ⟨c, h1, res, h2, h3, h4⟩ := h
  exact ⟨_, c, res, exRun_reaches h1, h2, rfl, h3, h4⟩

/-- A list response without tablets, for a region somebody waits for, crashes the cache. -/
theorem C48_empty_fails : exRun [.resolve .source [exQuery [5]], .progress, .list [exList []]] = .panic ∧
    exRun [.resolve .source [exQuery [5]], .progress] ≠ .panic := by decide

/-- Two queries of one request for hashes in the same region not cached yet: only the second is remembered, and the list
response crashes the cache. -/
theorem C48_same_region_fails :
    exRun [.resolve .source [exQuery [5], .create 8 "t" [6]], .progress, .list [exList [exTablet 10 1]]] = .panic ∧
    ∃ c, exRun [.resolve .source [exQuery [5], .create 8 "t" [6]]] = .ok c ∧
      (c.resolves.get 2).map (fun r => r.pending.map Prod.snd) = some [.create 8 "t" [6]] := ⟨by decide, _, rfl, by decide⟩

/-- Part of the claim: no hash is returned twice or invented, and every returned hash comes with the latest cached metadata of
the tablet owning it, if the region agrees with the ring of the tablet store.  All hashes are returned if none lies after
the first tablet of the region.  Missing: the hashes dropped otherwise. -/
theorem C48_sound_partial {cfg : List (String × UInt32)} {ins : List Input} {c : MetaCache} (hr : Reaches cfg ins c) {n : String}
    {t : Table} (ht : c.tables.get n = some t) {idx : Nat} {r : Region} (hg : t.regions.get idx = some r) {first : UInt32}
    {ids : List UInt32} (hf : r.freshIds = some (first :: ids)) {q : Query} (hq : QueryOk q) :
    ∃ res, t.tryResolve idx q = .ok (some res) ∧
      (∀ h, occurrences res h ≤ if h ∈ q.hashes then 1 else 0) ∧
      (∀ p ∈ res, p.1.id = q.id ∧ p.1.table = q.table ∧ cached c n p.2.tabletId = some p.2 ∧
        ∀ h ∈ p.1.hashes, First (first :: ids) h p.2.tabletId ∧
          ∀ ring, Agrees ring t.size idx (first :: ids) → region t.size h = idx → ∃ m, ring p.2.tabletId = some m ∧ Owns ring m h) ∧
      ((∀ h ∈ q.hashes, h ≤ first) → ∀ h ∈ q.hashes, occurrences res h = 1) := by
  have hinv := ((reaches_inv hr).1 n t ht).1
  have hasc := (hinv.fresh idx r hg _ hf).1
  have hcur : Cursor (first :: ids) 1 first [] q.hashes := by
    refine ⟨by simp, by simp, .inl ⟨by omega, rfl, fun j hj hlt => ?_⟩⟩
    rcases List.mem_cons.mp hj with rfl | hj
    · simp [UInt32.lt_iff_toNat_lt] at hlt
    · have := (List.pairwise_cons.mp hasc).1 j hj
      simp only [UInt32.lt_iff_toNat_lt] at this hlt
      omega
  obtain ⟨res, h1, h2, h3, _, h5⟩ := mergeLoop_ok hasc (hinv.known hg hf) q [] (by simpa [QueryOk] using hq) hcur
  simp only [List.nil_append] at h3 h5
  have hnd : q.hashes.Nodup := hq.imp (fun hab => by rintro rfl; simp [UInt32.lt_iff_toNat_lt] at hab)
  refine ⟨res, by simp [Table.tryResolve, hg, hf, Run.unwrap, h1], ?_, ?_, ?_⟩
  · intro h
    split
    · exact Nat.le_trans (h3.count_le h) (List.nodup_iff_count.mp hnd h)
    · rename_i hn
      have := h3.count_le h
      rw [List.count_eq_zero_of_not_mem hn] at this
      exact this
  · intro p hp
    obtain ⟨p1, p2, _, p4, p5⟩ := h2 p hp
    refine ⟨p1, p2, by simp [cached, ht, p4], fun h hh => ⟨p5 h hh, fun ring hag hreg => ?_⟩⟩
    obtain ⟨f1, f2, f3⟩ := p5 h hh
    obtain ⟨m, k, hm1, hm2, hm3⟩ := (hag.2 _).mp f1
    refine ⟨m, hm3 ▸ hm1.1, hm1.1, .inl ⟨hm3 ▸ f2, fun i hi hle => ?_⟩⟩
    rw [hm3]
    -- the owner of `h` is in the region
    obtain ⟨o, ho⟩ : ∃ o, Owns ring o h := ring_owner hag.1 _ (Nat.le_refl _) hi hle
    have ho1 : o.tabletId ∈ first :: ids := (hag.2 _).mpr ⟨o, h, ho, hreg, rfl⟩
    rcases ho.2 with ⟨o1, o2⟩ | ⟨o1, _⟩
    · have a := f3 _ ho1 o1
      have b := o2 i hi hle
      simp only [UInt32.le_iff_toNat_le] at *
      omega
    · have := o1 i hi
      simp only [UInt32.le_iff_toNat_le, UInt32.lt_iff_toNat_lt] at *
      omega
  · intro hall h hh
    rw [occurrences, h5 hall]
    have := List.nodup_iff_count.mp hnd h
    have := List.count_pos_iff.mpr hh
    omega

/-- A fresh region with two tablets: hashes up to the first tablet are resolved, and so would be those up to the second one
after a dropped hash. -/
example : ∃ ins c t r, Reaches [("t", 0x40000000)] ins c ∧ c.tables.get "t" = some t ∧ t.regions.get 0 = some r ∧
    r.freshIds = some [10, 20] ∧ QueryOk (exQuery [5, 10]) ∧
    t.tryResolve 0 (exQuery [5, 10]) = .ok (some [(exQuery [5, 10], exTablet 10 3)]) ∧
    t.tryResolve 0 (exQuery [5, 12, 14]) = .ok (some [(exQuery [5], exTablet 10 3), (exQuery [14], exTablet 20 1)]) := by
  have h : ∃ c, exRun [.list [exList [exTablet 20 1, exTablet 10 1]], .update "t" (exTablet 10 3) false] = .ok c ∧
    ∃ t, c.tables.get "t" = some t ∧ ∃ r, t.regions.get 0 = some r ∧
    r.freshIds = some [10, 20] ∧ (exQuery [5, 10]).hashes.Pairwise (· < ·) ∧
    t.tryResolve 0 (exQuery [5, 10]) = .ok (some [(exQuery [5, 10], exTablet 10 3)]) ∧
    t.tryResolve 0 (exQuery [5, 12, 14]) = .ok (some [(exQuery [5], exTablet 10 3), (exQuery [14], exTablet 20 1)]) :=
    ⟨_, rfl, _, rfl, _, rfl, by decide, by decide, by decide, by decide⟩
  obtain ⟨c, h1, t, h2, r, h3⟩ := h
  exact ⟨_, c, t, r, exRun_reaches h1, h2, h3⟩

/-! ## C49 -/

/-- Part of the claim: after every history the cache holds for each tablet the highest version it was told, by update or
list response, and nothing else.  Missing: that only committed versions are ever told, which is false, see
`C49_committed_fails`. -/
theorem C49_highest_partial {cfg : List (String × UInt32)} {ins : List Input} {c : MetaCache} (hr : Reaches cfg ins c) {n : String}
    {t : Table} (ht : c.tables.get n = some t) (i : UInt32) :
    (cached c n i = none → ∀ m ∈ ins.flatMap (told n t.size), m.tabletId ≠ i) ∧
    ∀ m, cached c n i = some m → m ∈ ins.flatMap (told n t.size) ∧ m.tabletId = i ∧
      ∀ m' ∈ ins.flatMap (told n t.size), m'.tabletId = i → m'.version ≤ m.version := by
  have := (reaches_inv hr).2 n t ht i
  simpa [cached, ht] using this

/-- Part of the claim: cached versions never go back. -/
theorem C49_forward_partial {cfg : List (String × UInt32)} {ins more : List Input} {c c' : MetaCache} (hr : Reaches cfg ins c)
    (h : feedAll c more = .ok c') {n : String} {i : UInt32} {m : Metadata} (hm : cached c n i = some m) :
    ∃ m', cached c' n i = some m' ∧ m.version ≤ m'.version ∧ (m'.version = m.version → m' = m) := by
  obtain ⟨hi, hh⟩ := reaches_inv hr
  cases ht : c.tables.get n with
  | none => simp [cached, ht] at hm
  | some t =>
    obtain ⟨t', h1, _, _, h4⟩ := (feedAll_evolves h n).2 t ht
    obtain ⟨_, h6⟩ := h4 (hi n t ht).1
    simp only [cached, ht, h1, Option.bind_some] at hm ⊢
    rw [h6]
    dsimp only
    generalize (List.flatMap (told n t.size) more) = l at *
    clear h6 h4 h1 hh hi h hr ht
    generalize t.tablets = ts at *
    induction l generalizing ts m with
    | nil => exact ⟨m, hm, by simp, fun _ => rfl⟩
    | cons x rest ih =>
      rw [List.foldl_cons]
      have : ∃ m1, (insertLatest ts x).get i = some m1 ∧ m.version ≤ m1.version ∧ (m1.version = m.version → m1 = m) := by
        rw [insertLatest_get, hm]
        split
        · simp only
          split
          · rename_i hlt
            refine ⟨x, rfl, ?_, fun e => ?_⟩
            · simp only [UInt32.lt_iff_toNat_lt, UInt32.le_iff_toNat_le] at *; omega
            · rw [e] at hlt; simp at hlt
          · exact ⟨m, rfl, by simp, fun _ => rfl⟩
        · exact ⟨m, rfl, by simp, fun _ => rfl⟩
      obtain ⟨m1, p1, p2, p3⟩ := this
      obtain ⟨m2, q1, q2, q3⟩ := ih _ p1
      refine ⟨m2, q1, ?_, fun e => ?_⟩
      · simp only [UInt32.le_iff_toNat_le] at *; omega
      · have e1 : m1.version = m.version := by
          rw [e] at q2
          simp only [UInt32.le_iff_toNat_le, ← UInt32.toNat_inj] at *; omega
        rw [q3 (e.trans e1.symm), p3 e1]

/-- Versions 2 and 1 are told in this order; version 2 stays. -/
example : ∃ ins c, Reaches [("t", 0x40000000)] ins c ∧ cached c "t" 10 = some (exTablet 10 2) := by
  have h : ∃ c, exRun [.update "t" (exTablet 10 2) false, .list [exList [exTablet 10 1]]] = .ok c ∧
    cached c "t" 10 = some (exTablet 10 2) := ⟨_, rfl, by decide⟩
  obtain ⟨c, h1, h2⟩ := h
  exact ⟨_, c, exRun_reaches h1, h2⟩

end TCP.Cache.Props
