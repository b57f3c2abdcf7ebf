import Verif.Spec.CacheMetadata

/-!
# Lemmas about the tablet metadata cache
-/

namespace TCP.Cache

open TCP TCP.TabletStore TCP.Cache.Spec

/-! ## Sets -/

/-- Strictly ascending. -/
abbrev Asc (l : List UInt32) : Prop := l.Pairwise (· < ·)

theorem UInt32.lt_tri (a b : UInt32) : a < b ∨ a = b ∨ b < a := by
  simp only [UInt32.lt_iff_toNat_lt, ← UInt32.toNat_inj]; omega

theorem mem_setInsert (l : List UInt32) (h x : UInt32) : x ∈ setInsert l h ↔ x = h ∨ x ∈ l := by
  induction l with
  | nil => simp [setInsert]
  | cons y ys ih =>
    simp only [setInsert]
    split
    · simp
    · split
      · subst_vars; simp
      · simp only [List.mem_cons, ih]
        constructor
        · rintro (h | h | h) <;> simp [h]
        · rintro (h | h | h) <;> simp [h]

theorem asc_setInsert {l : List UInt32} (hl : Asc l) (h : UInt32) : Asc (setInsert l h) := by
  induction l with
  | nil => simp [setInsert]
  | cons y ys ih =>
    have hl' := List.pairwise_cons.mp hl
    simp only [setInsert]
    split
    · rename_i hlt
      exact List.pairwise_cons.mpr ⟨fun z hz => by
        rcases List.mem_cons.mp hz with rfl | hz
        · exact hlt
        · exact UInt32.lt_trans hlt (hl'.1 z hz), hl⟩
    · split
      · exact hl
      · rename_i h1 h2
        refine List.pairwise_cons.mpr ⟨fun z hz => ?_, ih hl'.2⟩
        rcases (mem_setInsert _ _ _).mp hz with rfl | hz
        · rcases UInt32.lt_tri z y with h | h | h
          · exact absurd h h1
          · exact absurd h h2
          · exact h
        · exact hl'.1 z hz

theorem foldl_setInsert (l acc : List UInt32) : ∀ x, x ∈ l.foldl setInsert acc ↔ x ∈ acc ∨ x ∈ l := by
  induction l generalizing acc with
  | nil => simp
  | cons y ys ih => intro x; simp only [List.foldl_cons, ih, mem_setInsert, List.mem_cons]; constructor <;> rintro h <;> simp_all [or_comm, or_left_comm, or_assoc]

theorem mem_setOf (l : List UInt32) (x : UInt32) : x ∈ setOf l ↔ x ∈ l := by simp [setOf, foldl_setInsert]

theorem asc_foldl (l : List UInt32) : ∀ {acc : List UInt32}, Asc acc → Asc (l.foldl setInsert acc) := by
  induction l with
  | nil => intro acc h; exact h
  | cons y ys ih => intro acc h; exact ih (asc_setInsert h y)

theorem asc_setOf (l : List UInt32) : Asc (setOf l) := asc_foldl l List.Pairwise.nil

theorem setInsert_last {l : List UInt32} {h : UInt32} (hl : ∀ x ∈ l, x < h) : setInsert l h = l ++ [h] := by
  induction l with
  | nil => rfl
  | cons y ys ih =>
    have hy := hl y (by simp)
    have h1 : ¬ h < y := fun h' => by simp only [UInt32.lt_iff_toNat_lt] at h' hy; omega
    have h2 : h ≠ y := fun h' => by subst h'; simp only [UInt32.lt_iff_toNat_lt] at hy; omega
    simp [setInsert, h1, h2, ih (fun x hx => hl x (by simp [hx]))]

theorem foldl_setInsert_asc (l : List UInt32) : ∀ (acc : List UInt32), Asc (acc ++ l) → l.foldl setInsert acc = acc ++ l := by
  induction l with
  | nil => simp
  | cons y ys ih =>
    intro acc h
    have h1 := List.pairwise_append.mp h
    rw [List.foldl_cons, setInsert_last (fun x hx => h1.2.2 x hx y (by simp))]
    rw [ih _ (by simpa using h)]
    simp

theorem setOf_asc {l : List UInt32} (h : Asc l) : setOf l = l := by
  simpa [setOf] using foldl_setInsert_asc l [] (by simpa using h)

/-! ## Splitting -/

theorem mapRegion_ok {size : UInt32} (hs : size ≠ 0) (h : UInt32) : mapRegion size h = .ok (h.toNat / size.toNat) := by
  simp [mapRegion, hs]

theorem size_pos {size : UInt32} (hs : size ≠ 0) : 0 < size.toNat := by
  rcases Nat.eq_zero_or_pos size.toNat with h | h
  · exact absurd (UInt32.toNat_inj.mp (by simpa using h)) hs
  · exact h

theorem toNat_le (h : UInt32) : h.toNat ≤ u32Max := by
  have := h.toNat_lt; simp only [u32Max]; omega

theorem regionBounds_ok {size : UInt32} (hs : size ≠ 0) {idx : Nat} (hi : idx * size.toNat ≤ u32Max) :
    regionBounds size idx = .ok (idx * size.toNat, min (idx * size.toNat + size.toNat - 1) u32Max) := by
  have := size_pos hs
  have := toNat_le size
  unfold regionBounds
  rw [if_neg (by omega)]
  split
  · rw [Nat.min_eq_right (by omega)]
  · rw [if_neg (by omega), Nat.min_eq_left (by omega)]

/-- Region `idx` ends at `hi`. -/
def End (size : UInt32) (idx hi : Nat) : Prop := idx * size.toNat ≤ u32Max ∧ hi = min (idx * size.toNat + size.toNat - 1) u32Max

/-- What the collected parts satisfy: `idx` is the region being filled with `hs`. -/
structure Parts (size : UInt32) (q : Query) (out : List (Query × Nat)) (hi : Nat) : Prop where
  same : ∀ p ∈ out, p.1.id = q.id ∧ p.1.table = q.table ∧ p.1.hashes ≠ [] ∧
    ∀ h ∈ p.1.hashes, h.toNat / size.toNat = p.2
  asc : out.Pairwise fun a b => a.2 < b.2
  below : ∀ p ∈ out, p.2 < hi

theorem Parts.push {size : UInt32} {q : Query} {out : List (Query × Nat)} {idx : Nat} (h : Parts size q out idx)
    {hs : List UInt32} (ha : Asc hs) (hne : hs ≠ []) (hr : ∀ x ∈ hs, x.toNat / size.toNat = idx) {n : Nat} (hn : idx < n) :
    Parts size q (out ++ [(q.createFrom hs, idx)]) n where
  same := fun p hp => by
    rcases List.mem_append.mp hp with hp | hp
    · exact h.same p hp
    · obtain rfl := List.mem_singleton.mp hp
      simp only [Query.createFrom, Query.create, setOf_asc ha]
      exact ⟨trivial, trivial, hne, hr⟩
  asc := List.pairwise_append.mpr ⟨h.asc, by simp, fun a ha b hb => by
    obtain rfl := List.mem_singleton.mp hb; exact h.below a ha⟩
  below := fun p hp => by
    rcases List.mem_append.mp hp with hp | hp
    · have := h.below p hp; omega
    · obtain rfl := List.mem_singleton.mp hp; exact hn

theorem Parts.mono {size : UInt32} {q : Query} {out : List (Query × Nat)} {idx n : Nat} (h : Parts size q out idx) (hn : idx ≤ n) :
    Parts size q out n := ⟨h.same, h.asc, fun p hp => by have := h.below p hp; omega⟩

theorem advance_ok {size : UInt32} (hz : size ≠ 0) {q : Query} {h : UInt32} : ∀ {fuel idx hi : Nat} {hs : List UInt32}
    {out : List (Query × Nat)}, End size idx hi → 0 < fuel → h.toNat < hi + fuel → idx * size.toNat ≤ h.toNat → Asc hs →
    (∀ x ∈ hs, x.toNat / size.toNat = idx) → Parts size q out idx →
    ∃ idx' hi' hs' out', advance size q h.toNat fuel idx hi hs out = .ok (idx', hi', hs', out') ∧ End size idx' hi' ∧
      h.toNat / size.toNat = idx' ∧ Asc hs' ∧ (∀ x ∈ hs', x ∈ hs ∧ x.toNat / size.toNat = idx') ∧ Parts size q out' idx' ∧
      out'.flatMap (fun p => p.1.hashes) ++ hs' = out.flatMap (fun p => p.1.hashes) ++ hs := by
  have hsp := size_pos hz
  have hh := toNat_le h
  intro fuel
  induction fuel with
  | zero =>
    intro idx hi hs out he h0
    omega
  | succ fuel ih =>
    intro idx hi hs out he h0 hf hlo ha hr hp
    unfold advance
    split
    · rename_i hgt
      obtain ⟨he1, he2⟩ := he
      have hnext : (idx + 1) * size.toNat ≤ h.toNat := by
        rw [Nat.add_mul, Nat.one_mul]; omega
      rw [regionBounds_ok hz (by omega)]
      simp only [Run.bind_ok]
      obtain ⟨idx', hi', hs', out', h1, h2, h3, h4, h5, h6, h7⟩ := ih (idx := idx + 1) (hs := [])
        (out := if hs = [] then out else out ++ [(q.createFrom hs, idx)]) ⟨by omega, rfl⟩ (by omega) (by
          rw [Nat.add_mul, Nat.one_mul] at hnext ⊢; omega) hnext List.Pairwise.nil (by simp) (by
          split
          · exact hp.mono (by omega)
          · rename_i hne; exact hp.push ha hne hr (by omega))
      refine ⟨idx', hi', hs', out', h1, h2, h3, h4, fun x hx => absurd (h5 x hx).1 (by simp), h6, ?_⟩
      rw [h7]
      split
      · simp_all
      · simp [Query.createFrom, Query.create, setOf_asc ha]
    · rename_i hle
      obtain ⟨he1, he2⟩ := he
      exact ⟨idx, hi, hs, out, rfl, ⟨he1, he2⟩, by
        apply Nat.div_eq_of_lt_le
        · exact hlo
        · rw [Nat.add_mul, Nat.one_mul]; omega, ha, fun x hx => ⟨hx, hr x hx⟩, hp, rfl⟩

theorem splitLoop_ok {size : UInt32} (hz : size ≠ 0) {q : Query} : ∀ {l : List UInt32} {idx hi : Nat} {hs : List UInt32}
    {out : List (Query × Nat)}, End size idx hi → (∀ h ∈ l, idx * size.toNat ≤ h.toNat) → Asc (hs ++ l) →
    (∀ x ∈ hs, x.toNat / size.toNat = idx) → Parts size q out idx →
    ∃ parts n, splitLoop size q l idx hi hs out = .ok parts ∧ Parts size q parts n ∧
      parts.flatMap (fun p => p.1.hashes) = out.flatMap (fun p => p.1.hashes) ++ hs ++ l := by
  intro l
  induction l with
  | nil =>
    intro idx hi hs out he hlo ha hr hp
    simp only [splitLoop]
    split
    · subst_vars; exact ⟨out, idx, rfl, hp, by simp⟩
    · rename_i hne
      have ha' : Asc hs := by simpa using ha
      exact ⟨_, idx + 1, rfl, hp.push ha' hne hr (by omega), by simp [Query.createFrom, Query.create, setOf_asc ha']⟩
  | cons h rest ih =>
    intro idx hi hs out he hlo ha hr hp
    have ha' := List.pairwise_append.mp ha
    have hrest := List.pairwise_cons.mp ha'.2.1
    obtain ⟨idx', hi', hs', out', h1, h2, h3, h4, h5, h6, h7⟩ := advance_ok hz (q := q) (h := h) (fuel := h.toNat + 1) he (by omega)
      (by omega) (hlo h (by simp)) ha'.1 hr hp
    simp only [splitLoop, h1, Run.bind_ok]
    have hle : idx' * size.toNat ≤ h.toNat := by rw [← h3]; exact Nat.div_mul_le_self _ _
    obtain ⟨parts, n, p1, p2, p3⟩ := ih (idx := idx') (hi := hi') (hs := hs' ++ [h]) (out := out') h2
      (fun x hx => by have := UInt32.lt_iff_toNat_lt.mp (hrest.1 x hx); omega)
      (by
        simp only [List.append_assoc, List.singleton_append]
        exact List.pairwise_append.mpr ⟨h4, ha'.2.1, fun a ha b hb => ha'.2.2 a (h5 a ha).1 b hb⟩)
      (fun x hx => by
        rcases List.mem_append.mp hx with hx | hx
        · exact (h5 x hx).2
        · obtain rfl := List.mem_singleton.mp hx; exact h3) h6
    refine ⟨parts, n, p1, p2, ?_⟩
    rw [p3, ← List.append_assoc, h7]
    simp

theorem split_ok {size : UInt32} (hz : size ≠ 0) {q : Query} (ha : Asc q.hashes) :
    ∃ parts n, split size q = .ok parts ∧ Parts size q parts n ∧ parts.flatMap (fun p => p.1.hashes) = q.hashes := by
  unfold split
  cases hq : q.hashes with
  | nil => exact ⟨[], 0, rfl, ⟨by simp, by simp, by simp⟩, rfl⟩
  | cons h rest =>
    have hle : h.toNat / size.toNat * size.toNat ≤ h.toNat := Nat.div_mul_le_self _ _
    simp only [mapRegion_ok hz, Run.bind_ok, regionBounds_ok hz (Nat.le_trans hle (toNat_le h))]
    rw [hq] at ha
    have hr := List.pairwise_cons.mp ha
    obtain ⟨parts, n, p1, p2, p3⟩ := splitLoop_ok hz (q := q) (l := h :: rest) (idx := h.toNat / size.toNat) (hs := []) (out := [])
      ⟨Nat.le_trans hle (toNat_le h), rfl⟩ (fun x hx => by
        rcases List.mem_cons.mp hx with rfl | hx
        · exact hle
        · have := UInt32.lt_iff_toNat_lt.mp (hr.1 x hx); omega) (by simpa using ha) (by simp) ⟨by simp, by simp, by simp⟩
    exact ⟨parts, n, p1, p2, by simpa using p3⟩

/-! ## Resolving -/

/-- Every id is cached, under itself. -/
def Known (ids : List UInt32) (tablets : AMap UInt32 Metadata) : Prop :=
  ∀ i ∈ ids, ∃ m, tablets.get i = some m ∧ m.tabletId = i

/-- What a resolution result satisfies. -/
def Sound (ids : List UInt32) (tablets : AMap UInt32 Metadata) (q : Query) (res : List (Query × Metadata)) : Prop :=
  ∀ p ∈ res, p.1.id = q.id ∧ p.1.table = q.table ∧ p.1.hashes ≠ [] ∧ tablets.get p.2.tabletId = some p.2 ∧
    ∀ h ∈ p.1.hashes, First ids h p.2.tabletId

theorem flush_ok {ids : List UInt32} {tablets : AMap UInt32 Metadata} (hk : Known ids tablets) (q : Query) {cur : UInt32}
    (hc : cur ∈ ids) {hs : List UInt32} (ha : Asc hs) (hf : ∀ h ∈ hs, First ids h cur) :
    ∃ x, flush tablets q cur hs = .ok x ∧ Sound ids tablets q x ∧ x.flatMap (fun p => p.1.hashes) = hs := by
  unfold flush
  split
  · subst_vars; exact ⟨[], rfl, by simp [Sound], rfl⟩
  · rename_i hne
    obtain ⟨m, h1, h2⟩ := hk cur hc
    refine ⟨_, by simp only [h1, Run.unwrap, Run.bind_ok]; rfl, ?_, by simp [Query.createFrom, Query.create, setOf_asc ha]⟩
    intro p hp
    obtain rfl := List.mem_singleton.mp hp
    simp only [Query.createFrom, Query.create, setOf_asc ha]
    rw [h2]
    exact ⟨trivial, trivial, hne, h1, hf⟩

/-- Where the merge stands: the current tablet is the first at or after every hash not before it, or every tablet is
before every remaining hash. -/
def Cursor (ids : List UInt32) (pos : Nat) (cur : UInt32) (hs l : List UInt32) : Prop :=
  cur ∈ ids ∧ (∀ h ∈ hs, h ≤ cur) ∧
  ((0 < pos ∧ ids[pos - 1]? = some cur ∧ ∀ j ∈ ids, j < cur → ∀ h ∈ hs ++ l, j < h) ∨ (hs = [] ∧ ∀ j ∈ ids, ∀ h ∈ l, j < h))

theorem u32_not_lt {a b : UInt32} : ¬ a < b ↔ b ≤ a := by
  simp only [UInt32.lt_iff_toNat_lt, UInt32.le_iff_toNat_le]; omega

theorem asc_get_lt {ids : List UInt32} (ha : Asc ids) {i j : Nat} {a b : UInt32} (hi : ids[i]? = some a) (hj : ids[j]? = some b)
    (h : a < b) : i < j := by
  rcases Nat.lt_trichotomy i j with h' | h' | h'
  · exact h'
  · subst h'; rw [hi] at hj; cases hj; simp [UInt32.lt_iff_toNat_lt] at h
  · obtain ⟨h1, h2⟩ := List.getElem?_eq_some_iff.mp hi
    obtain ⟨h3, h4⟩ := List.getElem?_eq_some_iff.mp hj
    have := List.pairwise_iff_getElem.mp ha j i h3 h1 h'
    subst h2 h4
    simp only [UInt32.lt_iff_toNat_lt] at *
    omega

theorem mergeLoop_ok {ids : List UInt32} (hi : Asc ids) {tablets : AMap UInt32 Metadata} (hk : Known ids tablets) (q : Query) :
    ∀ {l : List UInt32} {pos : Nat} {cur : UInt32} {hs : List UInt32} (out : List (Query × Metadata)), Asc (hs ++ l) →
    Cursor ids pos cur hs l →
    ∃ res, mergeLoop ids tablets q l pos cur hs out = .ok (out ++ res) ∧ Sound ids tablets q res ∧
      (res.flatMap (fun p => p.1.hashes)).Sublist (hs ++ l) ∧
      ((∃ h ∈ l, h > cur) → (res.flatMap (fun p => p.1.hashes)).length < (hs ++ l).length) ∧
      ((∀ h ∈ l, h ≤ cur) → res.flatMap (fun p => p.1.hashes) = hs ++ l) := by
  have hfirst : ∀ {pos : Nat} {cur : UInt32} {hs l : List UInt32}, Cursor ids pos cur hs l → ∀ h ∈ hs, First ids h cur := by
    rintro pos cur hs l ⟨h1, h2, h3⟩ h hh
    refine ⟨h1, h2 h hh, fun j hj hle => ?_⟩
    rcases h3 with ⟨_, _, h3⟩ | ⟨h3, _⟩
    · rcases UInt32.lt_tri j cur with h' | h' | h'
      · have := h3 j hj h' h (by simp [hh])
        simp only [UInt32.lt_iff_toNat_lt, UInt32.le_iff_toNat_le] at *; omega
      · simp [h']
      · simp only [UInt32.lt_iff_toNat_lt, UInt32.le_iff_toNat_le] at *; omega
    · subst h3; simp at hh
  intro l
  induction l with
  | nil =>
    intro pos cur hs out ha hc
    obtain ⟨x, h1, h2, h3⟩ := flush_ok hk q hc.1 (by simpa using ha) (hfirst hc)
    exact ⟨x, by simp [mergeLoop, h1], h2, by simp [h3], by simp, by simp [h3]⟩
  | cons h rest ih =>
    intro pos cur hs out ha hc
    have ha' := List.pairwise_append.mp ha
    have hrest := List.pairwise_cons.mp ha'.2.1
    unfold mergeLoop
    split
    · rename_i hgt
      obtain ⟨x, h1, h2, h3⟩ := flush_ok hk q hc.1 ha'.1 (hfirst hc)
      have hpos : 0 < ids.length := List.length_pos_of_mem hc.1
      have hlt : pos % ids.length < ids.length := Nat.mod_lt _ hpos
      have hgt' : ∀ b ∈ rest, cur < b := fun b hb => UInt32.lt_trans hgt (hrest.1 b hb)
      have hcur : Cursor ids (pos + 1) ids[pos % ids.length] [] rest := by
        refine ⟨List.getElem_mem _, by simp, ?_⟩
        rcases hc.2.2 with ⟨p1, p2, p3⟩ | ⟨p1, p2⟩
        · by_cases hw : pos < ids.length
          · left
            refine ⟨by omega, by simp [Nat.mod_eq_of_lt hw, hw], ?_⟩
            intro j hj hjn b hb
            simp only [Nat.mod_eq_of_lt hw] at hjn
            have : ¬ cur < j := by
              intro hcj
              obtain ⟨k, hk1, hk2⟩ := List.getElem_of_mem hj
              have e : ids[k]? = some j := by simp [hk1, hk2]
              have e2 : ids[pos]? = some ids[pos] := by simp [hw]
              have := asc_get_lt hi p2 e hcj
              have := asc_get_lt hi e e2 hjn
              omega
            have := hgt' b (by simpa using hb)
            simp only [UInt32.lt_iff_toNat_lt] at *
            omega
          · right
            refine ⟨rfl, fun j hj b hb => ?_⟩
            have : ¬ cur < j := by
              intro hcj
              obtain ⟨k, hk1, hk2⟩ := List.getElem_of_mem hj
              have e : ids[k]? = some j := by simp [hk1, hk2]
              have := asc_get_lt hi p2 e hcj
              omega
            have := hgt' b hb
            simp only [UInt32.lt_iff_toNat_lt] at *
            omega
        · right; exact ⟨rfl, fun j hj b hb => p2 j hj b (by simp [hb])⟩
      obtain ⟨res, r1, r2, r3, r4, r5⟩ := ih (out ++ x) (hs := []) (by simpa using hrest.2) hcur
      refine ⟨x ++ res, ?_, ?_, ?_, ?_, ?_⟩
      · rw [List.getElem?_eq_getElem hlt]
        simp only [h1, Run.bind_ok, Run.unwrap, r1, List.append_assoc]
      · intro p hp
        rcases List.mem_append.mp hp with hp | hp
        · exact h2 p hp
        · exact r2 p hp
      · rw [List.flatMap_append, h3]
        exact List.Sublist.append (List.Sublist.refl _) (List.Sublist.cons _ (by simpa using r3))
      · intro _
        have := r3.length_le
        simp only [List.flatMap_append, h3, List.length_append, List.length_cons] at *
        simp only [List.length_nil] at this
        omega
      · intro hall
        exact absurd hgt (u32_not_lt.mpr (hall h (by simp)))
    · rename_i hle
      have hle := u32_not_lt.mp hle
      have hc' : Cursor ids pos cur (hs ++ [h]) rest := by
        obtain ⟨c1, c2, c3⟩ := hc
        refine ⟨c1, fun b hb => ?_, ?_⟩
        · rcases List.mem_append.mp hb with hb | hb
          · exact c2 b hb
          · obtain rfl := List.mem_singleton.mp hb; exact hle
        · rcases c3 with ⟨p1, p2, p3⟩ | ⟨p1, p2⟩
          · left; exact ⟨p1, p2, fun j hj hjc b hb => p3 j hj hjc b (by simpa using hb)⟩
          · exact absurd (p2 cur c1 h (by simp)) (u32_not_lt.mpr hle)
      obtain ⟨res, r1, r2, r3, r4, r5⟩ := ih out (hs := hs ++ [h]) (by simpa using ha) hc'
      refine ⟨res, r1, r2, by simpa using r3, ?_, ?_⟩
      · rintro ⟨b, hb, hbg⟩
        rcases List.mem_cons.mp hb with rfl | hb
        · exact absurd hbg (u32_not_lt.mpr hle)
        · simpa using r4 ⟨b, hb, hbg⟩
      · intro hall
        simpa using r5 (fun b hb => hall b (by simp [hb]))

/-! ## The state of the cache -/

/-- What holds of a cached table. -/
structure TableInv (t : Table) : Prop where
  size : t.size ≠ 0
  regions : ∀ i, (t.regions.get i).isSome ↔ Kept t.size i
  keyed : ∀ i m, t.tablets.get i = some m → m.tabletId = i
  fresh : ∀ i r, t.regions.get i = some r → ∀ ids, r.freshIds = some ids → Asc ids ∧ ∀ x ∈ ids, (t.tablets.get x).isSome

theorem TableInv.known {t : Table} (h : TableInv t) {i : Nat} {r : Region} (hr : t.regions.get i = some r) {ids : List UInt32}
    (hf : r.freshIds = some ids) : Known ids t.tablets := by
  intro x hx
  obtain ⟨m, hm⟩ := Option.isSome_iff_exists.mp ((h.fresh i r hr ids hf).2 x hx)
  exact ⟨m, hm, h.keyed x m hm⟩

theorem get_range_map (n i : Nat) : ((AMap.get ((List.range n).map fun i => (i, Region.create)) i) : Option Region).isSome ↔ i < n := by
  rw [AMap.get_isSome_iff]
  simp [AMap.keys, List.map_map]

theorem create_inv {name : String} {size : UInt32} {t : Table} (h : Table.create name size = .ok t) : TableInv t ∧ t.tablets = [] ∧
    t.name = name ∧ t.size = size := by
  unfold Table.create at h
  split at h
  · simp at h
  · rename_i hz
    simp only [Run.ok.injEq] at h
    subst h
    refine ⟨⟨hz, fun i => get_range_map _ _, by simp, ?_⟩, rfl, rfl, rfl⟩
    intro i r hr ids hf
    have := AMap.mem_of_get hr
    simp only [List.mem_map, Prod.mk.injEq] at this
    obtain ⟨_, _, _, rfl⟩ := this
    simp [Region.create, Region.freshIds] at hf

theorem insertLatest_get (ts : AMap UInt32 Metadata) (m : Metadata) (i : UInt32) : (insertLatest ts m).get i =
    if m.tabletId = i then (match ts.get i with | some l => if l.version < m.version then some m else some l | none => some m)
    else ts.get i := by
  unfold insertLatest
  by_cases h : m.tabletId = i
  · subst h
    rw [if_pos rfl]
    cases hg : ts.get m.tabletId with
    | none => simp
    | some l =>
      simp only
      split
      · simp
      · exact hg
  · rw [if_neg h]
    split
    · split
      · exact AMap.get_set_ne _ _ h
      · rfl
    · exact AMap.get_set_ne _ _ h

theorem insertLatest_some {ts : AMap UInt32 Metadata} {i : UInt32} (h : (ts.get i).isSome) (m : Metadata) :
    ((insertLatest ts m).get i).isSome := by
  rw [insertLatest_get]
  split
  · split
    · split <;> rfl
    · rfl
  · exact h

theorem insertLatest_keyed {ts : AMap UInt32 Metadata} (h : ∀ i m, ts.get i = some m → m.tabletId = i) (x : Metadata) :
    ∀ i m, (insertLatest ts x).get i = some m → m.tabletId = i := by
  intro i m
  rw [insertLatest_get]
  split
  · rename_i he
    split
    · rename_i l hl
      split
      · intro e; cases e; exact he
      · intro e; cases e; exact h i _ hl
    · intro e; cases e; exact he
  · exact h i m

theorem foldl_some {l : List Metadata} : ∀ {ts : AMap UInt32 Metadata} {i : UInt32}, (ts.get i).isSome →
    ((l.foldl insertLatest ts).get i).isSome := by
  induction l with
  | nil => intro ts i h; exact h
  | cons m rest ih => intro ts i h; exact ih (insertLatest_some h m)

theorem foldl_mem {l : List Metadata} : ∀ {ts : AMap UInt32 Metadata} {m : Metadata}, m ∈ l →
    ((l.foldl insertLatest ts).get m.tabletId).isSome := by
  induction l with
  | nil => intro ts m h; simp at h
  | cons x rest ih =>
    intro ts m h
    rcases List.mem_cons.mp h with rfl | h
    · rw [List.foldl_cons]
      refine foldl_some ?_
      rw [insertLatest_get, if_pos rfl]
      split
      · split <;> rfl
      · rfl
    · exact ih h

theorem foldl_keyed {l : List Metadata} : ∀ {ts : AMap UInt32 Metadata}, (∀ i m, ts.get i = some m → m.tabletId = i) →
    ∀ i m, (l.foldl insertLatest ts).get i = some m → m.tabletId = i := by
  induction l with
  | nil => intro ts h; exact h
  | cons m rest ih => intro ts h; exact ih (insertLatest_keyed h m)

/-- The cached entry of tablet `i` is the highest version among `l`. -/
def Highest (ts : AMap UInt32 Metadata) (l : List Metadata) : Prop :=
  ∀ i, (ts.get i = none → ∀ m ∈ l, m.tabletId ≠ i) ∧
    ∀ m, ts.get i = some m → m ∈ l ∧ m.tabletId = i ∧ ∀ m' ∈ l, m'.tabletId = i → m'.version ≤ m.version

theorem Highest.insert {ts : AMap UInt32 Metadata} {l : List Metadata} (h : Highest ts l) (x : Metadata) :
    Highest (insertLatest ts x) (l ++ [x]) := by
  intro i
  obtain ⟨h1, h2⟩ := h i
  rw [insertLatest_get]
  by_cases he : x.tabletId = i
  · rw [if_pos he]
    cases hg : ts.get i with
    | none =>
      refine ⟨by simp, ?_⟩
      intro m hm
      simp only [Option.some.injEq] at hm
      subst hm
      refine ⟨by simp, he, fun m' hm' hi => ?_⟩
      rcases List.mem_append.mp hm' with hm' | hm'
      · exact absurd hi (h1 hg m' hm')
      · simp_all
    | some l =>
      obtain ⟨p1, p2, p3⟩ := h2 l hg
      simp only
      split
      · rename_i hlt
        refine ⟨by simp, ?_⟩
        intro m hm
        simp only [Option.some.injEq] at hm
        subst hm
        refine ⟨by simp, he, fun m' hm' hi => ?_⟩
        rcases List.mem_append.mp hm' with hm' | hm'
        · have := p3 m' hm' hi
          simp only [UInt32.lt_iff_toNat_lt, UInt32.le_iff_toNat_le] at *; omega
        · simp_all
      · rename_i hlt
        refine ⟨by simp, ?_⟩
        intro m hm
        simp only [Option.some.injEq] at hm
        subst hm
        refine ⟨by simp [p1], p2, fun m' hm' hi => ?_⟩
        rcases List.mem_append.mp hm' with hm' | hm'
        · exact p3 m' hm' hi
        · obtain rfl := List.mem_singleton.mp hm'; exact u32_not_lt.mp hlt
  · rw [if_neg he]
    refine ⟨fun hn m hm => ?_, fun m hm => ?_⟩
    · rcases List.mem_append.mp hm with hm | hm
      · exact h1 hn m hm
      · obtain rfl := List.mem_singleton.mp hm; exact he
    · obtain ⟨p1, p2, p3⟩ := h2 m hm
      refine ⟨by simp [p1], p2, fun m' hm' hi => ?_⟩
      rcases List.mem_append.mp hm' with hm' | hm'
      · exact p3 m' hm' hi
      · obtain rfl := List.mem_singleton.mp hm'; exact absurd hi he

theorem Highest.foldl {k : List Metadata} : ∀ {ts : AMap UInt32 Metadata} {l : List Metadata}, Highest ts l →
    Highest (k.foldl insertLatest ts) (l ++ k) := by
  induction k with
  | nil => intro ts l h; simpa using h
  | cons x rest ih => intro ts l h; simpa using ih (h.insert x)

/-- How the tables change when the cache is told `f n size` about the tablets of table `n`. -/
def Evolves (f : String → UInt32 → List Metadata) (a b : AMap String Table) : Prop :=
  ∀ n, (a.get n = none → b.get n = none) ∧ ∀ t, a.get n = some t → ∃ t', b.get n = some t' ∧ t'.size = t.size ∧ t'.name = t.name ∧
    (TableInv t → TableInv t' ∧ t'.tablets = (f n t.size).foldl insertLatest t.tablets)

theorem Evolves.refl (a : AMap String Table) : Evolves (fun _ _ => []) a a :=
  fun _ => ⟨id, fun t h => ⟨t, h, rfl, rfl, fun hi => ⟨hi, rfl⟩⟩⟩

theorem Evolves.trans {f g : String → UInt32 → List Metadata} {a b c : AMap String Table} (h : Evolves f a b) (k : Evolves g b c) :
    Evolves (fun n s => f n s ++ g n s) a c := by
  intro n
  refine ⟨fun h0 => (k n).1 ((h n).1 h0), fun t ht => ?_⟩
  obtain ⟨t1, h1, h2, h3, h4⟩ := (h n).2 t ht
  obtain ⟨t2, k1, k2, k3, k4⟩ := (k n).2 t1 h1
  refine ⟨t2, k1, k2.trans h2, k3.trans h3, fun hi => ?_⟩
  obtain ⟨i1, e1⟩ := h4 hi
  obtain ⟨i2, e2⟩ := k4 i1
  exact ⟨i2, by rw [e2, e1, h2, List.foldl_append]⟩

theorem Evolves.congr {f g : String → UInt32 → List Metadata} {a b : AMap String Table} (h : Evolves f a b)
    (e : ∀ n s, f n s = g n s) : Evolves g a b := by
  have : f = g := by funext n s; exact e n s
  rwa [this] at h

/-- Replacing one table. -/
theorem Evolves.one {a : AMap String Table} {n : String} {t t' : Table} (ht : a.get n = some t) {l : UInt32 → List Metadata}
    (hs : t'.size = t.size) (hn : t'.name = t.name)
    (hi : TableInv t → TableInv t' ∧ t'.tablets = (l t.size).foldl insertLatest t.tablets) :
    Evolves (fun m s => if m = n then l s else []) a (a.set n t') := by
  intro k
  rw [AMap.get_set]
  by_cases h : n = k
  · subst h
    refine ⟨fun h => by rw [ht] at h; simp at h, fun u hu => ?_⟩
    rw [ht] at hu
    cases hu
    exact ⟨t', by simp, hs, hn, by simpa using hi⟩
  · rw [if_neg h]
    refine ⟨id, fun u hu => ⟨u, hu, rfl, rfl, fun hi => ⟨hi, ?_⟩⟩⟩
    have : k ≠ n := fun e => h e.symm
    simp [this]

/-- Replacing one region of a table by one that is not fresher. -/
theorem TableInv.setRegion {t : Table} (h : TableInv t) {i : Nat} {r r' : Region} (hr : t.regions.get i = some r)
    (hf : ∀ ids, r'.freshIds = some ids → r.freshIds = some ids ∨ (Asc ids ∧ ∀ x ∈ ids, (t.tablets.get x).isSome)) :
    TableInv { t with regions := t.regions.set i r' } where
  size := h.size
  keyed := h.keyed
  regions := fun j => by
    rw [← h.regions j]
    simp only [AMap.get_set]
    split
    · subst_vars; simp [hr]
    · rfl
  fresh := fun j s hs ids hids => by
    simp only [AMap.get_set] at hs
    split at hs
    · cases hs
      rcases hf ids hids with h' | h'
      · exact h.fresh i r hr ids h'
      · exact h'
    · exact h.fresh j s hs ids hids

theorem TableInv.setTablets {t : Table} (h : TableInv t) (l : List Metadata) :
    TableInv { t with tablets := l.foldl insertLatest t.tablets } where
  size := h.size
  keyed := foldl_keyed h.keyed
  regions := h.regions
  fresh := fun j s hs ids hids => ⟨(h.fresh j s hs ids hids).1, fun x hx => foldl_some ((h.fresh j s hs ids hids).2 x hx)⟩

theorem markStale_fresh (r : Region) : r.markStale.freshIds = none := rfl

theorem updateTablet_evolves {c c' : MetaCache} {n : String} {m : Metadata} {b : Bool} (h : c.updateTablet n m b = .ok c') :
    Evolves (fun k s => told k s (.update n m b)) c.tables c'.tables := by
  unfold MetaCache.updateTablet at h
  cases ht : c.tables.get n with
  | none =>
    simp only [ht, Run.ok.injEq] at h
    subst h
    intro k
    refine ⟨id, fun t hk => ⟨t, hk, rfl, rfl, fun hi => ⟨hi, ?_⟩⟩⟩
    have : n ≠ k := fun e => by subst e; rw [ht] at hk; simp at hk
    simp [told, this]
  | some t =>
    simp only [ht] at h
    obtain ⟨t', h1, h2⟩ := Run.bind_eq_ok.mp h
    simp only [Run.ok.injEq] at h2
    subst h2
    unfold Table.updateTablet at h1
    obtain ⟨i, h3, h4⟩ := Run.bind_eq_ok.mp h1
    have key : t'.size = t.size ∧ t'.name = t.name ∧
        (TableInv t → TableInv t' ∧ t'.tablets = [m].foldl insertLatest t.tablets) := by
      cases hr : t.regions.get i with
      | some r =>
        simp only [hr, Run.ok.injEq] at h4
        subst h4
        split
        · refine ⟨rfl, rfl, fun hi => ⟨?_, rfl⟩⟩
          exact (hi.setTablets [m]).setRegion hr (by simp [markStale_fresh])
        · exact ⟨rfl, rfl, fun hi => ⟨hi.setTablets [m], rfl⟩⟩
      | none =>
        simp only [hr, Run.ok.injEq] at h4
        subst h4
        exact ⟨rfl, rfl, fun hi => ⟨hi.setTablets [m], rfl⟩⟩
    refine (Evolves.one ht (l := fun _ => [m]) key.1 key.2.1 key.2.2).congr ?_
    intro k s
    simp only [told, eq_comm]

theorem updateRegion_inv {t t' : Table} {start : UInt32} {o : Option (List Metadata)} {i : Nat} {ns : List Nat}
    (h : t.updateRegion start o = .ok (t', i, ns)) : t'.size = t.size ∧ t'.name = t.name ∧ (TableInv t → i = region t.size start ∧ TableInv t' ∧
      t'.tablets = (if region t.size start < 0xffffffff / t.size.toNat then o.getD [] else []).foldl insertLatest t.tablets) := by
  unfold Table.updateRegion at h
  obtain ⟨j, h1, h2⟩ := Run.bind_eq_ok.mp h
  have hj : TableInv t → j = region t.size start := fun hi => by
    rw [mapRegion_ok hi.size] at h1
    simp only [Run.ok.injEq] at h1
    exact h1.symm
  split at h2
  · rename_i hr
    simp only [Run.ok.injEq, Prod.mk.injEq] at h2
    obtain ⟨rfl, rfl, rfl⟩ := h2
    refine ⟨rfl, rfl, fun hi => ⟨hj hi, hi, ?_⟩⟩
    have : ¬ Kept t.size j := fun hk => by have := (hi.regions j).mpr hk; simp [hr] at this
    rw [hj hi] at this
    rw [if_neg (show ¬ (region t.size start < 0xffffffff / t.size.toNat) from this)]
    rfl
  · rename_i r hr
    have hk : TableInv t → region t.size start < 0xffffffff / t.size.toNat := fun hi => by
      have := (hi.regions j).mp (by simp [hr])
      rwa [hj hi] at this
    split at h2
    · rename_i ts
      simp only [Run.ok.injEq, Prod.mk.injEq] at h2
      obtain ⟨rfl, rfl, rfl⟩ := h2
      refine ⟨rfl, rfl, fun hi => ⟨hj hi, ?_, ?_⟩⟩
      · refine (hi.setTablets ts).setRegion hr ?_
        intro ids hids
        simp only [Region.markFresh, Region.freshIds, Option.some.injEq] at hids
        subst hids
        right
        refine ⟨asc_setOf _, fun x hx => ?_⟩
        obtain ⟨m, hm, rfl⟩ := List.mem_map.mp ((mem_setOf _ _).mp hx)
        exact foldl_mem hm
      · rw [if_pos (hk hi)]; rfl
    · simp only [Run.ok.injEq, Prod.mk.injEq] at h2
      obtain ⟨rfl, rfl, rfl⟩ := h2
      refine ⟨rfl, rfl, fun hi => ⟨hj hi, hi.setRegion hr (by simp [markStale_fresh]), ?_⟩⟩
      simp

theorem maybeResolve_tables {c c' : MetaCache} {id : Nat} {r r' : Resolve} (h : c.maybeResolve id r = .ok (c', r')) :
    c'.tables = c.tables ∧ c'.resolves = c.resolves := by
  unfold MetaCache.maybeResolve at h
  split at h
  · simp only at h
    split at h
    · split at h
      · simp at h
      · simp only [Run.ok.injEq, Prod.mk.injEq] at h
        obtain ⟨rfl, rfl⟩ := h; exact ⟨rfl, rfl⟩
    · simp only [Run.ok.injEq, Prod.mk.injEq] at h
      obtain ⟨rfl, rfl⟩ := h; exact ⟨rfl, rfl⟩
  · simp only [Run.ok.injEq, Prod.mk.injEq] at h
    obtain ⟨rfl, rfl⟩ := h; exact ⟨rfl, rfl⟩

theorem processFresh_tables {c c' : MetaCache} {n : String} {idx id : Nat} {t : Table} (h : c.processFresh n idx t id = .ok c') :
    c'.tables = c.tables := by
  unfold MetaCache.processFresh at h
  split at h
  · simp only [Run.ok.injEq] at h; subst h; rfl
  · obtain ⟨r', _, h2⟩ := Run.bind_eq_ok.mp h
    obtain ⟨y, h3, h4⟩ := Run.bind_eq_ok.mp h2
    simp only [Run.ok.injEq] at h4
    subst h4
    exact (maybeResolve_tables h3).1

theorem notifyAll_tables {n : String} {idx : Nat} {t : Table} : ∀ {ids : List Nat} {c c' : MetaCache},
    c.notifyAll n idx t ids = .ok c' → c'.tables = c.tables := by
  intro ids
  induction ids with
  | nil => intro c c' h; simp only [MetaCache.notifyAll, Run.ok.injEq] at h; subst h; rfl
  | cons id rest ih =>
    intro c c' h
    obtain ⟨c1, h1, h2⟩ := Run.bind_eq_ok.mp h
    rw [ih h2, processFresh_tables h1]

theorem processResult_evolves {c c' : MetaCache} {x : TabletOpResult} (h : c.processResult x = .ok c') :
    Evolves (fun k s => if x.table = k then listed s x else []) c.tables c'.tables := by
  unfold MetaCache.processResult at h
  split at h
  · rename_i start to tablets hx
    cases ht : c.tables.get x.table with
    | none =>
      simp only [ht, Run.ok.injEq] at h
      subst h
      intro k
      refine ⟨id, fun t hk => ⟨t, hk, rfl, rfl, fun hi => ⟨hi, ?_⟩⟩⟩
      have : x.table ≠ k := fun e => by subst e; rw [ht] at hk; simp at hk
      simp [this]
    | some t =>
      simp only [ht] at h
      obtain ⟨⟨t', i, ns⟩, h1, h2⟩ := Run.bind_eq_ok.mp h
      have e := notifyAll_tables h2
      rw [e]
      obtain ⟨u1, u2, u3⟩ := updateRegion_inv h1
      refine (Evolves.one ht (l := fun s => listed s x) u1 u2 (fun hi => ⟨(u3 hi).2.1, ?_⟩)).congr ?_
      · rw [(u3 hi).2.2]
        simp only [listed, hx]
        cases hst : x.status with
        | succeeded => simp
        | failed => simp
        | invalid => simp
      · intro k s; simp only [eq_comm]
  · simp at h

theorem processIn_evolves : ∀ {rs : List TabletOpResult} {c c' : MetaCache}, c.processIn rs = .ok c' →
    Evolves (fun k s => told k s (.list rs)) c.tables c'.tables := by
  intro rs
  induction rs with
  | nil => intro c c' h; simp only [MetaCache.processIn, Run.ok.injEq] at h; subst h; exact (Evolves.refl _).congr (by simp [told])
  | cons x rest ih =>
    intro c c' h
    obtain ⟨c1, h1, h2⟩ := Run.bind_eq_ok.mp h
    refine ((processResult_evolves h1).trans (ih h2)).congr ?_
    intro n s
    simp only [told, List.filter_cons]
    by_cases h : x.table = n <;> simp [h]

theorem prepareListOps_spec {n : String} {size : UInt32} : ∀ {rs rs' : AMap Nat Region} {ops : List TabletOp},
    prepareListOps n size rs = .ok (rs', ops) → rs' = AMap.mapVals rs (fun _ r => r.maybePrepare.1) := by
  intro rs
  induction rs with
  | nil => intro rs' ops h; simp only [prepareListOps, Run.ok.injEq, Prod.mk.injEq] at h; simp [h.1.symm, AMap.mapVals]
  | cons e rest ih =>
    obtain ⟨i, r⟩ := e
    intro rs' ops h
    obtain ⟨b, h1, h2⟩ := Run.bind_eq_ok.mp h
    obtain ⟨⟨x1, x2⟩, h3, h4⟩ := Run.bind_eq_ok.mp h2
    simp only [Run.ok.injEq, Prod.mk.injEq] at h4
    rw [← h4.1, ih h3]
    simp [AMap.mapVals]

theorem maybePrepare_fresh (r : Region) : r.maybePrepare.1.freshIds = r.freshIds := by
  unfold Region.maybePrepare Region.freshIds
  cases h : r.state with
  | stale reqs p =>
    simp only
    by_cases hc : p = false ∧ reqs ≠ []
    · simp only [if_pos hc]
    · simp only [if_neg hc, h]
  | fresh => simp only [h]

theorem prepareAllTables_evolves : ∀ {a b : AMap String Table} {ops : List TabletOp}, prepareAllTables a = .ok (b, ops) →
    Evolves (fun _ _ => []) a b := by
  intro a
  induction a with
  | nil => intro b ops h; simp only [prepareAllTables, Run.ok.injEq, Prod.mk.injEq] at h; obtain ⟨rfl, rfl⟩ := h; exact Evolves.refl _
  | cons e rest ih =>
    obtain ⟨n, t⟩ := e
    intro b ops h
    obtain ⟨⟨x1, x2⟩, h1, h2⟩ := Run.bind_eq_ok.mp h
    obtain ⟨⟨y1, y2⟩, h3, h4⟩ := Run.bind_eq_ok.mp h2
    simp only [Run.ok.injEq, Prod.mk.injEq] at h4
    rw [← h4.1]
    intro k
    have hk := ih h3 k
    simp only [AMap.get_cons]
    split
    · refine ⟨by simp, fun u hu => ?_⟩
      simp only [Option.some.injEq] at hu
      subst hu
      refine ⟨_, rfl, rfl, rfl, fun hi => ⟨?_, rfl⟩⟩
      rw [prepareListOps_spec h1]
      refine ⟨hi.size, fun i => ?_, hi.keyed, fun i r hr ids hids => ?_⟩
      · rw [← hi.regions i]
        simp only [AMap.get_mapVals]
        cases t.regions.get i <;> simp
      · simp only [AMap.get_mapVals] at hr
        cases hg : t.regions.get i with
        | none => rw [hg] at hr; simp at hr
        | some r0 =>
          rw [hg] at hr
          simp only [Option.map_some, Option.some.injEq] at hr
          subst hr
          rw [maybePrepare_fresh] at hids
          exact hi.fresh i r0 hg ids hids
    · exact hk

theorem registerPending_inv {t t' : Table} {id idx : Nat} (h : t.registerPending id idx = .ok t') :
    t'.size = t.size ∧ t'.name = t.name ∧ (TableInv t → TableInv t' ∧ t'.tablets = t.tablets) := by
  unfold Table.registerPending at h
  split at h
  · rename_i r hr
    obtain ⟨r', h1, h2⟩ := Run.bind_eq_ok.mp h
    simp only [Run.ok.injEq] at h2
    subst h2
    refine ⟨rfl, rfl, fun hi => ⟨hi.setRegion hr ?_, rfl⟩⟩
    unfold Region.register at h1
    split at h1
    · simp only [Run.ok.injEq] at h1
      subst h1
      simp [Region.freshIds]
    · simp at h1
  · simp only [Run.ok.injEq] at h
    subst h
    exact ⟨rfl, rfl, fun hi => ⟨hi, rfl⟩⟩

theorem resolveParts_evolves {id : Nat} : ∀ {parts : List (Query × Nat)} {a b : AMap String Table} {r r' : Resolve},
    resolveParts id a r parts = .ok (b, r') → Evolves (fun _ _ => []) a b := by
  intro parts
  induction parts with
  | nil =>
    intro a b r r' h
    simp only [resolveParts, Run.ok.injEq, Prod.mk.injEq] at h
    obtain ⟨rfl, rfl⟩ := h; exact Evolves.refl _
  | cons e rest ih =>
    obtain ⟨q, idx⟩ := e
    intro a b r r' h
    unfold resolveParts at h
    cases ht : a.get q.table with
    | none => simp [ht, Run.unwrap, Run.bind] at h
    | some t =>
      simp only [ht, Run.unwrap, Run.bind_ok] at h
      obtain ⟨x, h1, h2⟩ := Run.bind_eq_ok.mp h
      cases x with
      | some res => exact ih h2
      | none =>
        obtain ⟨t', h3, h4⟩ := Run.bind_eq_ok.mp h2
        obtain ⟨u1, u2, u3⟩ := registerPending_inv h3
        refine ((Evolves.one ht (l := fun _ => []) u1 u2 (by simpa using u3)).trans (ih h4)).congr ?_
        intro n s
        split <;> rfl

theorem feed_evolves {c c' : MetaCache} {i : Input} (h : feed c i = .ok c') : Evolves (fun k s => told k s i) c.tables c'.tables := by
  cases i with
  | progress =>
    obtain ⟨⟨x1, x2⟩, h1, h2⟩ := Run.bind_eq_ok.mp h
    have : c'.tables = x1 := by
      simp only [Run.ok.injEq] at h2
      subst h2
      split <;> rfl
    rw [this]
    exact prepareAllTables_evolves h1
  | resolve n qs =>
    obtain ⟨parts, h1, h2⟩ := Run.bind_eq_ok.mp h
    obtain ⟨⟨x1, x2⟩, h3, h4⟩ := Run.bind_eq_ok.mp h2
    obtain ⟨⟨y1, y2⟩, h5, h6⟩ := Run.bind_eq_ok.mp h4
    simp only [Run.ok.injEq] at h6
    subst h6
    have := (maybeResolve_tables h5).1
    simp only at this
    simp only [this]
    exact resolveParts_evolves h3
  | update t m b => exact updateTablet_evolves h
  | list rs => exact processIn_evolves h
  | take =>
    simp only [feed, Run.ok.injEq] at h
    subst h
    exact Evolves.refl _

theorem feedAll_evolves : ∀ {ins : List Input} {c c' : MetaCache}, feedAll c ins = .ok c' →
    Evolves (fun k s => ins.flatMap (told k s)) c.tables c'.tables := by
  intro ins
  induction ins with
  | nil => intro c c' h; simp only [feedAll, Run.ok.injEq] at h; subst h; exact Evolves.refl _
  | cons i rest ih =>
    intro c c' h
    obtain ⟨c1, h1, h2⟩ := Run.bind_eq_ok.mp h
    exact ((feed_evolves h1).trans (ih h2)).congr (by intro n s; simp)

/-- All tables are in order. -/
def CacheInv (tables : AMap String Table) : Prop := ∀ n t, tables.get n = some t → TableInv t ∧ t.name = n

theorem Evolves.inv {f : String → UInt32 → List Metadata} {a b : AMap String Table} (h : Evolves f a b) (hi : CacheInv a) :
    CacheInv b := by
  intro n t ht
  cases ha : a.get n with
  | none => rw [(h n).1 ha] at ht; simp at ht
  | some u =>
    obtain ⟨t', h1, _, h3, h4⟩ := (h n).2 u ha
    rw [h1] at ht
    cases ht
    exact ⟨(h4 (hi n u ha).1).1, h3.trans (hi n u ha).2⟩

theorem init_inv : ∀ {cfg : List (String × UInt32)} {c c' : MetaCache}, c.init cfg = .ok c' →
    (∀ n t, c.tables.get n = some t → TableInv t ∧ t.name = n ∧ t.tablets = []) →
    ∀ n t, c'.tables.get n = some t → TableInv t ∧ t.name = n ∧ t.tablets = [] := by
  intro cfg
  induction cfg with
  | nil => intro c c' h hi; simp only [MetaCache.init, Run.ok.injEq] at h; subst h; exact hi
  | cons e rest ih =>
    obtain ⟨k, size⟩ := e
    intro c c' h hi
    obtain ⟨t0, h1, h2⟩ := Run.bind_eq_ok.mp h
    refine ih h2 ?_
    intro n t ht
    simp only [AMap.get_set] at ht
    split at ht
    · rename_i hk
      cases ht
      obtain ⟨p1, p2, p3, _⟩ := create_inv h1
      exact ⟨p1, p3.trans hk, p2⟩
    · exact hi n t ht

theorem reaches_inv {cfg : List (String × UInt32)} {ins : List Input} {c : MetaCache} (h : Reaches cfg ins c) :
    CacheInv c.tables ∧ ∀ n t, c.tables.get n = some t → Highest t.tablets (ins.flatMap (told n t.size)) := by
  obtain ⟨corr, c0, h1, h2⟩ := h
  have h0 := init_inv h1 (by simp [MetaCache.create])
  have hi : CacheInv c0.tables := fun n t ht => ⟨(h0 n t ht).1, (h0 n t ht).2.1⟩
  have he := feedAll_evolves h2
  refine ⟨he.inv hi, fun n t ht => ?_⟩
  cases ha : c0.tables.get n with
  | none => rw [(he n).1 ha] at ht; simp at ht
  | some u =>
    obtain ⟨t', e1, e2, _, e4⟩ := (he n).2 u ha
    rw [e1] at ht
    cases ht
    rw [(e4 (h0 n u ha).1).2, e2, (h0 n u ha).2.2]
    have hh : Highest ([] : AMap UInt32 Metadata) [] := fun i => ⟨by simp, by simp⟩
    simpa using hh.foldl (k := ins.flatMap (told n u.size))

theorem resolveParts_panics {id : Nat} {n : String} {idx : Nat} : ∀ {parts : List (Query × Nat)} {a : AMap String Table} {r : Resolve},
    CacheInv a → (∃ t, a.get n = some t ∧ ¬ Kept t.size idx) → (∃ p ∈ parts, p.1.table = n ∧ p.2 = idx) →
    resolveParts id a r parts = .panic := by
  intro parts
  induction parts with
  | nil => intro a r _ _ h; simp at h
  | cons e rest ih =>
    obtain ⟨q, i⟩ := e
    intro a r hi hk hp
    unfold resolveParts
    cases ht : a.get q.table with
    | none => simp [Run.unwrap, Run.bind]
    | some t =>
      simp only [Run.unwrap, Run.bind_ok]
      cases hx : t.tryResolve i q with
      | panic => rfl
      | ok x =>
        simp only [Run.bind_ok]
        have hp' : ∃ p ∈ rest, p.1.table = n ∧ p.2 = idx := by
          obtain ⟨p, hp, h1, h2⟩ := hp
          rcases List.mem_cons.mp hp with rfl | hp
          · exfalso
            obtain ⟨t0, h3, h4⟩ := hk
            simp only at h1 h2
            subst h1 h2
            rw [ht] at h3
            cases h3
            have : t.regions.get i = none := by
              cases hg : t.regions.get i with
              | none => rfl
              | some _ => exact absurd (((hi _ _ ht).1.regions i).mp (by simp [hg])) h4
            simp [Table.tryResolve, this] at hx
          · exact ⟨p, hp, h1, h2⟩
        cases x with
        | some res => exact ih hi hk hp'
        | none =>
          cases hr : t.registerPending id i with
          | panic => rfl
          | ok t' =>
            obtain ⟨u1, u2, u3⟩ := registerPending_inv hr
            have he := Evolves.one ht (l := fun _ => []) u1 u2 (by simpa using u3)
            refine ih (he.inv hi) ?_ hp'
            obtain ⟨t0, h3, h4⟩ := hk
            obtain ⟨t1, h5, h6, _⟩ := (he n).2 t0 h3
            exact ⟨t1, h5, by rwa [h6]⟩

theorem split_region {size : UInt32} (hz : size ≠ 0) {q : Query} (ha : Asc q.hashes) {parts : List (Query × Nat)}
    (h : split size q = .ok parts) {x : UInt32} (hx : x ∈ q.hashes) : ∃ p ∈ parts, p.1.table = q.table ∧ p.2 = region size x := by
  obtain ⟨parts', n, h1, h2, h3⟩ := split_ok hz ha
  rw [h] at h1
  cases h1
  rw [← h3] at hx
  obtain ⟨p, hp, hx⟩ := List.mem_flatMap.mp hx
  obtain ⟨_, p2, _, p4⟩ := h2.same p hp
  exact ⟨p, hp, p2, (p4 x hx).symm⟩

theorem splitAll_mem {tables : AMap String Table} : ∀ {qs : List Query} {parts : List (Query × Nat)}, splitAll tables qs = .ok parts →
    ∀ q ∈ qs, ∃ t ps, tables.get q.table = some t ∧ split t.size q = .ok ps ∧ ∀ p ∈ ps, p ∈ parts := by
  intro qs
  induction qs with
  | nil => intro parts _ q hq; simp at hq
  | cons q0 rest ih =>
    intro parts h q hq
    unfold splitAll at h
    cases ht : tables.get q0.table with
    | none => simp [ht, Run.unwrap, Run.bind] at h
    | some t =>
      simp only [ht, Run.unwrap, Run.bind_ok] at h
      obtain ⟨x, h1, h2⟩ := Run.bind_eq_ok.mp h
      obtain ⟨y, h3, h4⟩ := Run.bind_eq_ok.mp h2
      simp only [Run.ok.injEq] at h4
      subst h4
      rcases List.mem_cons.mp hq with rfl | hq
      · exact ⟨t, x, ht, h1, fun p hp => by simp [hp]⟩
      · obtain ⟨t', ps, p1, p2, p3⟩ := ih h3 q hq
        exact ⟨t', ps, p1, p2, fun p hp => by simp [p3 p hp]⟩

theorem resolve_panics {c : MetaCache} (hi : CacheInv c.tables) {n : Notification} {qs : List Query} {q : Query} (hq : q ∈ qs)
    (ha : Asc q.hashes) {t : Table} (ht : c.tables.get q.table = some t) {x : UInt32} (hx : x ∈ q.hashes)
    (hk : ¬ Kept t.size (region t.size x)) : c.resolve n qs = .panic := by
  unfold MetaCache.resolve
  cases hs : splitAll c.tables qs with
  | panic => rfl
  | ok parts =>
    simp only [Run.bind_ok]
    obtain ⟨t', ps, h1, h2, h3⟩ := splitAll_mem hs q hq
    rw [ht] at h1
    cases h1
    obtain ⟨p, hp, p1, p2⟩ := split_region (hi _ _ ht).1.size ha h2 hx
    rw [resolveParts_panics hi ⟨t, ht, hk⟩ ⟨p, h3 p hp, p1, p2⟩]
    rfl

theorem sublist_all {α : Type} {a b : List α} (h : a.Sublist b) (hn : b.Nodup) (hs : ∀ x ∈ b, x ∈ a) : a = b := by
  induction h with
  | slnil => rfl
  | @cons l1 l2 x h ih => exact absurd (h.subset (hs x (by simp))) (List.nodup_cons.mp hn).1
  | @cons_cons l1 l2 x h ih =>
    have hn' := List.nodup_cons.mp hn
    rw [ih hn'.2]
    intro y hy
    rcases List.mem_cons.mp (hs y (by simp [hy])) with rfl | h'
    · exact absurd hy hn'.1
    · exact h'

/-- Every hash before some tablet has an owner. -/
theorem ring_owner {r : TabletStore.Spec.Ring} (hk : ∀ i m, r i = some m → m.tabletId = i) {h : UInt32} : ∀ (n : Nat) {i : UInt32},
    i.toNat ≤ n → r i ≠ none → h ≤ i → ∃ t, TabletStore.Spec.Owns r t h := by
  intro n
  induction n with
  | zero =>
    intro i hn hi hle
    obtain ⟨t, ht⟩ := Option.ne_none_iff_exists'.mp hi
    have := hk i t ht
    refine ⟨t, this ▸ ht, .inl ⟨this ▸ hle, fun j _ _ => ?_⟩⟩
    simp only [UInt32.le_iff_toNat_le, this] at *
    omega
  | succ n ih =>
    intro i hn hi hle
    by_cases hx : ∃ j, r j ≠ none ∧ h ≤ j ∧ j < i
    · obtain ⟨j, h1, h2, h3⟩ := hx
      exact ih (by simp only [UInt32.lt_iff_toNat_lt] at h3; omega) h1 h2
    · obtain ⟨t, ht⟩ := Option.ne_none_iff_exists'.mp hi
      have := hk i t ht
      refine ⟨t, this ▸ ht, .inl ⟨this ▸ hle, fun j h1 h2 => ?_⟩⟩
      rw [this]
      exact u32_not_lt.mp fun h3 => hx ⟨j, h1, h2, h3⟩

end TCP.Cache
