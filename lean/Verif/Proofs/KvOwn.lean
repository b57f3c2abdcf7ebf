import Verif.Proofs.CacheOwn
import Verif.Proofs.CacheRequests
import Verif.Proofs.CacheSerial
import Verif.Spec.KvMap

/-!
# The tablets the tablet store lists for a region are the ones responsible for its hashes
-/

namespace TCP.Cache

open TCP TCP.TabletStore TCP.Cache.Spec

variable {senv : TabletStore.Env}

theorem Spec.Log.ids (ho : senv.overflowChecks = true) {t0 t : Tables} {l : List (List TabletOp × Response)} (h : Log senv t0 l t) (hw : WFTables t0) (n : String)
    (i : UInt32) : stored t n i ≠ none ↔ stored t0 n i ≠ none := by
  induction h with
  | nil => exact Iff.rfl
  | @snoc log t ops t' r h hap ih =>
    rw [← ih]
    rcases apply_tablet (s := ⟨t, 0⟩) (s' := ⟨t', 0⟩) (h.wf hw) ho hap n i with ⟨he, _⟩ | ⟨_, x, u, k1, k2, _⟩
    · rw [← stored_view, ← stored_view] at he
      rw [he]
    · rw [← stored_view] at k1 k2
      rw [k1, k2]; simp

theorem stored_id {t : Tables} (hw : WFTables t) {n : String} {i : UInt32} {m : Metadata} (h : stored t n i = some m) : m.tabletId = i := by
  unfold stored at h
  cases hg : t.get n with
  | none => rw [hg] at h; cases h
  | some ts =>
    rw [hg] at h
    exact (hw.2 n ts hg).2 (i, m) (SMap.mem_of_get h)

/-- Which tablet is responsible for a hash does not change. -/
theorem responsible_same {t1 t2 : Tables} (hw2 : WFTables t2) {n : String} (hid : ∀ i, stored t1 n i ≠ none ↔ stored t2 n i ≠ none) {h i : UInt32}
    (hr : Responsible t1 n h i) : Responsible t2 n h i := by
  obtain ⟨m, rfl, h1, h2⟩ := hr
  cases hg : stored t2 n m.tabletId with
  | none => exact absurd hg ((hid _).mp (by rw [h1]; simp))
  | some m' =>
    have he := stored_id hw2 hg
    refine ⟨m', he, by rw [he]; exact hg, ?_⟩
    rw [he]
    rcases h2 with ⟨h3, h4⟩ | ⟨h3, h4⟩
    · exact .inl ⟨h3, fun j hj => h4 j ((hid j).mpr hj)⟩
    · exact .inr ⟨fun j hj => h3 j ((hid j).mpr hj), fun j hj => h4 j ((hid j).mpr hj)⟩

/-- A list result of the log tells the tablets responsible for the hashes of the region asked for. -/
theorem listOwn_log (ho : senv.overflowChecks = true) {t0 t : Tables} {log : List (List TabletOp × Response)} (h : Log senv t0 log t) (hw : WFTables t0)
    {size : String → Option UInt32} {ops : List TabletOp} {r : Response} (hm : (ops, r) ∈ log)
    (hl : OnlyLists size ops ∨ ∀ o ∈ ops, ∀ a b, o.op ≠ some (.list a b)) : ∀ x ∈ r.results, ListOwn (Responsible t0) size x := by
  intro x hx hst a b ts hres s hs k i hreg hfi
  obtain ⟨pre, post, before, after, e1, e2, e3, _⟩ := moment_of_mem h hm
  have hwb := e2.wf hw
  obtain ⟨h1, _, _⟩ := apply_effect (s := ⟨before, 0⟩) (s' := ⟨after, 0⟩) hwb e3
  obtain ⟨o, hoo, hx1, hx2, hx3⟩ := Matched.mem_right h1 hx
  obtain ⟨ring, hv, _⟩ := hx2.mp hst
  rw [hv] at hx3
  obtain ⟨a', b', hop⟩ : ∃ a' b', o.op = some (.list a' b') := by
    cases hop : o.op with
    | none => rw [hop] at hx3; rw [hx3.2] at hres; cases hres
    | some op =>
      rw [hop] at hx3
      cases op with
      | list a' b' => exact ⟨a', b', rfl⟩
      | check i v => have := hx3.2; rw [hres] at this; simp at this
      | add m => exact absurd hx3 (by simp)
      | remove i v => exact absurd hx3 (by simp)
      | update m =>
        cases m with
        | none => have := hx3.2; rw [hres] at this; simp at this
        | some u => have := hx3.2; rw [hres] at this; simp at this
  rw [hop] at hx3
  obtain ⟨ts', k1, _, k3⟩ := hx3
  rw [hres] at k1
  simp only [Option.some.injEq, OpResult.list.injEq] at k1
  obtain ⟨rfl, rfl, rfl⟩ := k1
  rcases hl with hl | hl
  · obtain ⟨a2, b2, g1, g2⟩ := hl o hoo
    rw [hop] at g1
    simp only [Option.some.injEq, Op.list.injEq] at g1
    obtain ⟨rfl, rfl⟩ := g1
    have hin := g2 s (by rw [← hx1]; exact hs) k hreg
    have hring : ∀ j, ring j = stored before o.table j := fun j => (view_stored hv j).symm
    have hidr : ∀ j m, ring j = some m → m.tabletId = j := fun j m hj => stored_id hwb (by rw [← hring]; exact hj)
    obtain ⟨f1, f2, f3⟩ := hfi
    obtain ⟨m, hmts, rfl⟩ := List.mem_map.mp f1
    obtain ⟨_, _, hown⟩ := (k3 m).mp hmts
    have hne : ring m.tabletId ≠ none := by rw [hown.1]; simp
    obtain ⟨u, hu⟩ := ring_owner hidr (h := k) _ (Nat.le_refl _) hne f2
    have huts : u ∈ ts := (k3 u).mpr ⟨k, by
      unfold TabletStore.Spec.InClosed
      split
      · exact hin
      · exact .inl hin.1, hu⟩
    have hfirst : k ≤ u.tabletId ∧ u.tabletId ≤ m.tabletId := by
      rcases hu.2 with ⟨g3, g4⟩ | ⟨g3, _⟩
      · exact ⟨g3, g4 _ hne f2⟩
      · have := g3 _ hne
        simp only [UInt32.lt_iff_toNat_lt, UInt32.le_iff_toNat_le] at this f2
        omega
    have hle := f3 u.tabletId (List.mem_map.mpr ⟨u, huts, rfl⟩) hfirst.1
    have heq : u.tabletId = m.tabletId := by
      apply UInt32.toNat_inj.mp
      have h2 := hfirst.2
      simp only [UInt32.le_iff_toNat_le] at hle h2
      omega
    have hrb : Responsible before o.table k m.tabletId := ⟨u, heq, by
      have : ring = stored before o.table := funext hring
      rw [← this]; exact hu⟩
    rw [hx1]
    exact responsible_same hw (fun j => e2.ids ho hw _ j) hrb
  · exact absurd hop (hl o hoo a b)

end TCP.Cache
