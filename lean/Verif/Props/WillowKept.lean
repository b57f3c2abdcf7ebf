import Verif.Props.Willow

/-!
# C36: how long a key is kept
-/

namespace TCP.Willow

open TCP ActorSpec Spec

/-- How many of the events store a new key. -/
def generations (env : Env) (evs : List ActorEvent) : Nat :=
  (evs.filter fun e => match env.decEv e.contents with
    | some (.generateKey _) => true
    | _ => false).length

/-- The keys generated after one of this order. -/
def newer (m : SMap Bytes KeyPair) (o : Int) : List (Bytes × KeyPair) := m.filter fun e => decide (o < e.2.order)

structure Kept (m : SMap Bytes KeyPair) (k : Bytes) (kp : KeyPair) (n : Nat) : Prop where
  held : SMap.get m k = some kp
  only : ∀ e ∈ m, e.1 ≠ k → e.2.order ≠ kp.order
  count : (newer m kp.order).length ≤ n

theorem filter_insert_le (f : Bytes × KeyPair → Bool) (m : SMap Bytes KeyPair) (k : Bytes) (v : KeyPair) :
    ((SMap.insert m k v).filter f).length ≤ (m.filter f).length + 1 := by
  induction m with
  | nil => simp only [SMap.insert, List.filter_cons, List.filter_nil]; split <;> simp
  | cons e m ih =>
    obtain ⟨k', v'⟩ := e
    simp only [SMap.insert]
    split
    · simp only [List.filter_cons]
      split <;> split <;> simp <;> omega
    · split
      · simp only [List.filter_cons]
        split <;> split <;> simp
      · simp only [List.filter_cons]
        split
        · simp only [List.length_cons]; omega
        · exact ih

theorem length_le_remove {m : SMap Bytes KeyPair} (hs : SMap.Sorted m) {k : Bytes} {kp : KeyPair} (h : SMap.get m k = some kp) :
    m.length ≤ (SMap.remove m k).length + 1 := by
  have : SMap.insert (SMap.remove m k) k kp = m := by
    refine SMap.ext ((hs.remove k).insert _ _) hs fun j => ?_
    rw [SMap.get_insert, SMap.get_remove]
    split
    · rename_i e; rw [← e, h]
    · rfl
  have hle := SMap.length_insert_le (SMap.remove m k) k kp
  rw [this] at hle
  exact hle

theorem newer_remove (m : SMap Bytes KeyPair) (j : Bytes) (o : Int) : (newer (SMap.remove m j) o).length ≤ (newer m o).length :=
  (List.filter_sublist.filter _).length_le

theorem kept_remove {m : SMap Bytes KeyPair} {k j : Bytes} {kp : KeyPair} {n : Nat} (h : Kept m k kp n) (hj : j ≠ k) : Kept (SMap.remove m j) k kp n :=
  ⟨by rw [SMap.get_remove, if_neg hj]; exact h.held, fun e he => h.only e ((List.mem_filter.1 he).1),
    Nat.le_trans (newer_remove m j _) h.count⟩

theorem kept_insert {m : SMap Bytes KeyPair} {k j : Bytes} {kp v : KeyPair} {n : Nat} (h : Kept m k kp n) (hj : j ≠ k) (ho : kp.order < v.order) :
    Kept (SMap.insert m j v) k kp (n + 1) := by
  refine ⟨by rw [SMap.get_insert, if_neg hj]; exact h.held, fun e he hne => ?_, Nat.le_trans (filter_insert_le _ m j v) (by have := h.count; unfold newer at this; omega)⟩
  rcases SMap.mem_insert he with rfl | he
  · simp only; omega
  · exact h.only e he hne

theorem kept_generate {env : Env} {m : SMap Bytes KeyPair} (hs : SMap.Sorted m) {k : Bytes} {kp : KeyPair} {n : Nat} (h : Kept m k kp n)
    {g : GenerateKey} (hg : g.keyId ≠ k) (ho : kp.order < g.order) (hn : n + 1 < env.capacity) : Kept (afterGenerate env m g) k kp (n + 1) := by
  unfold afterGenerate
  simp only
  split
  · rename_i hfull
    split
    · rename_i j hj
      refine kept_insert (kept_remove h ?_) hg ho
      rintro rfl
      obtain ⟨k', kp', h1, h2, h3⟩ := oldest_spec hs (by rintro rfl; simp [oldest] at hj)
      have : k' = j := Option.some.inj (h1.symm.trans hj)
      subst this
      have : kp' = kp := Option.some.inj (h2.symm.trans h.held)
      subst this
      have hsub : (SMap.remove m k').length ≤ (newer m kp'.order).length := by
        have : SMap.remove m k' = newer (SMap.remove m k') kp'.order := by
          symm
          refine List.filter_eq_self.2 fun e he => ?_
          have hm := (List.mem_filter.1 he).1
          have hne : e.1 ≠ k' := by have := (List.mem_filter.1 he).2; simpa using this
          have hle := h3 e.1 e.2 (SMap.get_of_mem hs hm)
          have := h.only e hm hne
          simp only [decide_eq_true_eq]
          omega
        rw [this]
        exact newer_remove m k' _
      have := length_le_remove hs h2
      have := h.count
      omega
    · exact kept_insert h hg ho
  · exact kept_insert h hg ho

theorem mem_afterGenerate {env : Env} {m : SMap Bytes KeyPair} {g : GenerateKey} {e : Bytes × KeyPair} (h : e ∈ afterGenerate env m g) :
    e = (g.keyId, ⟨g.publicKey, g.privateKey, g.order⟩) ∨ e ∈ m := by
  unfold afterGenerate at h
  simp only at h
  rcases SMap.mem_insert h with h | h
  · exact .inl h
  · right
    split at h
    · split at h
      · exact (List.mem_filter.1 h).1
      · exact h
    · exact h

/-- C36: with commands one at a time a key is kept until it is used or replaced, or as many further keys as the store can hold were generated. -/
theorem C36_kept_sequential {env : Env} (hl : Lawful env) {cfg : Bytes} {p q : List ActorEvent} {ev : ActorEvent}
    (hone : OneAtATime env cfg (p ++ ev :: q)) {s : State} (h : Replica env cfg (p ++ ev :: q) s) {g : GenerateKey} (hg : Generates env ev g)
    (hn : generations env q < env.capacity) (hr : ∀ e ∈ q, ∀ g', Generates env e g' → g'.keyId ≠ g.keyId) (hu : ∀ e ∈ q, ∀ r, ¬ Decrypts env e g.keyId r) :
    stored s g.keyId = some ⟨g.publicKey, g.privateKey, g.order⟩ := by
  have horder : ∀ a e b, p ++ ev :: q = a ++ e :: b → ∀ g', Generates env e g' → ∀ x ∈ logKeys env a, x.2.order < g'.order := by
    intro a e b he g' hg' x hx
    obtain ⟨s1, ctx, c, s1', out, hr1, hc1, he1⟩ := oneAtATime_prefix hone a e b he
    refine C36_order hl hc1 he1 hg' (k := x.1) ?_
    rw [stored, replica_keys hl hr1]
    exact SMap.get_of_mem (sorted_logKeys a) hx
  suffices hk : ∀ n, ∀ a b, a.length = n → q = a ++ b → Kept (logKeys env (p ++ ev :: a)) g.keyId ⟨g.publicKey, g.privateKey, g.order⟩ (generations env a) by
    rw [stored, replica_keys hl h]
    exact (hk _ q [] rfl (by simp)).held
  intro n
  induction n with
  | zero =>
    intro a b ha _
    obtain rfl := List.length_eq_zero_iff.1 ha
    have hlast : logKeys env (p ++ [ev]) = afterGenerate env (logKeys env p) g := by rw [logKeys_snoc]; simp only [applyKeys, show _ = _ from hg]
    rw [hlast]
    refine ⟨by rw [get_afterGenerate, if_pos rfl], fun e he hne => ?_, ?_⟩
    · rcases mem_afterGenerate he with rfl | he
      · exact absurd rfl hne
      · have := horder p ev q rfl g hg e he; simp only; omega
    · suffices newer (afterGenerate env (logKeys env p) g) g.order = [] by simp [this]
      refine List.filter_eq_nil_iff.2 fun e he => ?_
      rcases mem_afterGenerate he with rfl | he
      · simp
      · have := horder p ev q rfl g hg e he
        simp only [decide_eq_true_eq]
        omega
  | succ n ih =>
    intro a b ha hq
    obtain rfl | ⟨a', e, rfl⟩ := List.eq_nil_or_concat a
    · simp at ha
    · rw [List.concat_eq_append] at hq ha ⊢
      have hq' : q = a' ++ e :: b := by rw [hq]; simp
      have hk := ih a' (e :: b) (by simpa using ha) hq'
      have hm : e ∈ q := by rw [hq']; simp
      have hsn : logKeys env (p ++ ev :: (a' ++ [e])) = applyKeys env (logKeys env (p ++ ev :: a')) e := by
        rw [← logKeys_snoc]; simp
      rw [hsn]
      unfold applyKeys
      cases hd : env.decEv e.contents with
      | none =>
        have : generations env (a' ++ [e]) = generations env a' := by simp [generations, hd]
        rw [this]
        exact hk
      | some x =>
        cases x with
        | generateKey g' =>
          have hgen : generations env (a' ++ [e]) = generations env a' + 1 := by simp [generations, hd]
          have hle : generations env (a' ++ [e]) ≤ generations env q := by
            rw [hq]
            unfold generations
            rw [List.filter_append (l₁ := a' ++ [e])]
            simp
          rw [hgen]
          refine kept_generate (sorted_logKeys _) hk (hr e hm g' hd) ?_ (by omega)
          exact horder (p ++ ev :: a') e b (by rw [hq']; simp) g' hd _ (SMap.mem_of_get hk.held)
        | decrypt k' r =>
          have : generations env (a' ++ [e]) = generations env a' := by simp [generations, hd]
          rw [this]
          refine kept_remove hk ?_
          rintro rfl
          exact hu e hm r hd
        | _ =>
          have : generations env (a' ++ [e]) = generations env a' := by simp [generations, hd]
          rw [this]
          exact hk

/-- The hypotheses of `C36_kept_sequential` hold of a key for `[2]` after another one was generated, where two keys can be held. -/
example : exEnv.capacity = 2 ∧ ∃ ev q s g, OneAtATime exEnv [] ([] ++ ev :: q) ∧ Replica exEnv [] ([] ++ ev :: q) s ∧ Generates exEnv ev g ∧ g.keyId = [2] ∧
    generations exEnv q = 1 ∧ (∀ e ∈ q, ∀ g', Generates exEnv e g' → g'.keyId ≠ g.keyId) ∧ ∀ e ∈ q, ∀ r, ¬ Decrypts exEnv e g.keyId r := by
  obtain ⟨e1, g1, h1, a1, b1, _⟩ := ex_generate .nil 2 rfl
  have hk : SMap.get (logKeys exEnv ([] ++ [e1])) [1] = none := by
    rw [logKeys_snoc]
    simp only [applyKeys, show _ = _ from a1]
    rw [get_afterGenerate, if_neg (by rw [b1]; decide)]
    split <;> rfl
  obtain ⟨e2, g2, h2, a2, b2, _⟩ := ex_generate h1 1 hk
  obtain ⟨s, hs⟩ := replica_exists (env := exEnv) [] ([] ++ [e1, e2])
  refine ⟨rfl, e1, [e2], s, g1, by simpa using h2, hs, a1, b1, ?_, ?_, ?_⟩
  · have a2' : exEnv.decEv e2.contents = _ := a2
    simp [generations, a2']
  · intro e he g' hg'
    simp only [List.mem_singleton] at he
    subst he
    have : g' = g2 := by
      have := hg'.symm.trans a2
      simpa using this
    rw [this, b1, b2]
    decide
  · intro e he r hd
    simp only [List.mem_singleton] at he
    subst he
    have := hd.symm.trans a2
    simp at this

end TCP.Willow
