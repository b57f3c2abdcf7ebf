import Verif.Spec.Willow
import Verif.Lib.ListExtra

/-! # Proofs about the willow decryptor -/

namespace TCP.Willow
open TCP ActorSpec Spec

variable {env : Env}

/-! ## Counting -/

theorem keyIds_nodup {m : SMap Bytes KeyPair} (h : SMap.Sorted m) : (m.map Prod.fst).Nodup := by
  unfold SMap.Sorted at h
  rw [List.Nodup, List.pairwise_map]
  exact h.imp fun hab => KeyOrd.ne_of_lt hab

theorem mem_keyIds {m : SMap Bytes KeyPair} {k : Bytes} (h : SMap.get m k ≠ none) : k ∈ m.map Prod.fst := by
  cases hx : SMap.get m k with
  | none => exact absurd hx h
  | some v => exact List.mem_map.mpr ⟨_, SMap.mem_of_get hx, rfl⟩

theorem holdsAtMost_iff {s : State} (h : SMap.Sorted s.keys) {n : Nat} : HoldsAtMost s n ↔ s.keys.length ≤ n := by
  constructor
  · intro hm
    have := hm (s.keys.map Prod.fst) (keyIds_nodup h) (fun k hk => by
      obtain ⟨e, he, rfl⟩ := List.mem_map.mp hk
      obtain ⟨k, v⟩ := e
      rw [stored, SMap.get_of_mem h he]; simp)
    simpa using this
  · intro hl ks hn hs
    have := length_le_of_nodup_subset (ys := s.keys.map Prod.fst) hn (fun k hk => mem_keyIds (hs k hk))
    simp at this
    omega

theorem holds_iff {s : State} (h : SMap.Sorted s.keys) {n : Nat} : Holds s n ↔ s.keys.length = n := by
  constructor
  · rintro ⟨hm, ks, hn, hs, hl⟩
    have h1 := (holdsAtMost_iff h).mp hm
    have := length_le_of_nodup_subset (ys := s.keys.map Prod.fst) hn (fun k hk => mem_keyIds (hs k hk))
    simp at this
    omega
  · intro hl
    refine ⟨(holdsAtMost_iff h).mpr (by omega), s.keys.map Prod.fst, keyIds_nodup h, ?_, by simpa using hl⟩
    intro k hk
    obtain ⟨e, he, rfl⟩ := List.mem_map.mp hk
    obtain ⟨k, v⟩ := e
    rw [stored, SMap.get_of_mem h he]; simp

/-! ## The oldest key -/

theorem foldl_min (l : List (Bytes × KeyPair)) (m : Bytes × KeyPair) :
    let r := l.foldl (fun m e => if e.2.order < m.2.order then e else m) m
    (r = m ∨ r ∈ l) ∧ r.2.order ≤ m.2.order ∧ ∀ e ∈ l, r.2.order ≤ e.2.order := by
  induction l generalizing m with
  | nil => simp
  | cons e l ih =>
    simp only [List.foldl_cons]
    have := ih (if e.2.order < m.2.order then e else m)
    obtain ⟨h1, h2, h3⟩ := this
    by_cases hlt : e.2.order < m.2.order
    · simp only [if_pos hlt] at h1 h2 h3 ⊢
      refine ⟨?_, by omega, ?_⟩
      · rcases h1 with h1 | h1
        · rw [h1]; simp
        · exact Or.inr (List.mem_cons_of_mem _ h1)
      · intro x hx
        rcases List.mem_cons.mp hx with rfl | hx
        · exact h2
        · exact h3 x hx
    · simp only [if_neg hlt] at h1 h2 h3 ⊢
      refine ⟨?_, h2, ?_⟩
      · rcases h1 with h1 | h1
        · exact Or.inl h1
        · exact Or.inr (List.mem_cons_of_mem _ h1)
      · intro x hx
        rcases List.mem_cons.mp hx with rfl | hx
        · omega
        · exact h3 x hx

theorem oldest_spec {m : SMap Bytes KeyPair} (hs : SMap.Sorted m) (hne : m ≠ []) :
    ∃ k kp, oldest m = some k ∧ SMap.get m k = some kp ∧ ∀ j kp', SMap.get m j = some kp' → kp.order ≤ kp'.order := by
  cases m with
  | nil => exact absurd rfl hne
  | cons e rest =>
    obtain ⟨i, k⟩ := e
    have := foldl_min rest (i, k)
    obtain ⟨h1, h2, h3⟩ := this
    refine ⟨_, (rest.foldl (fun m e => if e.2.order < m.2.order then e else m) (i, k)).2, rfl, ?_, ?_⟩
    · apply SMap.get_of_mem hs
      rcases h1 with h1 | h1
      · simp only [h1]; simp
      · exact List.mem_cons_of_mem _ h1
    · intro j kp' hj
      have := SMap.mem_of_get hj
      rcases List.mem_cons.mp this with he | he
      · cases he; exact h2
      · exact h3 _ he

/-! ## Generation -/

theorem sorted_afterGenerate {m : SMap Bytes KeyPair} (hs : SMap.Sorted m) (g : GenerateKey) :
    SMap.Sorted (afterGenerate env m g) := by
  unfold afterGenerate
  simp only
  split
  · cases oldest m with
    | none => exact hs.insert _ _
    | some k => exact (hs.remove k).insert _ _
  · exact hs.insert _ _

theorem length_afterGenerate {m : SMap Bytes KeyPair} (hs : SMap.Sorted m) (hc : 0 < env.capacity) (hl : m.length ≤ env.capacity)
    (g : GenerateKey) : (afterGenerate env m g).length ≤ env.capacity := by
  unfold afterGenerate
  simp only
  split
  · rename_i hfull
    obtain ⟨k, kp, ho, hg, _⟩ := oldest_spec hs (by intro h; rw [h] at hfull; simp at hfull; omega)
    rw [ho]
    have := SMap.length_remove_lt hg
    have := SMap.length_insert_le (SMap.remove m k) g.keyId ⟨g.publicKey, g.privateKey, g.order⟩
    simp only at *
    omega
  · have := SMap.length_insert_le m g.keyId ⟨g.publicKey, g.privateKey, g.order⟩
    omega

theorem get_afterGenerate {m : SMap Bytes KeyPair} (g : GenerateKey) (j : Bytes) :
    SMap.get (afterGenerate env m g) j =
      if g.keyId = j then some ⟨g.publicKey, g.privateKey, g.order⟩
      else if m.length = env.capacity ∧ oldest m = some j then none
      else SMap.get m j := by
  unfold afterGenerate
  simp only
  rw [SMap.get_insert]
  by_cases hj : g.keyId = j
  · simp [hj]
  · simp only [hj, if_false]
    by_cases hfull : m.length = env.capacity
    · simp only [hfull, if_true, true_and]
      cases ho : oldest m with
      | none => simp
      | some k =>
        simp only [SMap.get_remove, Option.some.injEq]
    · simp [hfull]

/-! ## Replicas -/

/-- The keys after an event. -/
def applyKeys (env : Env) (keys : SMap Bytes KeyPair) (ev : ActorEvent) : SMap Bytes KeyPair :=
  match env.decEv ev.contents with
  | some (.generateKey g) => afterGenerate env keys g
  | some (.decrypt k _) => SMap.remove keys k
  | _ => keys

/-- The keys after a log. -/
def logKeys (env : Env) (evs : List ActorEvent) : SMap Bytes KeyPair := evs.foldl (applyKeys env) []

theorem logKeys_snoc (evs : List ActorEvent) (ev : ActorEvent) : logKeys env (evs ++ [ev]) = applyKeys env (logKeys env evs) ev := by
  simp [logKeys]

theorem sorted_applyKeys {m : SMap Bytes KeyPair} (h : SMap.Sorted m) (ev : ActorEvent) : SMap.Sorted (applyKeys env m ev) := by
  unfold applyKeys
  split
  · exact sorted_afterGenerate h _
  · exact h.remove _
  · exact h

theorem sorted_logKeys (evs : List ActorEvent) : SMap.Sorted (logKeys env evs) := by
  unfold logKeys
  suffices ∀ m, SMap.Sorted m → SMap.Sorted (evs.foldl (applyKeys env) m) from this [] SMap.Sorted.nil
  induction evs with
  | nil => exact fun m h => h
  | cons e evs ih => exact fun m h => ih _ (sorted_applyKeys h e)

theorem length_logKeys (hc : 0 < env.capacity) (evs : List ActorEvent) : (logKeys env evs).length ≤ env.capacity := by
  unfold logKeys
  suffices ∀ m : SMap Bytes KeyPair, SMap.Sorted m → m.length ≤ env.capacity → (evs.foldl (applyKeys env) m).length ≤ env.capacity from
    this [] SMap.Sorted.nil (by simp)
  induction evs with
  | nil => exact fun m _ h => h
  | cons e evs ih =>
    intro m hs hl
    refine ih _ (sorted_applyKeys hs e) ?_
    unfold applyKeys
    split
    · exact length_afterGenerate hs hc hl _
    · exact Nat.le_trans (SMap.length_remove_le _ _) hl
    · exact hl

theorem apply_keys {ctx : ActorCtx} {s s' : State} {ec : ActorEventCtx} {ev : ActorEvent} {res : Except ActorErr EventOutcome}
    (h : onApplyEvent env ctx s ec ev = .ok (s', res)) : s'.keys = applyKeys env s.keys ev := by
  unfold onApplyEvent at h
  unfold applyKeys
  simp only at h
  split at h <;> rename_i hd <;> rw [hd] <;> simp at h <;> rw [← h.1]

theorem command_keys {ctx : ActorCtx} {s s' : State} {c : Option ActorCommand} {res : Except ActorErr CommandOutcome}
    (h : onProcessCommand env ctx s c = .ok (s', res)) : s'.keys = s.keys := by
  unfold onProcessCommand at h
  split at h
  · simp at h; rw [← h.1]
  · split at h
    · simp at h; rw [← h.1]
    · split at h
      · simp at h; rw [← h.1]
      · split at h
        · unfold generateCommand at h
          split at h <;> (simp at h; rw [← h.1])
        · rw [Run.bind_eq_ok] at h
          obtain ⟨⟨t, o⟩, h1, h2⟩ := h
          simp at h2
          unfold decryptCommand at h1
          split at h1
          · simp at h1; rw [← h2.1, ← h1.1]
          · split at h1
            · simp at h1
            · simp at h1; rw [← h2.1, ← h1.1]
        · simp at h; rw [← h.1]

theorem replica_keys (hl : Lawful env) {cfg : Bytes} {evs : List ActorEvent} {s : State} (h : Replica env cfg evs s) :
    s.keys = logKeys env evs := by
  induction h with
  | @start ctx s0 s h0 hc h =>
    simp [Started, actor] at h
    rw [← h]; exact h0
  | @apply evs s ctx ec ev res s' h hs ih =>
    cases hs with
    | apply h1 => rw [apply_keys (ctx := ctx) h1, ih, logKeys_snoc]
  | @command evs s ctx c res s' h hs ih =>
    cases hs with
    | command h1 => rw [command_keys h1, ih]
  | @save evs s ctx res s' h hs ih =>
    cases hs with
    | save h1 => simp [actor, onSaveSnapshot] at h1; rw [← h1.1, ih]
  | @load evs s more ctx1 t t' ctx b s' h g hsave hs ih1 ih2 =>
    cases hsave with
    | save h1 =>
      cases hs with
      | load h2 =>
        simp [actor, onSaveSnapshot] at h1
        obtain ⟨_, h1⟩ := h1
        rw [← h1] at h2
        simp [actor, onLoadSnapshot, hl.snap] at h2
        rw [← h2]
        simp only
        rw [ih2, SMap.insertAll_self (sorted_logKeys _)]

/-- A replica reflecting any log exists, since applying an event never panics. -/
theorem replica_exists (cfg : Bytes) (evs : List ActorEvent) : ∃ s, Replica env cfg evs s := by
  suffices ∀ n, ∀ evs : List ActorEvent, evs.length = n → ∃ s, Replica env cfg evs s from this _ evs rfl
  intro n
  induction n with
  | zero =>
    intro evs h
    have : evs = [] := List.eq_nil_of_length_eq_zero h
    subst this
    exact ⟨⟨[], 0⟩, .start (ctx := ⟨1, 0, cfg, true⟩) (show State.Fresh ⟨[], 0⟩ from rfl) rfl rfl⟩
  | succ n ih =>
    intro evs h
    have hne : evs ≠ [] := by intro e; rw [e] at h; simp at h
    obtain ⟨s, hs⟩ := ih evs.dropLast (by simp [h])
    have hx : ∃ s' res, (actor env).onApplyEvent ⟨1, 0, cfg, true⟩ s ⟨0, true⟩ (evs.getLast hne) = .ok (s', res) := by
      show ∃ s' res, onApplyEvent env ⟨1, 0, cfg, true⟩ s ⟨0, true⟩ (evs.getLast hne) = .ok (s', res)
      unfold onApplyEvent
      simp only
      split <;> exact ⟨_, _, rfl⟩
    obtain ⟨s', res, hx⟩ := hx
    have := hs.apply (.apply hx)
    rw [List.dropLast_concat_getLast] at this
    exact ⟨s', this⟩

/-! ## What commands propose -/

theorem command_event {ctx : ActorCtx} {s s' : State} {c : ActorCommand} {out : CommandOutcome} {ev : ActorEvent}
    (h : onProcessCommand env ctx s (some c) = .ok (s', .ok out)) (he : out.event = some ev) :
    (∃ k, env.decReq c.header = some (.generateKey k) ∧ SMap.get s.keys k = none ∧
      ev = ⟨c.correlationId, env.encEv (.generateKey ⟨(env.gen k s.draws).1, (env.gen k s.draws).2, k, highestOrder s.keys + 1⟩)⟩) ∨
    (∃ k q kp r, env.decReq c.header = some (.decrypt k q) ∧ SMap.get s.keys k = some kp ∧ env.decrypt k kp.privateKey q s.draws = some r ∧
      ev = ⟨c.correlationId, env.encEv (.decrypt k r)⟩) := by
  unfold onProcessCommand at h
  simp only at h
  split at h
  · simp at h
  · rename_i r hr
    split at h
    · simp at h; rw [← h.2] at he; simp at he
    · split at h
      · rename_i k
        unfold generateCommand at h
        split at h
        · simp at h; rw [← h.2] at he; simp at he
        · rename_i hg
          simp at h; rw [← h.2] at he; simp at he
          exact Or.inl ⟨k, hr, hg, he.symm⟩
      · rename_i k q
        rw [Run.bind_eq_ok] at h
        obtain ⟨⟨t, o⟩, h1, h2⟩ := h
        simp at h2
        unfold decryptCommand at h1
        split at h1
        · simp at h1; rw [← h2.2, ← h1.2] at he; simp at he
        · rename_i kp hg
          split at h1
          · simp at h1
          · rename_i r hd
            simp at h1; rw [← h2.2, ← h1.2] at he; simp at he
            exact Or.inr ⟨k, q, kp, r, hr, hg, hd, he.symm⟩
      · simp at h; rw [← h.2] at he; simp at he

theorem foldl_max (l : List (Bytes × KeyPair)) (m : Int) :
    m ≤ l.foldl (fun m e => max m e.2.order) m ∧ ∀ e ∈ l, e.2.order ≤ l.foldl (fun m e => max m e.2.order) m := by
  induction l generalizing m with
  | nil => exact ⟨Int.le_refl _, fun _ h => nomatch h⟩
  | cons x l ih =>
    obtain ⟨h1, h2⟩ := ih (max m x.2.order)
    simp only [List.foldl]
    refine ⟨by omega, fun e he => ?_⟩
    rcases List.mem_cons.1 he with rfl | he
    · omega
    · exact h2 e he

theorem le_highestOrder {m : SMap Bytes KeyPair} {k : Bytes} {kp : KeyPair} (h : SMap.get m k = some kp) : kp.order ≤ highestOrder m := by
  have hm := SMap.mem_of_get h
  cases m with
  | nil => cases hm
  | cons x l =>
    obtain ⟨h1, h2⟩ := foldl_max l x.2.order
    rcases List.mem_cons.1 hm with rfl | hm
    · exact h1
    · exact h2 _ hm

/-! ## Logs -/

theorem oneAtATime_prefix {cfg : Bytes} {evs : List ActorEvent} (h : OneAtATime env cfg evs) :
    ∀ p ev q, evs = p ++ ev :: q → ∃ s ctx c s' out, Replica env cfg p s ∧
      (actor env).onProcessCommand ctx s (some c) = .ok (s', .ok out) ∧ out.event = some ev := by
  induction h with
  | nil => intro p ev q h; simp at h
  | @snoc evs s ctx c s' out e h r hc he ih =>
    intro p ev q heq
    rcases List.eq_nil_or_concat q with rfl | ⟨q', x, rfl⟩
    · have := List.append_inj' heq rfl
      obtain ⟨h1, h2⟩ := this
      simp at h2
      subst h1 h2
      exact ⟨s, ctx, c, s', out, r, hc, he⟩
    · have heq : evs ++ [e] = (p ++ ev :: q') ++ [x] := by simpa using heq
      obtain ⟨h1, _⟩ := List.append_inj' heq rfl
      exact ih p ev q' h1

/-- An id without key stays so until a key is generated for it. -/
theorem absent_foldl {m : SMap Bytes KeyPair} {k : Bytes} (hk : SMap.get m k = none) (evs : List ActorEvent)
    (hng : ∀ ev ∈ evs, ∀ g, Generates env ev g → g.keyId ≠ k) : SMap.get (evs.foldl (applyKeys env) m) k = none := by
  induction evs generalizing m with
  | nil => exact hk
  | cons ev evs ih =>
    refine ih ?_ (fun e he => hng e (List.mem_cons_of_mem _ he))
    unfold applyKeys
    split
    · rename_i g hd
      rw [get_afterGenerate, if_neg (hng ev (by simp) g hd), hk]
      simp
    · rw [SMap.get_remove, hk]; simp
    · exact hk

theorem logKeys_append (p q : List ActorEvent) : logKeys env (p ++ q) = q.foldl (applyKeys env) (logKeys env p) := by
  simp [logKeys]

end TCP.Willow
