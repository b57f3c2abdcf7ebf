import Verif.Proofs.Willow

/-!
# C36–C39, C59: the willow decryptor
-/

namespace TCP.Willow
open TCP ActorSpec Spec

/-! ## A concrete log: keys for `[1]` and `[2]`, then a third one for `[3]` -/

def exCtx : ActorCtx := ⟨1, 0, [], true⟩
def exGen (k : UInt8) (o : Int) : ActorEvent := ⟨7, exEnv.encEv (.generateKey ⟨[0, k], [9, 0, k], [k], o⟩)⟩

theorem dec_exGen (k : UInt8) (o : Int) : exEnv.decEv (exGen k o).contents = some (.generateKey ⟨[0, k], [9, 0, k], [k], o⟩) :=
  exEnv_lawful.ev (.generateKey ⟨[0, k], [9, 0, k], [k], o⟩)

/-! ## C36 -/

/-- Every replica holds at most `capacity` keys. -/
theorem C36_capacity {env : Env} (hl : Lawful env) (hc : 0 < env.capacity) {cfg : Bytes} {evs : List ActorEvent} {s : State}
    (h : Replica env cfg evs s) : HoldsAtMost s env.capacity := by
  have hk := replica_keys hl h
  rw [holdsAtMost_iff (by rw [hk]; exact sorted_logKeys _), hk]
  exact length_logKeys hc evs

/-- Generating a key stores exactly the generated pair, and affects another id only if the store was full; then it
removes the one key, and one with the smallest generation order. -/
theorem C36_eviction {env : Env} (hl : Lawful env) (hc : 0 < env.capacity) {cfg : Bytes} {evs : List ActorEvent} {s s' : State}
    (h : Replica env cfg evs s) {ctx : ActorCtx} {ec : ActorEventCtx} {ev : ActorEvent} {res : Except ActorErr EventOutcome}
    (ha : (actor env).onApplyEvent ctx s ec ev = .ok (s', res)) {g : GenerateKey} (hg : Generates env ev g) :
    stored s' g.keyId = some ⟨g.publicKey, g.privateKey, g.order⟩ ∧
    (¬ Holds s env.capacity → ∀ j, j ≠ g.keyId → stored s' j = stored s j) ∧
    (Holds s env.capacity → ∃ old kp, stored s old = some kp ∧ (∀ j kp', stored s j = some kp' → kp.order ≤ kp'.order) ∧
      (old ≠ g.keyId → stored s' old = none) ∧ ∀ j, j ≠ g.keyId → j ≠ old → stored s' j = stored s j) := by
  have hk := replica_keys hl h
  have hs : SMap.Sorted s.keys := by rw [hk]; exact sorted_logKeys _
  have ha : onApplyEvent env ctx s ec ev = .ok (s', res) := ha
  have hk' := apply_keys ha
  have hg' : env.decEv ev.contents = some (.generateKey g) := hg
  simp only [applyKeys, hg'] at hk'
  have hst : ∀ j, stored s' j = if g.keyId = j then some ⟨g.publicKey, g.privateKey, g.order⟩
      else if s.keys.length = env.capacity ∧ oldest s.keys = some j then none else SMap.get s.keys j :=
    fun j => by rw [stored, hk']; exact get_afterGenerate g j
  refine ⟨by rw [hst]; simp, ?_, ?_⟩
  · intro hf j hj
    rw [holds_iff hs] at hf
    rw [hst, if_neg (fun e => hj e.symm), if_neg (by simp [hf])]
    rfl
  · intro hf
    rw [holds_iff hs] at hf
    obtain ⟨k, kp, ho, hgk, hmin⟩ := oldest_spec hs (by intro e; rw [e] at hf; simp at hf; omega)
    refine ⟨k, kp, hgk, hmin, ?_, ?_⟩
    · intro hne
      rw [hst, if_neg (fun e => hne e.symm), if_pos ⟨hf, ho⟩]
    · intro j hj hjk
      rw [hst, if_neg (fun e => hj e.symm), if_neg (by rintro ⟨_, h2⟩; rw [ho] at h2; cases h2; exact hjk rfl)]
      rfl

/-- A new key gets a generation order above those of all keys its proposer holds. -/
theorem C36_order {env : Env} (hl : Lawful env) {ctx : ActorCtx} {s s' : State} {c : Option ActorCommand} {out : CommandOutcome} {ev : ActorEvent}
    {g : GenerateKey} (h : (actor env).onProcessCommand ctx s c = .ok (s', .ok out)) (he : out.event = some ev) (hg : Generates env ev g)
    {k : Bytes} {kp : KeyPair} (hk : stored s k = some kp) : kp.order < g.order := by
  cases c with
  | none =>
    simp only [actor, onProcessCommand, Run.ok.injEq, Prod.mk.injEq, Except.ok.injEq] at h
    rw [← h.2] at he
    cases he
  | some c =>
    rcases command_event (env := env) h he with ⟨k', _, _, rfl⟩ | ⟨k', q', kp', r', _, _, _, rfl⟩
    · have := (hl.ev _).symm.trans hg
      simp only [Option.some.injEq, Event.generateKey.injEq] at this
      subst this
      have := le_highestOrder hk
      simp only
      omega
    · have := (hl.ev _).symm.trans hg
      simp at this

/-- A store of capacity two, filled, and a third key: the first is evicted. -/
example : ∃ s s' res, Replica exEnv [] [exGen 1 1, exGen 2 2] s ∧ Holds s exEnv.capacity ∧
    (actor exEnv).onApplyEvent exCtx s ⟨3, true⟩ (exGen 3 3) = .ok (s', res) ∧ Generates exEnv (exGen 3 3) ⟨[0, 3], [9, 0, 3], [3], 3⟩ ∧
    stored s [1] ≠ none ∧ stored s' [1] = none ∧ stored s' [2] ≠ none ∧ stored s' [3] ≠ none := by
  obtain ⟨s, hs⟩ := replica_exists (env := exEnv) [] [exGen 1 1, exGen 2 2]
  have hk := replica_keys exEnv_lawful hs
  have hv : s.keys = [([1], ⟨[0, 1], [9, 0, 1], 1⟩), ([2], ⟨[0, 2], [9, 0, 2], 2⟩)] := by
    rw [hk]; simp only [logKeys, List.foldl, applyKeys, dec_exGen]; decide
  have hx : (actor exEnv).onApplyEvent exCtx s ⟨3, true⟩ (exGen 3 3)
      = .ok ({ s with keys := afterGenerate exEnv s.keys ⟨[0, 3], [9, 0, 3], [3], 3⟩ },
        .ok ⟨[.withHeader 7 (exEnv.encResp (.generateKey [3] [0, 3]))]⟩) := by
    simp only [actor, onApplyEvent, dec_exGen]; rfl
  refine ⟨s, _, _, hs, ?_, hx, dec_exGen 3 3, ?_, ?_, ?_, ?_⟩
  · rw [holds_iff (by rw [hk]; exact sorted_logKeys _), hv]; rfl
  all_goals (simp only [stored, hv]; decide)

/-! ## C37 -/

/-- C37 fails when commands are pipelined: on one leader, one key is generated for `k`, two decryption requests are
handled before the first event is applied, and both decryption results are released. -/
theorem C37_pipelined_fails {env : Env} (hl : Lawful env) (k q : Bytes) (hq : ∀ p n, env.decrypt k p q n ≠ none) :
    ∃ s cg cd1 cd2 eg e1 e2 r1 r2, AsksKey env cg k ∧ AsksDecrypt env cd1 k q ∧ AsksDecrypt env cd2 k q ∧
      (∃ g, Generates env eg g) ∧ Decrypts env e1 k r1 ∧ Decrypts env e2 k r2 ∧
      Steps (actor env) ⟨[], 0⟩
        [.command exCtx (some cg) (.ok ⟨[], some eg⟩),
         .apply exCtx ⟨1, true⟩ eg (.ok ⟨[⟨cg.correlationId, env.encResp (.generateKey k (env.gen k 0).1), []⟩]⟩),
         .command exCtx (some cd1) (.ok ⟨[], some e1⟩),
         .command exCtx (some cd2) (.ok ⟨[], some e2⟩),
         .apply exCtx ⟨2, true⟩ e1 (.ok ⟨[⟨cd1.correlationId, env.encResp (.decrypt r1), []⟩]⟩),
         .apply exCtx ⟨3, true⟩ e2 (.ok ⟨[⟨cd2.correlationId, env.encResp (.decrypt r2), []⟩]⟩)] s := by
  obtain ⟨bg, hbg⟩ := hl.req (.generateKey k)
  obtain ⟨bd, hbd⟩ := hl.req (.decrypt k q)
  obtain ⟨r1, hr1⟩ := Option.ne_none_iff_exists'.mp (hq (env.gen k 0).2 1)
  obtain ⟨r2, hr2⟩ := Option.ne_none_iff_exists'.mp (hq (env.gen k 0).2 2)
  let g : GenerateKey := ⟨(env.gen k 0).1, (env.gen k 0).2, k, 1⟩
  let keys := afterGenerate env [] g
  have hget : SMap.get keys k = some ⟨(env.gen k 0).1, (env.gen k 0).2, 1⟩ := by
    show SMap.get (afterGenerate env [] g) k = _
    rw [get_afterGenerate]; simp [g]
  refine ⟨⟨SMap.remove (SMap.remove keys k) k, 3⟩, ⟨1, bg, []⟩, ⟨2, bd, []⟩, ⟨3, bd, []⟩, ⟨1, env.encEv (.generateKey g)⟩,
    ⟨2, env.encEv (.decrypt k r1)⟩, ⟨3, env.encEv (.decrypt k r2)⟩, r1, r2, hbg, hbd, hbd, ⟨g, hl.ev _⟩, hl.ev _, hl.ev _, ?_⟩
  refine .step (s1 := ⟨[], 1⟩) (.command ?_) (.step (s1 := ⟨keys, 1⟩) (.apply ?_) (.step (s1 := ⟨keys, 2⟩) (.command ?_)
    (.step (s1 := ⟨keys, 3⟩) (.command ?_) (.step (s1 := ⟨SMap.remove keys k, 3⟩) (.apply ?_) (.step (.apply ?_) .refl)))))
  · simp [actor, onProcessCommand, hbg, generateCommand, exCtx, g, highestOrder]
  · simp [actor, onApplyEvent, hl.ev, keys, g, ActorCommand.withHeader]
  · simp [actor, onProcessCommand, hbd, decryptCommand, exCtx, hget, hr1]
  · simp [actor, onProcessCommand, hbd, decryptCommand, exCtx, hget, hr2]
  · simp [actor, onApplyEvent, hl.ev, ActorCommand.withHeader]
  · simp [actor, onApplyEvent, hl.ev, ActorCommand.withHeader]

/-- The hypotheses of `C37_pipelined_fails` hold of a concrete environment. -/
example : Lawful exEnv ∧ ∀ p n, exEnv.decrypt [1] p [5] n ≠ none := ⟨exEnv_lawful, by simp [exEnv]⟩

/-- What holds in every history, pipelined or not: on a replica where a decryption of `k` has been applied and no key
was generated for `k` since, a leader refuses to decrypt with `k`. -/
theorem C37_after_use_partial {env : Env} (hl : Lawful env) {cfg : Bytes} {p m : List ActorEvent} {d : ActorEvent} {k r q : Bytes}
    {s : State} (h : Replica env cfg (p ++ d :: m) s) (hd : Decrypts env d k r)
    (hm : ∀ ev ∈ m, ∀ g, Generates env ev g → g.keyId ≠ k) {ctx : ActorCtx} {c : ActorCommand} (hlead : ctx.leader = true)
    (hc : AsksDecrypt env c k q) :
    (actor env).onProcessCommand ctx s (some c)
      = .ok (s, .ok ⟨[⟨c.correlationId, env.encResp (.error .failedPrecondition), []⟩], none⟩) := by
  have hk : stored s k = none := by
    rw [stored, replica_keys hl h, logKeys_append]
    simp only [List.foldl]
    refine absent_foldl ?_ m hm
    have hd : env.decEv d.contents = _ := hd
    simp only [applyKeys, hd, SMap.get_remove, if_true]
  unfold AsksDecrypt at hc
  unfold stored at hk
  simp [actor, onProcessCommand, hc, hlead, decryptCommand, hk, ActorCommand.withHeader]

/-- What holds if commands are not pipelined: between two released decryptions of `k` a key was generated for `k`, and
before the first one too.  Missing: pipelined commands. -/
theorem C37_sequential_partial {env : Env} (hl : Lawful env) {cfg : Bytes} {p m q : List ActorEvent} {d1 d2 : ActorEvent}
    {k r1 r2 : Bytes} (h : OneAtATime env cfg (p ++ d1 :: m ++ d2 :: q)) (h1 : Decrypts env d1 k r1) (h2 : Decrypts env d2 k r2) :
    (∃ ev ∈ m, ∃ g, Generates env ev g ∧ g.keyId = k) ∧ ∃ ev ∈ p, ∃ g, Generates env ev g ∧ g.keyId = k := by
  have key : ∀ (evs rest : List ActorEvent) (d : ActorEvent) (r : Bytes), p ++ d1 :: m ++ d2 :: q = evs ++ d :: rest → Decrypts env d k r →
      SMap.get (logKeys env evs) k ≠ none := by
    intro evs rest d r he hd
    obtain ⟨s, ctx, c, s', out, hr, hc, hev⟩ := oneAtATime_prefix h evs d rest he
    rcases command_event hc hev with ⟨k', _, _, hd'⟩ | ⟨k', q', kp, r', _, hg, _, hd'⟩
    · unfold Decrypts at hd; rw [hd', hl.ev] at hd; simp at hd
    · unfold Decrypts at hd; rw [hd', hl.ev] at hd; simp at hd
      rw [← replica_keys hl hr, ← hd.1, hg]; simp
  constructor
  · apply Classical.byContradiction
    intro hn
    refine key (p ++ d1 :: m) q d2 r2 rfl h2 ?_
    rw [logKeys_append]
    simp only [List.foldl]
    refine absent_foldl ?_ m (fun ev he g hg hk => hn ⟨ev, he, g, hg, hk⟩)
    have h1 : env.decEv d1.contents = _ := h1
    simp only [applyKeys, h1, SMap.get_remove, if_true]
  · apply Classical.byContradiction
    intro hn
    refine key p (m ++ d2 :: q) d1 r1 (by simp) h1 ?_
    exact absent_foldl (m := []) rfl p (fun ev he g hg hk => hn ⟨ev, he, g, hg, hk⟩)

/-! ## C38 -/

/-- C38 fails when commands are pipelined: two requests for a key of the same id are handled before the first event is
applied.  Both get a public key, the second event replaces the pair, and (if the two generated keys differ) the pair
stored afterwards is not the one whose public key was handed out first, although no other id and no decryption occurs. -/
theorem C38_pipelined_fails {env : Env} (hl : Lawful env) (k : Bytes)
    (hne : (env.gen k 0).1 ≠ (env.gen k 1).1) :
    ∃ s c1 c2 e1 e2 kp, AsksKey env c1 k ∧ AsksKey env c2 k ∧
      Steps (actor env) ⟨[], 0⟩
        [.command exCtx (some c1) (.ok ⟨[], some e1⟩),
         .command exCtx (some c2) (.ok ⟨[], some e2⟩),
         .apply exCtx ⟨1, true⟩ e1 (.ok ⟨[⟨c1.correlationId, env.encResp (.generateKey k (env.gen k 0).1), []⟩]⟩),
         .apply exCtx ⟨2, true⟩ e2 (.ok ⟨[⟨c2.correlationId, env.encResp (.generateKey k (env.gen k 1).1), []⟩]⟩)] s ∧
      stored s k = some kp ∧ kp.publicKey ≠ (env.gen k 0).1 ∧ kp.publicKey = (env.gen k 1).1 ∧ kp.privateKey = (env.gen k 1).2 := by
  obtain ⟨bg, hbg⟩ := hl.req (.generateKey k)
  let g1 : GenerateKey := ⟨(env.gen k 0).1, (env.gen k 0).2, k, 1⟩
  let g2 : GenerateKey := ⟨(env.gen k 1).1, (env.gen k 1).2, k, 1⟩
  refine ⟨⟨afterGenerate env (afterGenerate env [] g1) g2, 2⟩, ⟨1, bg, []⟩, ⟨2, bg, []⟩, ⟨1, env.encEv (.generateKey g1)⟩,
    ⟨2, env.encEv (.generateKey g2)⟩, ⟨(env.gen k 1).1, (env.gen k 1).2, 1⟩, hbg, hbg, ?_, ?_, hne.symm, rfl, rfl⟩
  · refine .step (s1 := ⟨[], 1⟩) (.command ?_) (.step (s1 := ⟨[], 2⟩) (.command ?_)
      (.step (s1 := ⟨afterGenerate env [] g1, 2⟩) (.apply ?_) (.step (.apply ?_) .refl)))
    · simp [actor, onProcessCommand, hbg, generateCommand, exCtx, g1, highestOrder]
    · simp [actor, onProcessCommand, hbg, generateCommand, exCtx, g2, highestOrder]
    · simp [actor, onApplyEvent, hl.ev, ActorCommand.withHeader, g1]
    · simp [actor, onApplyEvent, hl.ev, ActorCommand.withHeader, g2]
  · rw [stored, get_afterGenerate]; simp [g2]

/-- The hypotheses of `C38_pipelined_fails` hold of a concrete environment. -/
example : Lawful exEnv ∧ (exEnv.gen [1] 0).1 ≠ (exEnv.gen [1] 1).1 := ⟨exEnv_lawful, by decide⟩

/-- What holds in every history: the pair a replica stores for `k` is the public and private key of one generate event,
the last one for `k`, and no decryption of `k` was applied after it. -/
theorem C38_latest_partial {env : Env} (hl : Lawful env) {cfg : Bytes} {evs : List ActorEvent} {s : State} (h : Replica env cfg evs s)
    {k : Bytes} {kp : KeyPair} (hk : stored s k = some kp) :
    ∃ p ev q g, evs = p ++ ev :: q ∧ Generates env ev g ∧ g.keyId = k ∧ kp = ⟨g.publicKey, g.privateKey, g.order⟩ ∧
      (∀ e ∈ q, ∀ g', Generates env e g' → g'.keyId ≠ k) ∧ (∀ e ∈ q, ∀ r, ¬ Decrypts env e k r) := by
  rw [stored, replica_keys hl h] at hk
  clear h
  suffices ∀ n, ∀ evs : List ActorEvent, evs.length = n → SMap.get (logKeys env evs) k = some kp → ∃ p ev q g, evs = p ++ ev :: q ∧
      Generates env ev g ∧ g.keyId = k ∧ kp = ⟨g.publicKey, g.privateKey, g.order⟩ ∧
      (∀ e ∈ q, ∀ g', Generates env e g' → g'.keyId ≠ k) ∧ (∀ e ∈ q, ∀ r, ¬ Decrypts env e k r) from this _ evs rfl hk
  intro n
  induction n with
  | zero =>
    intro evs he hk
    have : evs = [] := List.eq_nil_of_length_eq_zero he
    subst this
    simp [logKeys] at hk
  | succ n ih =>
    intro evs he hk
    rcases List.eq_nil_or_concat evs with rfl | ⟨evs', ev, rfl⟩
    · simp at he
    · have hlen : evs'.length = n := by simpa using he
      have hsnoc := logKeys_snoc (env := env) evs' ev
      simp only [List.concat_eq_append] at hk ⊢
      rw [hsnoc] at hk
      have extend : SMap.get (logKeys env evs') k = some kp → (∀ g', Generates env ev g' → g'.keyId ≠ k) →
          (∀ r, ¬ Decrypts env ev k r) → ∃ p e q g, evs' ++ [ev] = p ++ e :: q ∧ Generates env e g ∧ g.keyId = k ∧
            kp = ⟨g.publicKey, g.privateKey, g.order⟩ ∧ (∀ e ∈ q, ∀ g', Generates env e g' → g'.keyId ≠ k) ∧
            (∀ e ∈ q, ∀ r, ¬ Decrypts env e k r) := by
        intro h1 h2 h3
        obtain ⟨p, e, q, g, he, hg, hgk, hkp, hq1, hq2⟩ := ih evs' hlen h1
        refine ⟨p, e, q ++ [ev], g, by rw [he]; simp, hg, hgk, hkp, ?_, ?_⟩
        · intro x hx
          rcases List.mem_append.mp hx with hx | hx
          · exact hq1 x hx
          · simp at hx; subst hx; exact h2
        · intro x hx
          rcases List.mem_append.mp hx with hx | hx
          · exact hq2 x hx
          · simp at hx; subst hx; exact h3
      unfold applyKeys at hk
      split at hk
      · rename_i g hd
        rw [get_afterGenerate] at hk
        by_cases hgk : g.keyId = k
        · rw [if_pos hgk] at hk
          exact ⟨evs', ev, [], g, rfl, hd, hgk, by simpa using hk.symm, by simp, by simp⟩
        · rw [if_neg hgk] at hk
          have hk : SMap.get (logKeys env evs') k = some kp := by
            split at hk
            · simp at hk
            · exact hk
          refine extend hk ?_ ?_
          · intro g' hg'; unfold Generates at hg'; rw [hd] at hg'; cases hg'; exact hgk
          · intro r hr; unfold Decrypts at hr; rw [hd] at hr; simp at hr
      · rename_i k' r' hd
        rw [SMap.get_remove] at hk
        by_cases hkk : k' = k
        · simp [hkk] at hk
        · rw [if_neg hkk] at hk
          refine extend hk ?_ ?_
          · intro g' hg'; unfold Generates at hg'; rw [hd] at hg'; simp at hg'
          · intro r hr; unfold Decrypts at hr; rw [hd] at hr; simp at hr; exact hkk hr.1
      · rename_i hn1 hn2
        exact extend hk (fun g' hg' => absurd hg' (hn1 g')) (fun r hr => absurd hr (hn2 k r))

/-- A leader that holds a key for `k` answers every request for a key of `k` at once with the stored public key, and
decrypts with the stored private key. -/
theorem C38_repeat {env : Env} {ctx : ActorCtx} {s : State} {k : Bytes} {kp : KeyPair}
    (hk : stored s k = some kp) (hlead : ctx.leader = true) {c : ActorCommand} :
    (AsksKey env c k → (actor env).onProcessCommand ctx s (some c)
      = .ok (s, .ok ⟨[⟨c.correlationId, env.encResp (.generateKey k kp.publicKey), []⟩], none⟩)) ∧
    (∀ q r, AsksDecrypt env c k q → env.decrypt k kp.privateKey q s.draws = some r → ∃ s', (actor env).onProcessCommand ctx s (some c)
      = .ok (s', .ok ⟨[], some ⟨c.correlationId, env.encEv (.decrypt k r)⟩⟩) ∧ ∀ j, stored s' j = stored s j) := by
  unfold stored at hk
  refine ⟨fun hc => ?_, fun q r hc hr => ?_⟩
  · unfold AsksKey at hc
    simp [actor, onProcessCommand, hc, hlead, generateCommand, hk, ActorCommand.withHeader]
  · unfold AsksDecrypt at hc
    exact ⟨{ s with draws := s.draws + 1 }, by simp [actor, onProcessCommand, hc, hlead, decryptCommand, hk, hr], fun _ => rfl⟩

/-- What holds if commands are not pipelined: once a key was generated for `k`, every replica stores exactly that pair
until an event decrypts `k`, or generates a key for another id while the store is full and `k`'s order is smallest.
Missing: pipelined commands. -/
theorem C38_sequential_partial {env : Env} (hl : Lawful env) {cfg : Bytes} {p q : List ActorEvent} {ev : ActorEvent}
    {g : GenerateKey} (h : OneAtATime env cfg (p ++ ev :: q)) (hg : Generates env ev g) {s : State} (hs : Replica env cfg (p ++ ev :: q) s) :
    stored s g.keyId = some ⟨g.publicKey, g.privateKey, g.order⟩ ∨
    ∃ q1 e q2, q = q1 ++ e :: q2 ∧ ∀ t, Replica env cfg (p ++ ev :: q1) t →
      stored t g.keyId = some ⟨g.publicKey, g.privateKey, g.order⟩ ∧
      ((∃ r, Decrypts env e g.keyId r) ∨
       (∃ g', Generates env e g' ∧ g'.keyId ≠ g.keyId ∧ Holds t env.capacity ∧ ∀ j kp, stored t j = some kp → g.order ≤ kp.order)) := by
  rw [stored, replica_keys hl hs]
  clear hs
  have hbase : SMap.get (logKeys env (p ++ [ev])) g.keyId = some ⟨g.publicKey, g.privateKey, g.order⟩ := by
    have hd : env.decEv ev.contents = _ := hg
    rw [logKeys_snoc]
    simp only [applyKeys, hd]
    rw [get_afterGenerate]; simp
  suffices ∀ n, ∀ q1 q2 : List ActorEvent, q = q1 ++ q2 → q1.length = n →
      SMap.get (logKeys env (p ++ ev :: q1)) g.keyId = some ⟨g.publicKey, g.privateKey, g.order⟩ ∨
      ∃ q1' e q2', q = q1' ++ e :: q2' ∧ ∀ t, Replica env cfg (p ++ ev :: q1') t →
        stored t g.keyId = some ⟨g.publicKey, g.privateKey, g.order⟩ ∧
        ((∃ r, Decrypts env e g.keyId r) ∨
         (∃ g', Generates env e g' ∧ g'.keyId ≠ g.keyId ∧ Holds t env.capacity ∧ ∀ j kp, stored t j = some kp → g.order ≤ kp.order)) from
    this _ q [] (by simp) rfl
  intro n
  induction n with
  | zero =>
    intro q1 q2 _ he
    have : q1 = [] := List.eq_nil_of_length_eq_zero he
    subst this
    exact Or.inl hbase
  | succ n ih =>
    intro q1 q2 hq he
    rcases List.eq_nil_or_concat q1 with rfl | ⟨q1', e, rfl⟩
    · simp at he
    · simp only [List.concat_eq_append] at hq he ⊢
      rcases ih q1' (e :: q2) (by rw [hq]; simp) (by simpa using he) with hget | hdone
      · have hassoc : p ++ ev :: (q1' ++ [e]) = (p ++ ev :: q1') ++ [e] := by simp
        rw [hassoc, logKeys_snoc]
        have hsplit : q = q1' ++ e :: q2 := by rw [hq]; simp
        have ht : ∀ t, Replica env cfg (p ++ ev :: q1') t → ∀ j, stored t j = SMap.get (logKeys env (p ++ ev :: q1')) j := by
          intro t ht j; rw [stored, replica_keys hl ht]
        unfold applyKeys
        split
        · rename_i g' hd
          rw [get_afterGenerate]
          by_cases hgk : g'.keyId = g.keyId
          · -- not proposed while `k` is stored
            exfalso
            obtain ⟨t, ctx, c, t', out, hr, hc, hev⟩ := oneAtATime_prefix h (p ++ ev :: q1') e q2 (by rw [hsplit]; simp)
            rcases command_event hc hev with ⟨k', _, hnone, hd'⟩ | ⟨k', q', kp, r', _, _, _, hd'⟩
            · rw [hd', hl.ev] at hd
              simp at hd
              rw [replica_keys hl hr] at hnone
              rw [← hd] at hgk
              simp only at hgk
              rw [← hgk, hnone] at hget
              simp at hget
            · rw [hd', hl.ev] at hd; simp at hd
          · rw [if_neg hgk]
            by_cases hev : (logKeys env (p ++ ev :: q1')).length = env.capacity ∧ oldest (logKeys env (p ++ ev :: q1')) = some g.keyId
            · right
              refine ⟨q1', e, q2, hsplit, fun t htt => ⟨by rw [ht t htt]; exact hget, Or.inr ⟨g', hd, hgk, ?_, ?_⟩⟩⟩
              · rw [holds_iff (by rw [replica_keys hl htt]; exact sorted_logKeys _), replica_keys hl htt]; exact hev.1
              · intro j kp hj
                obtain ⟨k, kp', ho, hgk', hmin⟩ := oldest_spec (sorted_logKeys (env := env) (p ++ ev :: q1'))
                  (by intro e; rw [e] at hev; simp [oldest] at hev)
                rw [hev.2] at ho
                cases ho
                rw [hget] at hgk'
                cases hgk'
                rw [ht t htt] at hj
                exact hmin j kp hj
            · rw [if_neg hev]; exact Or.inl hget
        · rename_i k' r' hd
          rw [SMap.get_remove]
          by_cases hkk : k' = g.keyId
          · subst hkk
            right
            exact ⟨q1', e, q2, hsplit, fun t htt => ⟨by rw [ht t htt]; exact hget, Or.inl ⟨r', hd⟩⟩⟩
          · rw [if_neg hkk]; exact Or.inl hget
        · exact Or.inl hget
      · exact Or.inr hdone

/-- A log without pipelining: a key for `[1]`, its decryption, another key for `[1]`, another decryption. -/
theorem ex_oneAtATime : ∃ g1 d1 g2 d2 x1 x2 y1 y2, OneAtATime exEnv [] [g1, d1, g2, d2] ∧ Generates exEnv g1 x1 ∧ x1.keyId = [1] ∧
    Decrypts exEnv d1 [1] y1 ∧ Generates exEnv g2 x2 ∧ x2.keyId = [1] ∧ Decrypts exEnv d2 [1] y2 := by
  obtain ⟨bg, hbg⟩ := exEnv_lawful.req (.generateKey [1])
  obtain ⟨bd, hbd⟩ := exEnv_lawful.req (.decrypt [1] [5])
  have gen : ∀ evs, OneAtATime exEnv [] evs → SMap.get (logKeys exEnv evs) [1] = none →
      ∃ g x, OneAtATime exEnv [] (evs ++ [g]) ∧ Generates exEnv g x ∧ x.keyId = [1] ∧ SMap.get (logKeys exEnv (evs ++ [g])) [1] ≠ none := by
    intro evs h hn
    obtain ⟨s, hs⟩ := replica_exists (env := exEnv) [] evs
    rw [← replica_keys exEnv_lawful hs] at hn
    have hx : (actor exEnv).onProcessCommand exCtx s (some ⟨1, bg, []⟩) = .ok ({ s with draws := s.draws + 1 }, .ok ⟨[], some ⟨1, exEnv.encEv (.generateKey
        ⟨(exEnv.gen [1] s.draws).1, (exEnv.gen [1] s.draws).2, [1], highestOrder s.keys + 1⟩)⟩⟩) := by
      simp only [actor, onProcessCommand, hbg, generateCommand, hn]; rfl
    refine ⟨_, ⟨(exEnv.gen [1] s.draws).1, (exEnv.gen [1] s.draws).2, [1], highestOrder s.keys + 1⟩, h.snoc hs hx rfl,
      exEnv_lawful.ev (.generateKey _), rfl, ?_⟩
    rw [logKeys_snoc]
    simp only [applyKeys, exEnv_lawful.ev]
    rw [get_afterGenerate]
    simp
  have dec : ∀ evs, OneAtATime exEnv [] evs → SMap.get (logKeys exEnv evs) [1] ≠ none →
      ∃ d y, OneAtATime exEnv [] (evs ++ [d]) ∧ Decrypts exEnv d [1] y ∧ SMap.get (logKeys exEnv (evs ++ [d])) [1] = none := by
    intro evs h hn
    obtain ⟨s, hs⟩ := replica_exists (env := exEnv) [] evs
    rw [← replica_keys exEnv_lawful hs] at hn
    obtain ⟨kp, hkp⟩ := Option.ne_none_iff_exists'.mp hn
    have hx : (actor exEnv).onProcessCommand exCtx s (some ⟨1, bd, []⟩) = .ok ({ s with draws := s.draws + 1 }, .ok ⟨[], some ⟨1, exEnv.encEv (.decrypt [1]
        (UInt8.ofNat s.draws :: kp.privateKey ++ [5]))⟩⟩) := by
      simp only [actor, onProcessCommand, hbd, decryptCommand, hkp]; rfl
    refine ⟨_, UInt8.ofNat s.draws :: kp.privateKey ++ [5], h.snoc hs hx rfl, exEnv_lawful.ev (.decrypt _ _), ?_⟩
    rw [logKeys_snoc]
    simp only [applyKeys, exEnv_lawful.ev, SMap.get_remove, if_true]
  obtain ⟨g1, x1, h1, a1, b1, c1⟩ := gen [] .nil rfl
  obtain ⟨d1, y1, h2, a2, c2⟩ := dec _ h1 c1
  obtain ⟨g2, x2, h3, a3, b3, c3⟩ := gen _ h2 c2
  obtain ⟨d2, y2, h4, a4, _⟩ := dec _ h3 c3
  exact ⟨g1, d1, g2, d2, x1, x2, y1, y2, by simpa using h4, a1, b1, a2, a3, b3, a4⟩

/-- With commands one at a time the evicted key is the one generated first: every other key was generated after it.  (With pipelined commands
generation orders may coincide: `C36_pipelined_ties`.) -/
theorem C36_oldest_sequential {env : Env} (hl : Lawful env) (hc : 0 < env.capacity) {cfg : Bytes} {evs : List ActorEvent} (hone : OneAtATime env cfg evs)
    {s s' : State} (h : Replica env cfg evs s) {ctx : ActorCtx} {ec : ActorEventCtx} {ev : ActorEvent} {res : Except ActorErr EventOutcome}
    (ha : (actor env).onApplyEvent ctx s ec ev = .ok (s', res)) {g : GenerateKey} (hg : Generates env ev g) {k : Bytes} {kp : KeyPair}
    (hk : stored s k = some kp) (hev : stored s' k = none) {j : Bytes} (hj : j ≠ k) {kp' : KeyPair} (hj' : stored s j = some kp') :
    ∃ a e1 b e2 c g1 g2, evs = a ++ e1 :: (b ++ e2 :: c) ∧ Generates env e1 g1 ∧ g1.keyId = k ∧ kp = ⟨g1.publicKey, g1.privateKey, g1.order⟩ ∧
      Generates env e2 g2 ∧ g2.keyId = j ∧ kp' = ⟨g2.publicKey, g2.privateKey, g2.order⟩ := by
  obtain ⟨h1, h2, h3⟩ := C36_eviction hl hc h ha hg
  have hkg : k ≠ g.keyId := by intro e; rw [e, h1] at hev; cases hev
  have hmin : kp.order ≤ kp'.order := by
    by_cases hf : Holds s env.capacity
    · obtain ⟨old, ko, ho, hm, _, hrest⟩ := h3 hf
      by_cases hko : k = old
      · subst hko
        rw [hk] at ho
        cases ho
        exact hm _ _ hj'
      · rw [hrest k hkg hko, hk] at hev
        cases hev
    · rw [h2 hf k hkg, hk] at hev
      cases hev
  obtain ⟨p1, e1, q1, g1, hd1, hg1, hk1, hkp1, hn1, _⟩ := C38_latest_partial hl h hk
  obtain ⟨p2, e2, q2, g2, hd2, hg2, hk2, hkp2, hn2, _⟩ := C38_latest_partial hl h hj'
  have hsplit := hd1.symm.trans hd2
  rcases List.append_eq_append_iff.1 hsplit with ⟨x, hx1, hx2⟩ | ⟨x, hx1, hx2⟩
  · cases x with
    | nil =>
      simp only [List.nil_append, List.cons.injEq] at hx2
      rw [hx2.1] at hg1
      have := hg1.symm.trans hg2
      simp only [Option.some.injEq, Event.generateKey.injEq] at this
      exact absurd (by rw [← hk1, ← hk2, this]) hj
    | cons y x =>
      simp only [List.cons_append, List.cons.injEq] at hx2
      obtain ⟨rfl, hx2⟩ := hx2
      exact ⟨p1, e1, x, e2, q2, g1, g2, by rw [hd1, hx2], hg1, hk1, hkp1, hg2, hk2, hkp2⟩
  · exfalso
    cases x with
    | nil =>
      simp only [List.nil_append, List.cons.injEq] at hx2
      rw [hx2.1] at hg2
      have := hg2.symm.trans hg1
      simp only [Option.some.injEq, Event.generateKey.injEq] at this
      exact hj (by rw [← hk1, ← hk2, this])
    | cons y x =>
      simp only [List.cons_append, List.cons.injEq] at hx2
      obtain ⟨rfl, hx2⟩ := hx2
      obtain ⟨s1, ctx1, c1, s1', out1, hr1, hc1, he1⟩ := oneAtATime_prefix hone p1 e1 q1 hd1
      have hq1 : p1 = p2 ++ e2 :: x := hx1
      have hsome : SMap.get (logKeys env p1) j ≠ none := by
        intro hz
        have hall : logKeys env evs = (e1 :: q1).foldl (applyKeys env) (logKeys env p1) := by rw [hd1, logKeys_append]
        have := absent_foldl (env := env) hz (e1 :: q1) (fun e he g' hg' => by
          have : e ∈ q2 := by rw [hx2]; exact List.mem_append_right _ he
          exact hn2 e this g' hg')
        rw [← hall, ← replica_keys hl h] at this
        rw [stored, this] at hj'
        cases hj'
      obtain ⟨kq, hkq⟩ := Option.ne_none_iff_exists'.1 hsome
      have hst : stored s1 j = some kq := by rw [stored, replica_keys hl hr1, hkq]
      have hlt := C36_order hl hc1 he1 hg1 hst
      obtain ⟨p3, e3, q3, g3, hd3, hg3, hk3, hkp3, hn3, _⟩ := C38_latest_partial hl hr1 hst
      have hsame : g3 = g2 := by
        rcases List.append_eq_append_iff.1 (hq1.symm.trans hd3) with ⟨y, hy1, hy2⟩ | ⟨y, hy1, hy2⟩
        · cases y with
          | nil =>
            simp only [List.nil_append, List.cons.injEq] at hy2
            rw [← hy2.1] at hg3
            have := hg3.symm.trans hg2
            simpa using this
          | cons z y =>
            simp only [List.cons_append, List.cons.injEq] at hy2
            have hm : e3 ∈ q2 := by rw [hx2, hy2.2]; simp
            exact absurd hk3 (hn2 e3 hm g3 hg3)
        · cases y with
          | nil =>
            simp only [List.nil_append, List.cons.injEq] at hy2
            rw [hy2.1] at hg3
            have := hg3.symm.trans hg2
            simpa using this
          | cons z y =>
            simp only [List.cons_append, List.cons.injEq] at hy2
            have hm : e2 ∈ q3 := by rw [hy2.2]; simp
            exact absurd hk2 (hn3 e2 hm g2 hg2)
      rw [hkp1, hkp2] at hmin
      rw [hkp3, hsame] at hlt
      simp only at hmin hlt
      omega

theorem ex_generate {evs : List ActorEvent} (h : OneAtATime exEnv [] evs) (k : UInt8) (hn : SMap.get (logKeys exEnv evs) [k] = none) :
    ∃ g x, OneAtATime exEnv [] (evs ++ [g]) ∧ Generates exEnv g x ∧ x.keyId = [k] ∧ x.order = highestOrder (logKeys exEnv evs) + 1 := by
  obtain ⟨bg, hbg⟩ := exEnv_lawful.req (.generateKey [k])
  obtain ⟨s, hs⟩ := replica_exists (env := exEnv) [] evs
  rw [← replica_keys exEnv_lawful hs] at hn
  have hx : (actor exEnv).onProcessCommand exCtx s (some ⟨1, bg, []⟩) = .ok ({ s with draws := s.draws + 1 }, .ok ⟨[], some ⟨1, exEnv.encEv (.generateKey
      ⟨(exEnv.gen [k] s.draws).1, (exEnv.gen [k] s.draws).2, [k], highestOrder s.keys + 1⟩)⟩⟩) := by
    simp only [actor, onProcessCommand, hbg, generateCommand, hn]; rfl
  exact ⟨_, ⟨(exEnv.gen [k] s.draws).1, (exEnv.gen [k] s.draws).2, [k], highestOrder s.keys + 1⟩, h.snoc hs hx rfl,
    exEnv_lawful.ev (.generateKey _), rfl, by rw [replica_keys exEnv_lawful hs]⟩

/-- The hypotheses of `C36_oldest_sequential` hold of keys for `[2]` and `[1]`, generated one after the other, when a third is generated: the one
for `[2]` is evicted. -/
example : ∃ evs s s' ev g res kp kp', OneAtATime exEnv [] evs ∧ Replica exEnv [] evs s ∧
    (actor exEnv).onApplyEvent exCtx s ⟨3, true⟩ ev = .ok (s', res) ∧ Generates exEnv ev g ∧
    stored s [2] = some kp ∧ stored s' [2] = none ∧ stored s [1] = some kp' := by
  obtain ⟨e1, ⟨p1, q1, k1, o1⟩, h1, a1, b1, c1⟩ := ex_generate .nil 2 rfl
  simp only at b1 c1
  subst b1 c1
  have l1 : logKeys exEnv ([] ++ [e1]) = [([2], ⟨p1, q1, 1⟩)] := by
    rw [logKeys_snoc]
    have a1 : exEnv.decEv e1.contents = _ := a1
    simp only [applyKeys, a1]
    rfl
  obtain ⟨e2, ⟨p2, q2, k2, o2⟩, h2, a2, b2, c2⟩ := ex_generate h1 1 (by rw [l1]; rfl)
  simp only at b2 c2
  rw [l1] at c2
  subst b2 c2
  have l2 : logKeys exEnv ([] ++ [e1] ++ [e2]) = [([1], ⟨p2, q2, 2⟩), ([2], ⟨p1, q1, 1⟩)] := by
    rw [logKeys_snoc, l1]
    have a2 : exEnv.decEv e2.contents = _ := a2
    simp only [applyKeys, a2]
    rfl
  obtain ⟨s, hs⟩ := replica_exists (env := exEnv) [] ([] ++ [e1] ++ [e2])
  have hk := replica_keys exEnv_lawful hs
  rw [l2] at hk
  have hx : (actor exEnv).onApplyEvent exCtx s ⟨3, true⟩ (exGen 3 3)
      = .ok ({ s with keys := afterGenerate exEnv s.keys ⟨[0, 3], [9, 0, 3], [3], 3⟩ },
        .ok ⟨[.withHeader 7 (exEnv.encResp (.generateKey [3] [0, 3]))]⟩) := by
    simp only [actor, onApplyEvent, dec_exGen]; rfl
  refine ⟨_, s, _, _, _, _, ⟨p1, q1, 1⟩, ⟨p2, q2, 2⟩, h2, hs, hx, dec_exGen 3 3, ?_, ?_, ?_⟩
  · simp only [stored, hk]; rfl
  · simp only [stored, hk]; rfl
  · simp only [stored, hk]; rfl

/-- With pipelined commands a younger key may be evicted: a leader is asked for keys for `[2]` and `[1]` before it applies either event, both get
the same generation order, and the one for `[1]`, generated later, is evicted when a third key is generated. -/
theorem C36_pipelined_ties : ∃ s s' e1 e2 out, Steps (actor exEnv) ⟨[], 0⟩
      [.command exCtx (some ⟨1, [1, 0, 1, 0, 2], []⟩) (.ok ⟨[], some e1⟩), .command exCtx (some ⟨2, [1, 0, 1, 0, 1], []⟩) (.ok ⟨[], some e2⟩),
       .apply exCtx ⟨2, true⟩ e1 (.ok ⟨[⟨1, exEnv.encResp (.generateKey [2] [0, 2]), []⟩]⟩),
       .apply exCtx ⟨3, true⟩ e2 (.ok ⟨[⟨2, exEnv.encResp (.generateKey [1] [1, 1]), []⟩]⟩)] s ∧
    (actor exEnv).onApplyEvent exCtx s ⟨4, true⟩ (exGen 3 2) = .ok (s', out) ∧ stored s' [2] ≠ none ∧ stored s' [1] = none := by
  refine ⟨⟨[([1], ⟨[1, 1], [9, 1, 1], 1⟩), ([2], ⟨[0, 2], [9, 0, 2], 1⟩)], 2⟩, _, _, _, _, .step (.command rfl) (.step (.command rfl) (.step (.apply rfl) (.step (.apply rfl) .refl))), rfl, ?_, ?_⟩
  all_goals decide

/-! ## C39 -/

/-- Loading a snapshot a replica saved into any state stores exactly the saver's keys with their generation order. -/
theorem C39_restore {env : Env} (hl : Lawful env) {cfg : Bytes} {evs : List ActorEvent} {s s' t t' : State} (h : Replica env cfg evs s)
    {ctx ctx' : ActorCtx} {b : Bytes} (hsave : (actor env).onSaveSnapshot ctx s = .ok (s', .ok b)) {res : Except ActorErr Unit}
    (hload : (actor env).onLoadSnapshot ctx' t b = .ok (t', res)) :
    res = .ok () ∧ s' = s ∧ (∀ k, stored t' k = stored s k) ∧ t'.keys = s.keys := by
  simp [actor, onSaveSnapshot] at hsave
  obtain ⟨rfl, rfl⟩ := hsave
  simp [actor, onLoadSnapshot, hl.snap] at hload
  obtain ⟨rfl, rfl⟩ := hload
  have he : SMap.insertAll [] s.keys = s.keys := SMap.insertAll_self (by rw [replica_keys hl h]; exact sorted_logKeys _)
  exact ⟨rfl, rfl, fun k => by simp only [stored, he], he⟩

/-- Two replicas reflecting the same log store the same keys, whether they applied or loaded them. -/
theorem C39_replicas {env : Env} (hl : Lawful env) {cfg : Bytes} {evs : List ActorEvent} {s t : State} (h : Replica env cfg evs s)
    (g : Replica env cfg evs t) : s.keys = t.keys := by
  rw [replica_keys hl h, replica_keys hl g]

/-- A snapshot of two keys, loaded over a third. -/
example : ∃ s t', Replica exEnv [] [exGen 1 1, exGen 2 2] s ∧ (actor exEnv).onSaveSnapshot exCtx s = .ok (s, .ok (exEnv.encSnap s.keys)) ∧
    (actor exEnv).onLoadSnapshot exCtx ⟨[([3], ⟨[0], [1], 5⟩)], 0⟩ (exEnv.encSnap s.keys) = .ok (t', .ok ()) ∧ stored t' [3] = none ∧
    stored t' [1] = some ⟨[0, 1], [9, 0, 1], 1⟩ := by
  obtain ⟨s, hs⟩ := replica_exists (env := exEnv) [] [exGen 1 1, exGen 2 2]
  have hv : s.keys = [([1], ⟨[0, 1], [9, 0, 1], 1⟩), ([2], ⟨[0, 2], [9, 0, 2], 2⟩)] := by
    rw [replica_keys exEnv_lawful hs]; simp only [logKeys, List.foldl, applyKeys, dec_exGen]; decide
  refine ⟨s, ⟨SMap.insertAll [] s.keys, 0⟩, hs, rfl, by simp [actor, onLoadSnapshot, exEnv_lawful.snap], ?_, ?_⟩
  all_goals (simp only [stored, hv]; decide)

/-! ## C59 -/

/-- C59 fails: a request that does not decode makes the actor return an error (which stops the node), leader or not. -/
theorem C59_undecodable_fails {env : Env} {ctx : ActorCtx} {s : State} {c : ActorCommand} (h : env.decReq c.header = none) :
    (actor env).onProcessCommand ctx s (some c) = .ok (s, .error .internal) := by
  simp [actor, onProcessCommand, h]

/-- C59 fails: a decryption request with malformed contents for a stored key panics the leader. -/
theorem C59_malformed_fails {env : Env} {ctx : ActorCtx} {s : State} {c : ActorCommand} {k q : Bytes} {kp : KeyPair}
    (hc : AsksDecrypt env c k q) (hlead : ctx.leader = true) (hk : stored s k = some kp) (hq : env.decrypt k kp.privateKey q s.draws = none) :
    (actor env).onProcessCommand ctx s (some c) = .panic := by
  unfold AsksDecrypt at hc; unfold stored at hk
  simp [actor, onProcessCommand, hc, hlead, decryptCommand, hk, hq]

/-- Both kinds of request exist on a replica of a concrete environment. -/
example : ∃ s kp, Replica exEnv [] [exGen 1 1] s ∧ stored s [1] = some kp ∧ exEnv.decrypt [1] kp.privateKey [] s.draws = none ∧
    exEnv.decReq [200] = none := by
  obtain ⟨s, hs⟩ := replica_exists (env := exEnv) [] [exGen 1 1]
  have hv : s.keys = [([1], ⟨[0, 1], [9, 0, 1], 1⟩)] := by
    rw [replica_keys exEnv_lawful hs]; simp only [logKeys, List.foldl, applyKeys, dec_exGen]; decide
  exact ⟨s, ⟨[0, 1], [9, 0, 1], 1⟩, hs, by simp only [stored, hv]; decide, by simp [exEnv], by decide⟩

/-- What holds: a request that decodes, and whose decryption succeeds if it asks for one, gets exactly one answer or
exactly one event, with its correlation id; it changes no key.  Only a leader proposes.  Missing: malformed requests. -/
theorem C59_decisions_partial {env : Env} {ctx : ActorCtx} {s : State} {c : ActorCommand} {r : Request} (hr : env.decReq c.header = some r)
    (hd : ∀ k q kp, r = .decrypt k q → stored s k = some kp → env.decrypt k kp.privateKey q s.draws ≠ none) :
    ∃ s' out, (actor env).onProcessCommand ctx s (some c) = .ok (s', .ok out) ∧ (∀ j, stored s' j = stored s j) ∧
      ((∃ x, out = ⟨[⟨c.correlationId, x, []⟩], none⟩) ∨ (ctx.leader = true ∧ ∃ x, out = ⟨[], some ⟨c.correlationId, x⟩⟩)) := by
  show ∃ s' out, onProcessCommand env ctx s (some c) = _ ∧ _
  simp only [onProcessCommand, hr]
  cases hlead : ctx.leader with
  | false => exact ⟨_, _, rfl, fun _ => rfl, Or.inl ⟨_, rfl⟩⟩
  | true =>
    simp only [Bool.true_eq_false, if_false]
    cases r with
    | empty => exact ⟨_, _, rfl, fun _ => rfl, Or.inl ⟨_, rfl⟩⟩
    | generateKey k =>
      simp only [generateCommand]
      cases hg : SMap.get s.keys k with
      | none => exact ⟨_, _, rfl, fun _ => rfl, Or.inr ⟨trivial, _, rfl⟩⟩
      | some kp => exact ⟨_, _, rfl, fun _ => rfl, Or.inl ⟨_, rfl⟩⟩
    | decrypt k q =>
      simp only [decryptCommand]
      cases hg : SMap.get s.keys k with
      | none => exact ⟨_, _, rfl, fun _ => rfl, Or.inl ⟨_, rfl⟩⟩
      | some kp =>
        obtain ⟨x, hx⟩ := Option.ne_none_iff_exists'.mp (hd k q kp rfl hg)
        simp only [hx]
        exact ⟨_, _, rfl, fun _ => rfl, Or.inr ⟨trivial, _, rfl⟩⟩

/-- A concrete request meeting the hypotheses. -/
example : ∃ c r, exEnv.decReq (ActorCommand.header c) = some r ∧
    ∀ k q kp, r = .decrypt k q → stored ⟨[], 0⟩ k = some kp → exEnv.decrypt k kp.privateKey q 0 ≠ none := by
  obtain ⟨b, hb⟩ := exEnv_lawful.req (.decrypt [1] [5])
  exact ⟨⟨1, b, []⟩, _, hb, fun k q kp _ h => by simp [stored] at h⟩

end TCP.Willow
