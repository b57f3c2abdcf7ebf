import Verif.Proofs.Replica
import Verif.Proofs.DriverFeed
import Verif.Proofs.DriverReports
import Verif.Proofs.DriverMembers

/-! # The store and the reports of a whole replica -/

namespace TCP.Drv

variable {σ ρ κ H : Type} {S : Sys σ ρ κ H}

/-- Interactions that do not involve consensus. -/
def NotRaft : Ev H → Prop
  | .actor _ | .actorInit .. | .actorShutdown _ | .out _ | .commOut _ | .commIn _ | .commTick | .commCluster _ => True
  | _ => False

/-- What has to be checked of a predicate on consensus and the interactions. -/
structure RaftLeaves (R : RaftT ρ) (J : ρ → List (Ev H) → Prop) : Prop where
  other : ∀ {r t e}, NotRaft e → J r t → J r (t ++ [e])
  call : ∀ {r t e r'}, RaftCall R r e r' → J r t → J r' (t ++ [e])
  step : ∀ {r t m r' x}, R.makeStep r m = .ok (r', x) → J r t → J r' (t ++ [.step m])
  init : ∀ {r t id cfg b l n r' x}, R.init r id cfg b l n = .ok (r', x) → J r t → J r' (t ++ [.raftInit id b l x])

theorem RaftLeaves.leaves {J : ρ → List (Ev H) → Prop} (L : RaftLeaves S.R J) : Leaves S (fun d => J d.raft d.trace) where
  quiet hc h := by rw [hc.raft, hc.trace]; exact h
  actor {d a' e} he h := L.other (by cases e <;> first | trivial | exact he.elim) h
  host _ h := L.other trivial h
  raft hc _ _ h := L.call hc h
  init _ hi h := L.init hi h
  started _ _ h := h
  stopped h := h
  snapInit _ _ h := h
  snapCluster _ h := h
  sender _ h := h
  stashed _ _ h := h
  sending hd h := Sending.run (I := fun d => J d.raft d.trace)
    { drop := fun h => h
      sender := fun h => h
      report := fun hr h => L.call (.report hr) h
      commOut := fun _ h => L.other trivial h } hd h
  commOut _ _ h := L.other trivial h
  commIn _ _ h := L.other trivial h
  commTick h := L.other trivial h
  commCluster h := L.other trivial h
  take {d c' out} hc h := by
    clear hc
    show J d.raft (d.trace ++ out.map fun m => .out (.comm m))
    generalize d.trace = t at h ⊢
    induction out generalizing t with
    | nil => simpa using h
    | cons m ms ih =>
      have := ih (t ++ [.out (.comm m)]) (L.other (e := .out (.comm m)) trivial h)
      simpa [List.append_assoc] using this
  system _ _ hs h := L.step hs (L.other trivial h)
  chunk _ _ _ _ h := L.other trivial h
  complete _ h := h
  install _ hs h := L.step hs h

end TCP.Drv

namespace TCP.Replica

open TCP TCP.Drv TCP.Replica.Spec TCP.DrvSpec

variable {ν Y P S E H σ : Type} {A : Actor σ} {N : NodeT ν Y} {ops : Comm.Ops S E H} {V : Env P S E H} {codecs : Codecs}

/-! ## Calls of the node -/

theorem call_ok {β : Type} {r r' : Simple ν Y} {f : ν → Run (ν × β)} {x : β} (h : r.call f = .ok (r', x)) :
    ∃ n n', r.node = some n ∧ f n = .ok (n', x) ∧ r' = { r with node := some n' } := by
  unfold Simple.call Simple.get at h
  cases hn : r.node with
  | none => rw [hn] at h; simp [Run.unwrap] at h
  | some n =>
    rw [hn] at h
    simp only [Run.unwrap, Run.bind_ok, Run.bind_eq_ok, Run.ok.injEq, Prod.mk.injEq] at h
    obtain ⟨⟨n', y⟩, hf, rfl, rfl⟩ := h
    exact ⟨n, n', rfl, hf, rfl⟩

theorem callU_ok {r r' : Simple ν Y} {f : ν → Run ν} (h : r.callU f = .ok r') :
    ∃ n n', r.node = some n ∧ f n = .ok n' ∧ r' = { r with node := some n' } := by
  unfold Simple.callU Simple.get at h
  cases hn : r.node with
  | none => rw [hn] at h; simp [Run.unwrap] at h
  | some n =>
    rw [hn] at h
    simp only [Run.unwrap, Run.bind_ok, Run.bind_eq_ok, Run.ok.injEq] at h
    obtain ⟨n', hf, rfl⟩ := h
    exact ⟨n, n', rfl, hf, rfl⟩

theorem onStore_ok {α : Type} {r r' : Simple ν Y} {f : Storage.Store → Run (Storage.Store × Except Storage.Err α)} {x}
    (h : r.onStore N f = .ok (r', x)) :
    ∃ n s y, r.node = some n ∧ f (N.store n) = .ok (s, y) ∧ r'.node = some (N.setStore n s) := by
  obtain ⟨n, n', hn, hf, rfl⟩ := call_ok h
  simp only [Run.bind_eq_ok, Run.ok.injEq, Prod.mk.injEq] at hf
  obtain ⟨⟨s, y⟩, hs, rfl, _⟩ := hf
  exact ⟨n, s, y, hn, hs, rfl⟩

theorem getReady_ok {r r' : Simple ν Y} {x} (h : r.getReady N = .ok (r', x)) :
    ∃ n n' y, r.node = some n ∧ N.ready n = .ok (n', y, x) ∧ r'.node = some n' := by
  unfold Simple.getReady Simple.get at h
  cases hn : r.node with
  | none => rw [hn] at h; simp [Run.unwrap] at h
  | some n =>
    rw [hn] at h
    simp only [Run.unwrap, Run.bind_ok, Run.bind_eq_ok, Run.ok.injEq, Prod.mk.injEq] at h
    obtain ⟨⟨n', y, z⟩, hf, rfl, rfl⟩ := h
    exact ⟨n, n', y, rfl, hf, rfl⟩

theorem advanceReady_ok {r r' : Simple ν Y} {k x} (h : r.advanceReady N k = .ok (r', x)) :
    ∃ n n' y, r.node = some n ∧ N.advance n y = .ok (n', x) ∧ r'.node = some n' := by
  unfold Simple.advanceReady at h
  simp only [Run.bind_eq_ok] at h
  obtain ⟨y, _, h⟩ := h
  obtain ⟨n, n', hn, hf, rfl⟩ := call_ok h
  exact ⟨n, n', y, hn, hf, rfl⟩

theorem init_ok {r r' : Simple ν Y} {id cfg b l c x} (h : Simple.init N r id cfg b l c = .ok (r', x)) :
    (∃ e, x = .error e ∧ r' = r) ∨ ∃ n s, x = .ok () ∧ N.new id cfg s = .ok (.ok n) ∧ r'.node = some n ∧
      Storage.run (Storage.new c) (if l then [.apply ⟨1, 1, ⟨[id], [], []⟩, b⟩] else []) = .ok s := by
  unfold Simple.init at h
  cases l
  · simp only [Bool.false_eq_true, if_false, Run.bind_eq_ok] at h
    obtain ⟨y, hy, h⟩ := h
    cases y with
    | error e =>
      simp only [Run.ok.injEq, Prod.mk.injEq] at h
      exact Or.inl ⟨e, h.2.symm, h.1.symm⟩
    | ok n =>
      simp only [Run.ok.injEq, Prod.mk.injEq] at h
      exact Or.inr ⟨n, _, h.2.symm, hy, by rw [← h.1], rfl⟩
  · simp only [if_true] at h
    generalize hs : Storage.applySnapshot (Storage.new c) ⟨1, 1, ⟨[id], [], []⟩, b⟩ = z at h
    obtain ⟨s, res⟩ := z
    cases res with
    | error e =>
      simp only [Run.ok.injEq, Prod.mk.injEq] at h
      exact Or.inl ⟨_, h.2.symm, h.1.symm⟩
    | ok u =>
      simp only [Run.bind_eq_ok] at h
      obtain ⟨y, hy, h⟩ := h
      cases y with
      | error e =>
        simp only [Run.ok.injEq, Prod.mk.injEq] at h
        exact Or.inl ⟨e, h.2.symm, h.1.symm⟩
      | ok n =>
        simp only [Run.ok.injEq, Prod.mk.injEq] at h
        refine Or.inr ⟨n, s, h.2.symm, hy, by rw [← h.1], ?_⟩
        simp [Storage.run, Storage.step, hs]

/-! ## The store -/

/-- The store is what the calls made of it. -/
def Filed (N : NodeT ν Y) (r : Simple ν Y) (t : List (Drv.Ev H)) : Prop :=
  ∀ n, r.node = some n → ∃ c calls, calls.filter (fun o => !isRequest o) = storeCalls t ∧
    Storage.run (Storage.new c) calls = .ok (N.store n)

theorem run_append {s : Storage.Store} {a b : List Storage.Op} :
    Storage.run s (a ++ b) = (Storage.run s a).bind fun s' => Storage.run s' b := by
  induction a generalizing s with
  | nil => simp [Storage.run]
  | cons x xs ih =>
    simp only [List.cons_append, Storage.run]
    cases Storage.step s x with
    | ok s' => simp only [Run.bind_ok, ih]
    | panic => rfl

theorem asked_run {s s' : Storage.Store} (h : Asked s s') : ∃ qs, qs.filter (fun o => !isRequest o) = [] ∧ Storage.run s qs = .ok s' := by
  induction h with
  | refl => exact ⟨[], rfl, rfl⟩
  | @ask s' _ i p ih =>
    obtain ⟨qs, h1, h2⟩ := ih
    refine ⟨qs ++ [.request i p], by rw [List.filter_append, h1]; rfl, ?_⟩
    rw [run_append, h2]
    simp [Storage.run, Storage.step]

/-- The node asked for snapshots. -/
theorem filed_asked {c : Nat} {calls target : List Storage.Op} {s s' : Storage.Store} (ha : Asked s s')
    (h1 : calls.filter (fun o => !isRequest o) = target) (h2 : Storage.run (Storage.new c) calls = .ok s) :
    ∃ c' calls', calls'.filter (fun o => !isRequest o) = target ∧ Storage.run (Storage.new c') calls' = .ok s' := by
  obtain ⟨qs, q1, q2⟩ := asked_run ha
  refine ⟨c, calls ++ qs, by simp [List.filter_append, h1, q1], ?_⟩
  rw [run_append, h2]
  exact q2

theorem storeCalls_append (t : List (Drv.Ev H)) (e : Drv.Ev H) : storeCalls (t ++ [e]) = (match e with
    | .raftInit me b leader (.ok _) => if leader then [.apply ⟨1, 1, ⟨[me], [], []⟩, b⟩] else []
    | .storeHardState h => storeCalls t ++ [.setHardState h]
    | .storeAppend es _ => storeCalls t ++ [.append (es.map toStoreEntry)]
    | .storeApply s _ => storeCalls t ++ [.apply (toStoreSnapshot s)]
    | .storeCreate i c b => storeCalls t ++ [.create i c b]
    | _ => storeCalls t) := by
  unfold storeCalls
  rw [List.foldl_append]
  rfl

theorem filed_node {r r' : Simple ν Y} {t : List (Drv.Ev H)} {e : Drv.Ev H} {n n' : ν} (h : Filed N r t) (hn : r.node = some n)
    (hn' : r'.node = some n') (ha : Asked (N.store n) (N.store n')) (he : storeCalls (t ++ [e]) = storeCalls t) :
    Filed N r' (t ++ [e]) := by
  intro m hm
  rw [hn', Option.some.injEq] at hm
  subst hm
  obtain ⟨c, calls, h1, h2⟩ := h n hn
  obtain ⟨c', calls', h3, h4⟩ := filed_asked ha h1 h2
  exact ⟨c', calls', h3.trans he.symm, h4⟩

theorem filed_store {r r' : Simple ν Y} {t : List (Drv.Ev H)} {e : Drv.Ev H} {n : ν} {s : Storage.Store} {o : Storage.Op} (hN : NodeContract N)
    (h : Filed N r t) (hn : r.node = some n) (hn' : r'.node = some (N.setStore n s)) (hs : Storage.step (N.store n) o = .ok s)
    (ho : isRequest o = false) (he : storeCalls (t ++ [e]) = storeCalls t ++ [o]) :
    Filed N r' (t ++ [e]) := by
  intro m hm
  rw [hn', Option.some.injEq] at hm
  subst hm
  obtain ⟨c, calls, h1, h2⟩ := h n hn
  refine ⟨c, calls ++ [o], by rw [he, List.filter_append, h1]; simp [ho], ?_⟩
  rw [run_append, h2, hN.store_set]
  simp [Storage.run, hs]

theorem filed_leaves (hN : NodeContract N) : RaftLeaves (H := H) (raftT N) (Filed N) where
  other {r t e} he h n hn := by
    obtain ⟨c, calls, h1, h2⟩ := h n hn
    exact ⟨c, calls, by rw [h1, storeCalls_append]; cases e <;> first | rfl | exact he.elim, h2⟩
  call {r t e r'} hc h := by
    cases hc with
    | propose hx =>
      obtain ⟨n, n', hn, hf, rfl⟩ := call_ok hx
      exact filed_node h hn rfl (hN.propose hf) (by rw [storeCalls_append])
    | proposeChange hx =>
      obtain ⟨n, n', hn, hf, rfl⟩ := call_ok hx
      exact filed_node h hn rfl (hN.proposeConf hf) (by rw [storeCalls_append])
    | tick hx =>
      obtain ⟨n, n', hn, hf, rfl⟩ := callU_ok hx
      exact filed_node h hn rfl (hN.tick hf) (by rw [storeCalls_append])
    | applyChange hx =>
      obtain ⟨n, n', hn, hf, rfl⟩ := call_ok hx
      exact filed_node h hn rfl (hN.applyConf hf) (by rw [storeCalls_append])
    | ready hx =>
      obtain ⟨n, n', y, hn, hf, hn'⟩ := getReady_ok hx
      exact filed_node h hn hn' (hN.ready hf) (by rw [storeCalls_append])
    | light hx =>
      obtain ⟨n, n', y, hn, hf, hn'⟩ := advanceReady_ok hx
      exact filed_node h hn hn' (hN.advance hf) (by rw [storeCalls_append])
    | advanceApply hx =>
      obtain ⟨n, n', hn, hf, rfl⟩ := callU_ok hx
      exact filed_node h hn rfl (hN.advanceApply hf) (by rw [storeCalls_append])
    | report hx =>
      obtain ⟨n, n', hn, hf, rfl⟩ := callU_ok hx
      exact filed_node h hn rfl (hN.reportSnapshot hf) (by rw [storeCalls_append])
    | @hardState hs _ hx =>
      obtain ⟨n, n', hn, hf, rfl⟩ := callU_ok hx
      simp only [Run.ok.injEq] at hf
      subst hf
      exact filed_store (o := .setHardState hs) hN h hn rfl rfl rfl (by rw [storeCalls_append])
    | @append es _ _ hx =>
      simp only [raftT] at hx
      obtain ⟨n, s, y, hn, hf, hn'⟩ := onStore_ok hx
      exact filed_store (o := .append (es.map toStoreEntry)) hN h hn hn' (by simp [Storage.step, hf]) rfl
        (by rw [storeCalls_append])
    | @apply sn _ _ hx =>
      simp only [raftT] at hx
      obtain ⟨n, s, y, hn, hf, hn'⟩ := onStore_ok hx
      simp only [Run.ok.injEq] at hf
      exact filed_store (o := .apply (toStoreSnapshot sn)) hN h hn hn' (by simp [Storage.step, hf]) rfl
        (by rw [storeCalls_append])
    | @create i c b _ _ hx =>
      simp only [raftT] at hx
      obtain ⟨n, s, y, hn, hf, hn'⟩ := onStore_ok hx
      exact filed_store (o := .create i c b) hN h hn hn' (by simp [Storage.step, hf]) rfl (by rw [storeCalls_append])
  step {r t m r' x} hx h := by
    obtain ⟨n, n', hn, hf, rfl⟩ := call_ok hx
    exact filed_node h hn rfl (hN.step hf) (by rw [storeCalls_append])
  init {r t id cfg b l c r' x} hx h := by
    rcases init_ok hx with ⟨e, rfl, rfl⟩ | ⟨n, s, rfl, hnew, hn', hs⟩
    · intro n hn
      obtain ⟨c, calls, h1, h2⟩ := h n hn
      exact ⟨c, calls, by rw [h1, storeCalls_append], h2⟩
    · intro m hm
      rw [hn', Option.some.injEq] at hm
      subst hm
      obtain ⟨c', calls', h3, h4⟩ := filed_asked (hN.new hnew)
        (by cases l <;> simp [isRequest] : (if l then [Storage.Op.apply ⟨1, 1, ⟨[id], [], []⟩, b⟩] else []).filter (fun o => !isRequest o)
          = if l then [Storage.Op.apply ⟨1, 1, ⟨[id], [], []⟩, b⟩] else []) hs
      exact ⟨c', calls', by rw [h3, storeCalls_append], h4⟩

/-! ## Reports -/

/-- Once consensus was created there is a node. -/
theorem node_leaves : RaftLeaves (H := H) (raftT N) (fun r t => (∃ i b l, Drv.Ev.raftInit i b l (.ok ()) ∈ t) → r.node.isSome = true) where
  other {r t e} he h := by
    rintro ⟨i, b, l, hm⟩
    rcases List.mem_append.1 hm with hm | hm
    · exact h ⟨i, b, l, hm⟩
    · rw [List.mem_singleton] at hm; subst hm; exact he.elim
  call {r t e r'} hc _ _ := by
    cases hc with
    | propose hx => obtain ⟨n, n', hn, hf, rfl⟩ := call_ok hx; rfl
    | proposeChange hx => obtain ⟨n, n', hn, hf, rfl⟩ := call_ok hx; rfl
    | tick hx => obtain ⟨n, n', hn, hf, rfl⟩ := callU_ok hx; rfl
    | applyChange hx => obtain ⟨n, n', hn, hf, rfl⟩ := call_ok hx; rfl
    | ready hx => obtain ⟨n, n', y, hn, hf, hn'⟩ := getReady_ok hx; rw [hn']; rfl
    | light hx => obtain ⟨n, n', y, hn, hf, hn'⟩ := advanceReady_ok hx; rw [hn']; rfl
    | advanceApply hx => obtain ⟨n, n', hn, hf, rfl⟩ := callU_ok hx; rfl
    | report hx => obtain ⟨n, n', hn, hf, rfl⟩ := callU_ok hx; rfl
    | hardState hx => obtain ⟨n, n', hn, hf, rfl⟩ := callU_ok hx; rfl
    | append hx => simp only [raftT] at hx; obtain ⟨n, s, y, hn, hf, hn'⟩ := onStore_ok hx; rw [hn']; rfl
    | apply hx => simp only [raftT] at hx; obtain ⟨n, s, y, hn, hf, hn'⟩ := onStore_ok hx; rw [hn']; rfl
    | create hx => simp only [raftT] at hx; obtain ⟨n, s, y, hn, hf, hn'⟩ := onStore_ok hx; rw [hn']; rfl
  step {r t m r' x} hx _ _ := by obtain ⟨n, n', hn, hf, rfl⟩ := call_ok hx; rfl
  init {r t id cfg b l c r' x} hx h := by
    rcases init_ok hx with ⟨e, rfl, rfl⟩ | ⟨n, s, rfl, hnew, hn', hs⟩
    · rintro ⟨i, b, l, hm⟩
      rcases List.mem_append.1 hm with hm | hm
      · exact h ⟨i, b, l, hm⟩
      · simp at hm
    · intro _; rw [hn']; rfl

theorem keepsNode (hN : LeaderContract N) : KeepsNode (raftT N) where
  step r m r' x _ hx := by obtain ⟨n, n', hn, hf, rfl⟩ := call_ok hx; rfl
  proposal r m r' x _ hx := by obtain ⟨n, n', hn, hf, rfl⟩ := call_ok hx; rfl
  change r m r' x _ hx := by obtain ⟨n, n', hn, hf, rfl⟩ := call_ok hx; rfl
  report r m st r' _ hx := by obtain ⟨n, n', hn, hf, rfl⟩ := callU_ok hx; rfl
  status r i st r' hx := by
    obtain ⟨n, n', hn, hf, rfl⟩ := callU_ok hx
    simp only [raftT, Simple.state, Simple.get, hn, Run.unwrap, Run.bind_ok, hN.reportLeader hf, hN.reportId hf, hN.reportTerm hf,
      hN.reportConf hf]

/-- What the replica says about its cluster. -/
def said (N : NodeT ν Y) (d : Driver σ (Simple ν Y) (Channels P S E H) H) : RaftState :=
  if leads N d then (clusterOf N d).getD RaftState.new else RaftState.new

theorem said_eq {d : Driver σ (Simple ν Y) (Channels P S E H) H} {st : RaftState} (hm : d.conf = membersOf d.trace) (h0 : d.id ≠ 0) (h : (raftT N).state d.raft = .ok st) :
    (if st.leaderId = d.id then { st with cluster := d.conf.voters } else st) = said N d := by
  simp only [raftT, Simple.state, Simple.get] at h
  cases hn : d.raft.node with
  | none => rw [hn] at h; simp [Run.unwrap] at h
  | some n =>
    rw [hn] at h
    simp only [Run.unwrap, Run.bind_ok, Run.ok.injEq] at h
    subst h
    unfold said leads clusterOf
    rw [hn, ← hm]
    cases hl : N.isLeader n
    · simp only [Bool.false_eq_true, if_false]
      rw [if_neg (fun hz => h0 hz.symm)]
      simp [hl]
    · simp only [if_true, Option.map_some, Option.getD_some]
      by_cases hi : N.leaderId n = d.id
      · simp [hi, hl]
      · simp [hi, hl]

/-- Between successful calls the driver knows what it would report. -/
theorem runs_said (hN : LeaderContract N) {a : σ} {p : P} {d : Driver σ (Simple ν Y) (Channels P S E H) H} {outs}
    (h : Runs (sys A N ops V codecs) (fresh a p) outs d) (hs : d.state ≠ .created) (he : d.ephemeral = false) (hi : d.id ≠ 0) :
    d.raft.node.isSome = true ∧ d.raftState = said N d := by
  have h0 : Fresh (fresh a p : Driver σ (Simple ν Y) (Channels P S E H) H) := ⟨_, _, _, rfl⟩
  have L := (node_leaves (N := N) (H := H)).leaves (S := sys A N ops V codecs)
  have hj : ∀ {d : Driver σ (Simple ν Y) (Channels P S E H) H} {outs}, Runs (sys A N ops V codecs) (fresh a p) outs d →
      ((∃ i b l, Drv.Ev.raftInit i b l (.ok ()) ∈ d.trace) → d.raft.node.isSome = true) := fun h => L.runs h (by
    rintro ⟨i, b, l, hm⟩; simp [fresh, Driver.new] at hm)
  induction h with
  | nil => exact absurd rfl hs
  | @snoc outs d1 instant msg out d2 hr hc ih =>
    have hcr := runs_created h0 hr
    cases receive_outcome hc with
    | unknown => exact ih hs he hi
    | @done m' d2 c' os hm hb ho =>
      have hmem := members_calls h0 (runs_calls (hr.snoc hc))
      have main : ∀ {d3 : Driver σ (Simple ν Y) (Channels P S E H) H} {m}, (∀ q, m ≠ some (.startReplica q)) →
          (sys A N ops V codecs).R.initialized d3.raft = true → d3.ephemeral = false → d3.state ≠ .created →
          body (sys A N ops V codecs) m d3 = .ok (d2, .ok ()) → d2.raft.node.isSome = true ∧
            ∃ st0, (raftT N).state d2.raft = .ok st0 ∧ d2.raftState = if st0.leaderId = d2.id then { st0 with cluster := d2.conf.voters } else st0 := by
        intro d3 m hm i3 e3 hs3 hb'
        obtain ⟨new, tn, st0, hst0, hrs, hid, _, _⟩ := body_reports (S := sys A N ops V codecs) hm (keepsNode hN) i3 e3 hs3 hb'
        refine ⟨?_, st0, hst0, hrs⟩
        cases hn : d2.raft.node with
        | none => simp [sys, raftT, Simple.state, Simple.get, hn, Run.unwrap] at hst0
        | some n => rfl
      suffices hx : d2.raft.node.isSome = true ∧
          ∃ st0, (raftT N).state d2.raft = .ok st0 ∧ d2.raftState = if st0.leaderId = d2.id then { st0 with cluster := d2.conf.voters } else st0 by
        obtain ⟨h1, st0, h2, h3⟩ := hx
        exact ⟨h1, h3.trans (said_eq hmem hi h2)⟩
      by_cases hst : d1.state = .created
      · obtain ⟨ht, _, _, _, hu, _⟩ := hcr.inv hst
        obtain ⟨r, ctx, a1, a2, b, d3, rfl, _, _, _, hs3, e3, _, _, _, t3, hb', hd3⟩ :=
          start_body_dispatched (S := sys A N ops V codecs) (d := presetState (sys A N ops V codecs) instant d1) hst hu hb he
        have hj1 := hj hr
        have k3 : ((∃ i b l, Drv.Ev.raftInit i b l (.ok ()) ∈ d3.trace) → d3.raft.node.isSome = true) :=
          (keep_dispatch L (.startReplica r) (presetState (sys A N ops V codecs) instant d1)).run hj1 _ _ hd3
        have i3 : (sys A N ops V codecs).R.initialized d3.raft = true := k3 ⟨r.idHint, b, r.isLeader, by rw [t3]; simp⟩
        exact main (by simp) i3 e3 (by rw [hs3]; simp) hb'
      · obtain ⟨d4, hstar, hd4⟩ := receive_star hc
        have hid : SameId d1 d2 := by
          have hid := hstar.sameId (show (presetState (sys A N ops V codecs) instant d1).state ≠ .created from hst)
          rcases hd4 with e | ⟨_, _, _, _, e⟩
          · rw [← e] at hid; exact ⟨hid.id, hid.ctxId, hid.config, hid.ephemeral, hid.tickPeriod⟩
          · have e1 : d2.id = d4.id := by simpa using congrArg Driver.id e
            have e2 : d2.ephemeral = d4.ephemeral := by simpa using congrArg Driver.ephemeral e
            have e3 : d2.ctx = d4.ctx := by simpa using congrArg Driver.ctx e
            have e4 : d2.tickPeriod = d4.tickPeriod := by simpa using congrArg Driver.tickPeriod e
            exact ⟨e1.trans hid.id, by rw [e3]; exact hid.ctxId, by rw [e3]; exact hid.config, e2.trans hid.ephemeral,
              e4.trans hid.tickPeriod⟩
        obtain ⟨h1, h2⟩ := ih hst (hid.ephemeral.symm.trans he) (by rw [← hid.id]; exact hi)
        refine main (d3 := presetState (sys A N ops V codecs) instant d1) ?_ h1 (hid.ephemeral.symm.trans he) hst hb
        rintro q rfl
        rw [hm, Option.map_some, start_refused hst] at hc
        simp at hc

end TCP.Replica
