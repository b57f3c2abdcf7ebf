import Verif.Spec.SurviveStore
import Verif.Proofs.Storage
import Verif.Proofs.Survive

/-!
# Proofs for C96: the log store takes what raft-rs hands out
-/

namespace TCP.Survive

open TCP TCP.Drv TCP.Replica

variable {σ ν Y : Type}

/-! ## The store -/

theorem reach_step {s s' : Storage.Store} (op : Storage.Op) (hb : ∀ b, op = .append b → Storage.Spec.Batch b) (h : Storage.Spec.Reachable s)
    (hs : Storage.step s op = .ok s') : Storage.Spec.Reachable s' := by
  obtain ⟨d, ops, h1, h2⟩ := h
  refine ⟨d, ops ++ [op], fun b hm => ?_, ?_⟩
  · rcases List.mem_append.1 hm with hm | hm
    · exact h1 b hm
    · rw [List.mem_singleton] at hm; exact hb b hm.symm
  · rw [Storage.run_append, h2]
    simp [Storage.run, hs]

theorem reach_asked {s s' : Storage.Store} (h : Storage.Spec.Reachable s) (ha : Asked s s') : Storage.Spec.Reachable s' := by
  induction ha with
  | refl => exact h
  | ask _ q p ih => exact reach_step (.request q p) (by simp) ih rfl

theorem asked_same {s s' : Storage.Store} (ha : Asked s s') : s'.entries = s.entries ∧ s'.snap = s.snap := by
  induction ha with
  | refl => exact ⟨rfl, rfl⟩
  | ask _ q p ih =>
    simp only [Storage.snapshot]
    split
    · exact ih
    · exact ih

theorem lastIndex_same {s s' : Storage.Store} (h : s'.entries = s.entries ∧ s'.snap = s.snap) : Storage.lastIndex s' = Storage.lastIndex s := by
  simp only [Storage.lastIndex, h.1, h.2]

theorem logOk_asked {i : Nat} {c : Storage.ConfState} {s s' : Storage.Store} (h : LogOk i c s) (ha : Asked s s') : LogOk i c s' := by
  have hs := asked_same ha
  exact ⟨reach_asked h.reachable ha, by rw [hs.2]; exact h.behind, by rw [hs.2]; exact h.members, by rw [lastIndex_same hs]; exact h.within⟩

theorem logOk_new (n : Nat) : LogOk 0 ⟨[], [], []⟩ (Storage.new n) :=
  ⟨⟨n, [], (by intro b hb; cases hb), rfl⟩, Nat.le_refl _, fun _ => rfl, Nat.zero_le _⟩

theorem logOk_hardState {i : Nat} {c : Storage.ConfState} {s : Storage.Store} (hs : Storage.HardState) (h : LogOk i c s) : LogOk i c (Storage.setHardState s hs) :=
  ⟨reach_step (.setHardState hs) (by simp) h.reachable rfl, h.behind, h.members, h.within⟩

/-- A newer snapshot is taken. -/
theorem logOk_apply {i : Nat} {c : Storage.ConfState} {s : Storage.Store} {sn : Storage.Snapshot} (h : LogOk i c s) (hn : i < sn.index) :
    ∃ s', Storage.applySnapshot s sn = (s', .ok ()) ∧ LogOk sn.index sn.conf s' ∧ Storage.lastIndex s' = sn.index := by
  have hi := Storage.inv_reachable h.reachable
  have h1 := hi.hi
  have h2 := h.behind
  have hf : ¬ Storage.firstIndex s > sn.index := by omega
  have hr : Storage.Spec.Reachable (Storage.applySnapshot s sn).1 := reach_step (.apply sn) (by simp) h.reachable rfl
  unfold Storage.applySnapshot at hr ⊢
  rw [if_neg hf] at hr ⊢
  exact ⟨_, rfl, ⟨hr, Nat.le_refl _, fun _ => rfl, Nat.le_refl _⟩, rfl⟩

/-- Entries that extend the log are taken. -/
theorem logOk_append {i : Nat} {c : Storage.ConfState} {s : Storage.Store} {es : List Entry} (h : LogOk i c s) (he : Extends i (Storage.lastIndex s) es) :
    ∃ s', Storage.appendEntries s (es.map toStoreEntry) = .ok (s', .ok ()) ∧ LogOk i c s' ∧
      ∀ e, es.getLast? = some e → Storage.lastIndex s' = e.index := by
  have hi := Storage.inv_reachable h.reachable
  have h1 := hi.hi
  have h2 := h.behind
  cases es with
  | nil => exact ⟨s, rfl, h, by simp⟩
  | cons e es =>
    obtain ⟨hb, hx⟩ := he
    obtain ⟨h3, h4⟩ := hx e rfl
    have happ := Storage.appendEntries_cases s (toStoreEntry e) (es.map toStoreEntry) hi
    rw [if_neg (by simp only [toStoreEntry]; omega)] at happ
    rw [List.map_cons]
    have hst : Storage.step s (.append (toStoreEntry e :: es.map toStoreEntry)) =
        .ok { s with entries := s.entries.take ((toStoreEntry e).index - Storage.firstIndex s) ++ toStoreEntry e :: es.map toStoreEntry } := by
      rw [Storage.step, happ]; rfl
    have hr := reach_step _ (by intro b hb'; cases hb'; exact hb) h.reachable hst
    refine ⟨_, happ, ⟨hr, h.behind, h.members, ?_⟩, ?_⟩
    · have hi' := Storage.inv_reachable hr
      have hl := Storage.lastIndex_eq hi'
      have hff := Storage.firstIndex_append (es := es.map toStoreEntry) (e := toStoreEntry e) hi (by simp only [toStoreEntry]; omega) (by simp only [toStoreEntry]; omega)
      rw [hff] at hl
      have hl0 := Storage.lastIndex_eq hi
      simp only [List.length_append, List.length_take, List.length_cons] at hl
      have : (toStoreEntry e).index = e.index := rfl
      omega
    · intro x hx
      have : ((s.entries.take ((toStoreEntry e).index - Storage.firstIndex s)) ++ (toStoreEntry e :: es.map toStoreEntry)).getLast? = some (toStoreEntry x) := by
        rw [← List.map_cons, List.getLast?_append, List.getLast?_map, hx]
        rfl
      simp only [Storage.lastIndex, this]
      rfl

/-- A snapshot of what was applied can be taken whenever the store asks for one. -/
theorem logOk_create {i : Nat} {c : Storage.ConfState} {s : Storage.Store} (b : Bytes) (h : LogOk i c s) (hs : Storage.shouldSnapshot s i c = true) :
    ∃ s', Storage.createSnapshot s i c b = .ok (s', .ok ()) ∧ LogOk i c s' ∧ Storage.lastIndex s' = Storage.lastIndex s := by
  have hi := Storage.inv_reachable h.reachable
  have h1 := hi.hi
  have h2 := h.behind
  have h3 := h.within
  have hl := Storage.lastIndex_eq hi
  have hf : Storage.firstIndex s ≤ i := by
    by_cases he : i = s.snap.index
    · exfalso
      simp only [Storage.shouldSnapshot, Bool.or_eq_true, decide_eq_true_eq, List.any_eq_true] at hs
      rcases hs with hs | ⟨⟨p, q⟩, hm, hq⟩
      · omega
      · rw [h.members he, he, hi.pend p q (AMap.get_of_mem hi.wf hm)] at hq
        cases hq
    · omega
  have hlen : i - Storage.firstIndex s < s.entries.length := by omega
  have hterm : ∃ t, Storage.entryTerm s i = .ok (.ok t) := by
    rw [Storage.entryTerm_eq hi]
    by_cases he : i = s.snap.index
    · exact ⟨s.snap.term, by rw [if_pos he]⟩
    · exact ⟨(s.entries[i - Storage.firstIndex s]).term, by rw [if_neg he, if_neg (by omega), List.getElem?_eq_getElem hlen]⟩
  obtain ⟨t, ht⟩ := hterm
  have hc := Storage.createSnapshot_eq hi i c b
  rw [if_neg (by omega), if_neg (by omega), ht] at hc
  have hst : Storage.step s (.create i c b) =
      .ok { Storage.setSnapshot s ⟨i, t, c, b⟩ with entries := s.entries.drop (i - Storage.firstIndex s) } := by
    rw [Storage.step, hc]; rfl
  have hr := reach_step _ (by simp) h.reachable hst
  have hlast : Storage.lastIndex { Storage.setSnapshot s ⟨i, t, c, b⟩ with entries := s.entries.drop (i - Storage.firstIndex s) } = Storage.lastIndex s := by
    have hi' := Storage.inv_reachable hr
    have hl' := Storage.lastIndex_eq hi'
    have hff := Storage.firstIndex_create hi ⟨i, t, c, b⟩ (Storage.setSnapshot s ⟨i, t, c, b⟩).requests (show ¬ i > Storage.lastIndex s by omega) (show ¬ i < Storage.firstIndex s by omega)
    change Storage.firstIndex { Storage.setSnapshot s ⟨i, t, c, b⟩ with entries := s.entries.drop (i - Storage.firstIndex s) } = i at hff
    rw [hff] at hl'
    simp only [List.length_drop] at hl'
    refine Nat.succ.inj (Eq.trans hl' ?_)
    simp only [Nat.succ_eq_add_one]
    omega
  exact ⟨_, hc, ⟨hr, Nat.le_refl _, fun _ => rfl, by rw [hlast]; exact h3⟩, hlast⟩

/-! ## The consensus layer -/

section simple
variable {N : NodeT ν Y} {E : Codecs} {T : Terms σ (Simple ν Y)} {K : NodeTerms ν Y}

theorem call_eq {β : Type} {r : Simple ν Y} {n : ν} (hn : r.node = some n) {f : ν → Run (ν × β)} {n' : ν} {b : β} (hf : f n = .ok (n', b)) :
    r.call f = .ok ({ r with node := some n' }, b) := by
  simp only [Simple.call, Simple.get, hn, Run.unwrap, Run.bind_ok, hf]

theorem callU_eq {r : Simple ν Y} {n : ν} (hn : r.node = some n) {f : ν → Run ν} {n' : ν} (hf : f n = .ok n') :
    r.callU f = .ok { r with node := some n' } := by
  simp only [Simple.callU, Simple.get, hn, Run.unwrap, Run.bind_ok, hf]

theorem get_eq {r : Simple ν Y} {n : ν} (hn : r.node = some n) : r.get = .ok n := by simp only [Simple.get, hn, Run.unwrap]

theorem onStore_eq {r : Simple ν Y} {n : ν} (hn : r.node = some n) {f : Storage.Store → Run (Storage.Store × Except Storage.Err Unit)} {s : Storage.Store}
    (hf : f (N.store n) = .ok (s, .ok ())) : r.onStore N f = .ok ({ r with node := some (N.setStore n s) }, .ok ()) := by
  simp only [Simple.onStore, Simple.call, get_eq hn, Run.bind_ok, hf, storeResult]

theorem overStore_idle {i : Nat} {c : Storage.ConfState} {r : Simple ν Y} {n : ν} (hn : r.node = some n) (hk : K.node .idle i c n) (hl : LogOk i c (N.store n)) :
    (overStore N K T).raft .idle i c r := ⟨n, hn, hk, hl, fun _ h => by cases h⟩

/-- The shipped consensus layer keeps its promises if raft-rs does. -/
theorem simple_safe (hC : NodeContract N) (hN : NodeSafe N E T K) : ConsensusSafe (raftT N) E (overStore N K T) Simple.new where
  init {id cfg b leader n} hc hb := by
    cases leader with
    | false =>
      obtain ⟨x, hx, hk⟩ := hN.join (id := id) (n := n) hc
      refine ⟨⟨some x, []⟩, ?_, overStore_idle (r := ⟨some x, []⟩) rfl hk (logOk_asked (logOk_new n) (hC.new hx))⟩
      simp only [raftT, Simple.init, Bool.false_eq_true, if_false, hx, Run.bind_ok, Simple.new]
    | true =>
      obtain ⟨s, hs, hl, _⟩ := logOk_apply (sn := ⟨1, 1, ⟨[id], [], []⟩, b⟩) (logOk_new n) (Nat.zero_lt_one)
      obtain ⟨x, hx, hk⟩ := hN.found (id := id) (n := n) hc hb hs
      refine ⟨⟨some x, []⟩, ?_, overStore_idle (r := ⟨some x, []⟩) rfl hk (logOk_asked hl (hC.new hx))⟩
      simp only [raftT, Simple.init, if_true, hs, hx, Run.bind_ok, Simple.new]
  state := by
    rintro i c r ⟨n, hn, hk, hl, hw⟩
    simp only [raftT, Simple.state, get_eq hn, Run.bind_ok]
    exact ⟨_, rfl⟩
  step := by
    rintro i c r m ⟨n, hn, hk, hl, hw⟩ hm
    obtain ⟨n', h1, h2⟩ := hN.step hk (hm n hn)
    exact ⟨_, call_eq hn h1, n', rfl, h2, logOk_asked hl (hC.step h1), hw⟩
  deliver := by
    rintro i c r me snd s ⟨n, hn, hk, hl, hw⟩ hs
    obtain ⟨n', x, h1, h2⟩ := hN.deliver (me := me) (snd := snd) hk hs
    exact ⟨_, x, call_eq hn h1, n', rfl, h2, logOk_asked hl (hC.step h1), hw⟩
  propose := by
    rintro i c r id k b ⟨n, hn, hk, hl, hw⟩ hlead hb
    have hlead' : N.isLeader n = true := by simpa [raftT, Simple.leader, hn] using hlead
    obtain ⟨n', h1, h2⟩ := hN.propose (id := id) (k := k) hk hlead' hb
    exact ⟨_, call_eq hn h1, n', rfl, h2, logOk_asked hl (hC.propose h1), hw⟩
  change := by
    rintro i c r k ⟨n, hn, hk, hl, hw⟩ hc
    obtain ⟨n', x, h1, hx, h2⟩ := hN.change hk hc
    exact ⟨_, x, call_eq hn h1, hx, n', rfl, h2, logOk_asked hl (hC.proposeConf h1), hw⟩
  tick := by
    rintro i c r ⟨n, hn, hk, hl, hw⟩
    obtain ⟨n', h1, h2⟩ := hN.tick hk
    exact ⟨_, callU_eq hn h1, n', rfl, h2, logOk_asked hl (hC.tick h1), hw⟩
  report := by
    rintro i c r p s ⟨n, hn, hk, hl, hw⟩
    obtain ⟨n', h1, h2⟩ := hN.report (p := p) (s := s) hk
    exact ⟨_, callU_eq hn (f := fun n => N.reportSnapshot n p s) h1, n', rfl, h2, logOk_asked hl (hC.reportSnapshot h1), hw⟩
  size := by
    rintro i c r ⟨n, hn, hk, hl, hw⟩
    simp only [raftT, get_eq hn, Run.bind_ok]
    exact ⟨_, rfl⟩
  should := by
    rintro i c r ⟨n, hn, hk, hl, hw⟩
    simp only [raftT, get_eq hn, Run.bind_ok]
    exact ⟨_, rfl⟩
  create := by
    rintro i c r b ⟨n, hn, hk, hl, hw⟩ hs hb
    have hs' : Storage.shouldSnapshot (N.store n) i c = true := by simpa [raftT, get_eq hn] using hs
    obtain ⟨s, h1, h2, _⟩ := logOk_create b hl hs'
    refine ⟨{ r with node := some (N.setStore n s) }, onStore_eq (N := N) (f := fun st => Storage.createSnapshot st i c b) hn ?_, N.setStore n s, rfl, hN.create hk hb hs' h1, ?_, hw⟩
    · simp only [h1]
    · rw [hC.store_set]; exact h2
  has := by
    rintro i c r ⟨n, hn, hk, hl, hw⟩
    obtain ⟨b, hb⟩ := hN.has hk
    exact ⟨b, by simp only [raftT, get_eq hn, Run.bind_ok, hb]⟩
  fetch := by
    rintro i c r ⟨n, hn, hk, hl, hw⟩ hr
    have hr' : N.hasReady n = .ok true := by simpa [raftT, get_eq hn] using hr
    obtain ⟨n', w, y, h1, h2, h3, h4, h5, h6, h7, h8⟩ := hN.fetch hk hr'
    refine ⟨⟨some n', r.ready.set y.number w⟩, y, ?_, ⟨n', rfl, h2, logOk_asked hl (hC.ready h1), ?_⟩, h4, h5, h6, h7, h8⟩
    · simp only [raftT, Simple.getReady, get_eq hn, Run.bind_ok, h1]
    · intro y' hy'
      cases hy'
      exact ⟨w, by rw [AMap.get_set, if_pos rfl], h3⟩
  hardState := by
    rintro i c r y h ⟨n, hn, hk, hl, hw⟩ hh
    refine ⟨_, callU_eq hn rfl, _, rfl, hN.hardState hk hh, ?_, hw⟩
    rw [hC.store_set]
    exact logOk_hardState h hl
  noHardState := by
    rintro i c r y ⟨n, hn, hk, hl, hw⟩ hh
    exact ⟨n, hn, hN.noHardState hk hh, hl, hw⟩
  snapshot := by
    rintro i c r y ⟨n, hn, hk, hl, hw⟩ h0
    obtain ⟨s, h1, h2, _⟩ := logOk_apply (sn := toStoreSnapshot y.snapshot) hl (hN.newer hk h0)
    refine ⟨{ r with node := some (N.setStore n s) }, onStore_eq (N := N) (f := fun st => .ok (Storage.applySnapshot st (toStoreSnapshot y.snapshot))) hn ?_, N.setStore n s, rfl, hN.snapshot hk h0 h1, ?_, hw⟩
    · simp only [h1]
    · rw [hC.store_set]; exact h2
  noSnapshot := by
    rintro i c r y ⟨n, hn, hk, hl, hw⟩ h0
    exact ⟨n, hn, hN.noSnapshot hk h0, hl, hw⟩
  append := by
    rintro i c r y ⟨n, hn, hk, hl, hw⟩ he
    obtain ⟨s, h1, h2, _⟩ := logOk_append hl (hN.extends_ hk)
    refine ⟨{ r with node := some (N.setStore n s) }, onStore_eq (N := N) (f := fun st => Storage.appendEntries st (y.entries.map toStoreEntry)) hn ?_, N.setStore n s, rfl, hN.append hk he h1, ?_, hw⟩
    · simp only [h1]
    · rw [hC.store_set]; exact h2
  noEntries := by
    rintro i c r y ⟨n, hn, hk, hl, hw⟩ he
    exact ⟨n, hn, hN.noEntries hk he, hl, hw⟩
  advance := by
    rintro i c r y ⟨n, hn, hk, hl, hw⟩
    obtain ⟨w, hg, hr⟩ := hw y rfl
    obtain ⟨n', l, h1, h2, h3, h4, h5⟩ := hN.advance hk hr
    refine ⟨⟨some n', r.ready.erase y.number⟩, l, ?_, ⟨n', rfl, h2, logOk_asked hl (hC.advance h1), fun y' hy' => nomatch hy'⟩, h3, h4, h5⟩
    simp only [raftT, Simple.advanceReady, hg, Run.unwrap, Run.bind_ok, Simple.call, Simple.get, hn, h1]
  done := by
    rintro i c r l ⟨n, hn, hk, hl, hw⟩
    obtain ⟨n', h1, h2⟩ := hN.done hk
    exact ⟨_, callU_eq hn h1, n', rfl, h2, logOk_asked hl (hC.advanceApply h1), fun y hy => nomatch hy⟩
  applied := by
    rintro i c r e es k ⟨n, hn, hk, hl, hw⟩ hst he
    obtain ⟨h1, h2⟩ := hN.stored hk hst
    have := hl.behind
    refine ⟨n, hn, hN.applied hk hst he, ⟨hl.reachable, by omega, fun h => by omega, h2⟩, fun y hy => hw y ?_⟩
    rcases hst with ⟨z, rfl⟩ | ⟨z, rfl⟩ <;> exact hy
  applyChange := by
    rintro i c r e es x k ⟨n, hn, hk, hl, hw⟩ hst ht hd hx hc
    obtain ⟨h1, h2⟩ := hN.stored hk hst
    obtain ⟨n', cs, h3, h4⟩ := hN.applyChange hk hst ht hd hx hc
    have := hl.behind
    refine ⟨_, cs, call_eq hn h3, n', rfl, h4, logOk_asked ⟨hl.reachable, by omega, fun h => by omega, h2⟩ (hC.applyConf h3), fun y hy => hw y ?_⟩
    rcases hst with ⟨z, rfl⟩ | ⟨z, rfl⟩ <;> exact hy

end simple

end TCP.Survive
