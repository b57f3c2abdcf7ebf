import Verif.Proofs.TransferIntact
import Verif.Proofs.DriverCalls

/-!
# A cluster whose replicas send each other snapshots
-/

namespace TCP.Drv

open TCP TCP.DrvSpec

variable {σ ρ κ H : Type} {S : Sys σ ρ κ H}

/-- Snapshots that were put into the store came with a batch of consensus. -/
def Installed (t : List (Ev H)) : Prop :=
  ∀ s x, .storeApply s x ∈ t → s.metadata.index ≠ 0 ∧ ∃ r, .ready r ∈ t ∧ r.snapshot = s

theorem installed_append {t u : List (Ev H)} (h : Installed t) (hu : ∀ e ∈ u, FromReady t e) : Installed (t ++ u) := by
  intro s x hm
  have hx : s.metadata.index ≠ 0 ∧ ∃ r, .ready r ∈ t ∧ r.snapshot = s := by
    rcases List.mem_append.1 hm with hm | hm
    · exact h s x hm
    · exact hu _ hm s x rfl
  obtain ⟨h1, r, h2, h3⟩ := hx
  exact ⟨h1, r, List.mem_append_left _ h2, h3⟩

theorem installed_snoc {t : List (Ev H)} (h : Installed t) {e : Ev H} (he : FromReady t e := by intro _ _ h; cases h) : Installed (t ++ [e]) :=
  installed_append h fun x hx => by rw [List.mem_singleton.1 hx]; exact he

theorem installed_leaves : Leaves S (fun d => Installed d.trace) where
  quiet hc h := by rw [hc.trace]; exact h
  actor {d a' e} he h := by
    cases e <;> first | exact he.elim | exact installed_snoc h
  host _ h := installed_snoc h
  raft _ _ hr h := installed_snoc h hr
  init _ _ h := installed_snoc h
  started _ _ h := h
  stopped h := h
  snapInit _ _ h := h
  snapCluster _ h := h
  sender _ h := h
  stashed _ _ h := h
  sending hd h := Sending.run (I := fun d => Installed d.trace)
    { drop := fun h => h
      sender := fun h => h
      report := fun hr h => installed_snoc h
      commOut := fun _ h => installed_snoc h } hd h
  commOut _ _ h := installed_snoc h
  commIn _ _ h := installed_snoc h
  commTick h := installed_snoc h
  commCluster h := installed_snoc h
  take {d c' out} hc h := installed_append h fun e he => by
    obtain ⟨_, _, rfl⟩ := List.mem_map.1 he
    intro _ _ h; cases h
  system _ _ hs h := installed_snoc (installed_snoc h)
  chunk _ _ _ _ h := installed_snoc h
  complete _ h := h
  install _ hs h := installed_snoc h

end TCP.Drv

namespace TCP.Replica

open TCP TCP.Drv TCP.DrvSpec TCP.Comm.Spec TCP.Replica.Spec TCP.Snap TCP.Snap.Spec

variable {ν Y P S E H σ : Type} {A : Actor σ} {N : NodeT ν Y} {ops : Comm.Ops S E H} {V : Env P S E H} {codecs : Codecs}

/-- Every snapshot a replica hands to its consensus was offered by the replica it came from. -/
theorem stepped_offered (hf : Faithful codecs) {d : Driver σ (Simple ν Y) (Channels P S E H) H}
    (hg : Guarded ops codecs d ∧ Coll codecs d) (he : d.ephemeral = false) (hid : d.id ≠ 0)
    {p : Nat} {peers : Nat → Driver σ (Simple ν Y) (Channels P S E H) H} (hp : ∀ q, Ships codecs [] (peers q))
    (hc : ∀ q, Carried q p (peers q).comm.log d.comm.log) (hu : ∀ q, Unmixed (pieces codecs (received q d.comm.log))) :
    ∀ m ∈ stepped d.trace, m.type = .snapshot → ∃ to q s, m = ⟨to, q, .snapshot, some s, []⟩ ∧ Offers (peers q).trace p s := by
  intro m hm ht
  by_cases hs : d.state = .created
  · rw [(hg.1.created hs).steps] at hm
    simp at hm
  · rcases hg.2.named hs he with h | h
    · exact (hg.2.steps (by rw [h]; exact hid) m hm ht).offered hf ht hp hc hu
    · rw [h.2.1] at hm; simp at hm

/-- Invariants of a cluster. -/
structure Net (ops : Comm.Ops S E H) (codecs : Codecs) (ds : Nat → Driver σ (Simple ν Y) (Channels P S E H) H) : Prop where
  guarded : ∀ p, Guarded ops codecs (ds p) ∧ Coll codecs (ds p)
  ships : ∀ p, Ships codecs [] (ds p)
  installed : ∀ p, Installed (ds p).trace
  offered : ∀ p q s, Offers (ds p).trace q s → Created ds s.metadata.index s.data
  ready : ∀ p r, .ready r ∈ (ds p).trace → r.snapshot.metadata.index ≠ 0 → Created ds r.snapshot.metadata.index r.snapshot.data

theorem created_mono {ds : Nat → Driver σ (Simple ν Y) (Channels P S E H) H} {p d t} (ht : d.trace = (ds p).trace ++ t) {i b} (h : Created ds i b) :
    Created (update ds p d) i b := by
  obtain ⟨q, h⟩ := h
  refine ⟨q, ?_⟩
  have hsub : ∀ e ∈ (ds q).trace, e ∈ (update ds p d q).trace := by
    intro e he
    unfold update
    split
    · rename_i hq; subst hq
      rw [ht]; exact List.mem_append_left _ he
    · exact he
  rcases h with ⟨c, h⟩ | ⟨h1, id, h⟩
  · exact Or.inl ⟨c, hsub _ h⟩
  · exact Or.inr ⟨h1, id, hsub _ h⟩

theorem networked_deployed (hf : Faithful codecs) {log : Nat → Drv.Entry} {founder : Nat} {new : σ → Prop} {cfg : Bytes}
    {ds : Nat → Driver σ (Simple ν Y) (Channels P S E H) H} (h : Networked A N ops V codecs log founder new cfg ds) :
    Net ops codecs ds ∧ Deployed (sys A N ops V codecs) log founder new cfg ds := by
  induction h with
  | init h =>
    refine ⟨⟨fun p => ?_, fun p => ?_, fun p => ?_, fun p q s hs => ?_, fun p r hr => ?_⟩, .init fun p => ?_⟩
    · obtain ⟨a, e, _, hp⟩ := h p
      rw [hp]
      have q : Quiet (fresh a e : Driver σ (Simple ν Y) (Channels P S E H) H) := ⟨rfl, rfl, rfl, rfl⟩
      exact ⟨⟨fun _ => q, Or.inl q⟩, coll_fresh a e⟩
    · obtain ⟨a, e, _, hp⟩ := h p
      rw [hp]; exact ships_fresh a e
    · obtain ⟨a, e, _, hp⟩ := h p
      rw [hp]; intro s x hx; simp [fresh, Driver.new] at hx
    · obtain ⟨a, e, _, hp⟩ := h p
      rw [hp] at hs
      obtain ⟨m, hm, _⟩ := hs
      rcases hm with ⟨r, hr, _⟩ | ⟨r, hr, _⟩ <;> simp [fresh, Driver.new] at hr
    · obtain ⟨a, e, _, hp⟩ := h p
      rw [hp] at hr; simp [fresh, Driver.new] at hr
    · obtain ⟨a, e, ha, hp⟩ := h p
      exact ⟨a, _, _, ha, hp⟩
  | @call ds p instant m d out h hs he hid hcarried hunmixed hwants hinstalls hlog hfirst hfound hcfg ih =>
    obtain ⟨ih, hdep⟩ := ih
    obtain ⟨t, ht, _⟩ := receive_ticks hs
    have hcall : ∀ {I : Driver σ (Simple ν Y) (Channels P S E H) H → Prop}, Leaves (sys A N ops V codecs) I → I (ds p) → I d :=
      fun L hi => L.calls (Calls.nil.snoc hs) hi
    have hg : Guarded ops codecs d ∧ Coll codecs d := hcall coll_leaves (ih.guarded p)
    have hsh : Ships codecs [] d := hcall (ships_leaves hf) (ih.ships p)
    have hin : Installed d.trace := hcall installed_leaves (ih.installed p)
    have hready : ∀ r, .ready r ∈ d.trace → r.snapshot.metadata.index ≠ 0 → Created ds r.snapshot.metadata.index r.snapshot.data := by
      intro r hr h0
      obtain ⟨m, hm, hty, hsn⟩ := hinstalls r hr h0
      by_cases hc : d.state = .created
      · rw [(hg.1.created hc).steps] at hm; simp at hm
      · obtain ⟨to, q, s, rfl, hoff⟩ := stepped_offered hf hg he (by rw [(hid hc).1]; exact (hid hc).2) ih.ships hcarried hunmixed m hm hty
        simp only [Option.some.injEq] at hsn
        subst hsn
        exact ih.offered q p _ hoff
    have hoff : ∀ q s, Offers d.trace q s → Created (update ds p d) s.metadata.index s.data := by
      intro q s ho
      rcases hwants s q ho with ⟨h1, id, h2⟩ | ⟨c, h2⟩ | ⟨x, h2⟩
      · exact ⟨p, Or.inr ⟨h1, id, by simpa [update] using h2⟩⟩
      · exact ⟨p, Or.inl ⟨c, by simpa [update] using h2⟩⟩
      · obtain ⟨h0, r, hr, rfl⟩ := hin _ _ h2
        exact created_mono ht (hready r hr h0)
    refine ⟨⟨fun q => ?_, fun q => ?_, fun q => ?_, fun q q' s ho => ?_, fun q r hr h0 => ?_⟩,
      .call hdep hs he hlog hfirst (fun r hr h0 => Or.inr (hready r hr h0)) hfound hcfg⟩
    · unfold update; split
      · exact hg
      · exact ih.guarded q
    · unfold update; split
      · exact hsh
      · exact ih.ships q
    · unfold update; split
      · exact hin
      · exact ih.installed q
    · unfold update at ho; split at ho
      · exact hoff q' s ho
      · exact created_mono ht (ih.offered q q' s ho)
    · unfold update at hr; split at hr
      · exact created_mono ht (hready r hr h0)
      · exact created_mono ht (ih.ready q r hr h0)

/-- In-order delivery does not mix transfers. -/
theorem Ships.unmixed {d : Driver σ (Simple ν Y) (Channels P S E H) H} (h : Ships codecs [] d) (hs : Smooth d.comm.log) (r : Nat) :
    Unmixed (pieces codecs (given r d.comm.log)) := by
  rcases h.sends with ⟨_, _, h3, _⟩ | ⟨_, cs, F, _, _, _, _, ha⟩
  · rw [h3 r]; exact unmixed_nil
  · simpa [contentsTo] using (ha hs r).1

end TCP.Replica
