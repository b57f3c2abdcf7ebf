import Verif.Spec.DriverApp
import Verif.Proofs.DriverOwner

/-! # The replicas of a cluster are replicas of its application -/

namespace TCP.Drv

open TCP TCP.ActorSpec TCP.DrvSpec

variable {σ ρ κ H : Type} {S : Sys σ ρ κ H}

/-! ## What the actor saw, with its states -/

/-- Calls that are not about the log. -/
inductive Idles (A : Actor σ) : σ → σ → Prop
  | refl {s} : Idles A s s
  | command {s ctx c o u w} (h : Step A s (.command ctx c (.ok o)) u) (g : Idles A u w) : Idles A s w
  | save {s ctx b u w} (h : Step A s (.save ctx (.ok b)) u) (g : Idles A u w) : Idles A s w
  | shutdown {s ctx u w} (h : A.onShutdown ctx s = .ok u) (g : Idles A u w) : Idles A s w

/-- The actor goes from one state to another, seeing this of the log. -/
def Goes (A : Actor σ) : List Obs → σ → σ → Prop
  | [], s, w => Idles A s w
  | .apply i own ev :: os, s, w => ∃ u v, Idles A s u ∧ (∃ ctx o, Step A u (.apply ctx ⟨i, own⟩ ev (.ok o)) v) ∧ Goes A os v w
  | .load b :: os, s, w => ∃ u v, Idles A s u ∧ (∃ ctx, Step A u (.load ctx b (.ok ())) v) ∧ Goes A os v w

theorem Idles.goes {A : Actor σ} {s u w : σ} {os : List Obs} (h : Idles A s u) (g : Goes A os u w) : Goes A os s w := by
  induction h with
  | refl => exact g
  | command h _ ih =>
    have := ih g
    cases os with
    | nil => exact .command h this
    | cons o os => cases o <;> (obtain ⟨x, y, h1, h2⟩ := this; exact ⟨x, y, .command h h1, h2⟩)
  | save h _ ih =>
    have := ih g
    cases os with
    | nil => exact .save h this
    | cons o os => cases o <;> (obtain ⟨x, y, h1, h2⟩ := this; exact ⟨x, y, .save h h1, h2⟩)
  | shutdown h _ ih =>
    have := ih g
    cases os with
    | nil => exact .shutdown h this
    | cons o os => cases o <;> (obtain ⟨x, y, h1, h2⟩ := this; exact ⟨x, y, .shutdown h h1, h2⟩)

theorem goes_append {A : Actor σ} {a b : List Obs} {s w : σ} (h : Goes A (a ++ b) s w) : ∃ u, Goes A a s u ∧ Goes A b u w := by
  induction a generalizing s with
  | nil => exact ⟨s, .refl, h⟩
  | cons o a ih =>
    cases o <;>
    · obtain ⟨x, y, h1, h2, h3⟩ := h
      obtain ⟨u, g1, g2⟩ := ih h3
      exact ⟨u, ⟨x, y, h1, h2, g1⟩, g2⟩

theorem acts_goes {A : Actor σ} {t : List (Ev H)} (hc : ∀ e ∈ t, Clean e) (hi : ∀ e ∈ t, kind e ≠ .actorInit) {s s' : σ}
    (g : Trail (Acts A) t s s') : Goes A (observed t) s s' := by
  induction t generalizing s with
  | nil => cases g; exact .refl
  | cons e t ih =>
    obtain ⟨s1, h1, h2⟩ := g
    have ih' := ih (fun x hx => hc x (List.mem_cons_of_mem _ hx)) (fun x hx => hi x (List.mem_cons_of_mem _ hx)) h2
    have he := hc e List.mem_cons_self
    have same : observation e = none → Idles A s s1 → Goes A (observed (e :: t)) s s' := by
      intro ho hv
      rw [show observed (e :: t) = observed t by simp [observed, ho]]
      exact hv.goes ih'
    cases e with
    | actor c =>
      cases h1 with
      | @command ctx c _ res h =>
        cases res with
        | error => exact he.elim
        | ok o => exact same rfl (.command (.command h) .refl)
      | @apply ctx ec ev _ res h =>
        cases res with
        | error => exact he.elim
        | ok o => exact ⟨s, s1, .refl, ⟨ctx, o, .apply h⟩, ih'⟩
      | @save ctx _ res h =>
        cases res with
        | error => exact he.elim
        | ok o => exact same rfl (.save (.save h) .refl)
      | @load ctx b _ res h =>
        cases res with
        | error => exact he.elim
        | ok o => exact ⟨s, s1, .refl, ⟨ctx, .load h⟩, ih'⟩
    | actorInit => exact absurd rfl (hi _ List.mem_cons_self)
    | actorShutdown ctx => exact same rfl (.shutdown h1 .refl)
    | _ => cases h1; exact same rfl .refl

theorem quiet_replica {A : Actor σ} (hi : Inert A) {fresh : σ → Prop} {cfg : Bytes} {evs : List ActorEvent} {s u : σ} (h : Idles A s u)
    (g : Replica A fresh cfg evs s) : Replica A fresh cfg evs u := by
  induction h with
  | refl => exact g
  | command h _ ih => exact ih (g.command h)
  | save h _ ih => exact ih (g.save h)
  | shutdown h _ ih => rw [hi.shutdown h] at ih; exact ih g

theorem quiet_member {A : Actor σ} (hi : Inert A) {fresh : σ → Prop} {cfg : Bytes} {evs : List ActorEvent} {b s u : σ} (h : Idles A s u)
    (g : Member A fresh cfg b evs s) : Member A fresh cfg b evs u := by
  induction h with
  | refl => exact g
  | command h _ ih => exact ih (g.command h)
  | save h _ ih => exact ih (g.save h)
  | shutdown h _ ih => rw [hi.shutdown h] at ih; exact ih g

/-! ## The events of the log -/

theorem payload_eventOf {dec : Bytes → Option LogEntry} {id : Nat} {e : Entry} {ps : List Obs} (h : payload dec id e = some ps) :
    (ps = [] ∧ eventOf dec e = none) ∨ ∃ own ev, ps = [.apply e.index own ev] ∧ eventOf dec e = some ev := by
  unfold payload at h
  unfold eventOf
  by_cases h1 : e.data = []
  · rw [if_pos h1] at h
    rw [if_pos h1]
    cases h
    exact .inl ⟨rfl, rfl⟩
  · rw [if_neg h1] at h
    rw [if_neg h1]
    by_cases h2 : e.type = .confChange
    · rw [if_pos h2] at h
      rw [if_pos h2]
      cases h
      exact .inl ⟨rfl, rfl⟩
    · rw [if_neg h2] at h
      rw [if_neg h2]
      match hd : dec e.data with
      | none => rw [hd] at h; cases h
      | some ⟨none, _⟩ => rw [hd] at h; cases h
      | some ⟨some (r, corr), contents⟩ =>
        rw [hd] at h
        cases h
        exact .inr ⟨_, _, rfl, rfl⟩

theorem payloads_snoc {dec : Bytes → Option LogEntry} {id : Nat} {es : List Entry} {e : Entry} {ps : List Obs}
    (h : payloads dec id (es ++ [e]) = some ps) : ∃ p q, payloads dec id es = some p ∧ payload dec id e = some q ∧ ps = p ++ q := by
  induction es generalizing ps with
  | nil =>
    simp only [List.nil_append, payloads] at h
    cases hq : payload dec id e with
    | none => rw [hq] at h; cases h
    | some q =>
      rw [hq] at h
      simp only [List.append_nil, Option.some.injEq] at h
      exact ⟨[], q, rfl, rfl, h.symm⟩
  | cons x es ih =>
    simp only [List.cons_append, payloads] at h
    cases hx : payload dec id x with
    | none => rw [hx] at h; cases h
    | some a =>
      rw [hx] at h
      cases hr : payloads dec id (es ++ [e]) with
      | none => rw [hr] at h; cases h
      | some r =>
        rw [hr] at h
        obtain ⟨p, q, h1, h2, rfl⟩ := ih hr
        simp only [Option.some.injEq] at h
        refine ⟨a ++ p, q, ?_, h2, by rw [← h, List.append_assoc]⟩
        simp only [payloads, hx, h1]

theorem eventsUpTo_succ {dec : Bytes → Option LogEntry} {log : Nat → Entry} {n : Nat} (hn : 1 ≤ n) :
    eventsUpTo dec log (n + 1) = eventsUpTo dec log n ++ (eventOf dec (log (n + 1))).toList := by
  unfold eventsUpTo
  rw [show n + 1 - 1 = (n - 1) + 1 by omega, segment_succ, List.filterMap_append, show 1 + 1 + (n - 1) = n + 1 by omega]
  congr 1

theorem eventsUpTo_le {dec : Bytes → Option LogEntry} {log : Nat → Entry} {n m : Nat} (h : n ≤ m) :
    ∃ more, eventsUpTo dec log m = eventsUpTo dec log n ++ more := by
  refine ⟨(segment log (1 + (n - 1)) (m - 1 - (n - 1))).filterMap (eventOf dec), ?_⟩
  unfold eventsUpTo
  rw [← List.filterMap_append, ← segment_append, show n - 1 + (m - 1 - (n - 1)) = m - 1 by omega]

/-! ## Along a call -/

theorem _root_.TCP.DrvSpec.Reflects.quiet {log : Nat → Entry} {fresh : σ → Prop} {cfg : Bytes} {f : σ} {n : Nat} {s u : σ} (hi : Inert S.A)
    (h : Reflects S log fresh cfg f n s) (g : Idles S.A s u) : Reflects S log fresh cfg f n u :=
  ⟨quiet_replica hi g h.1, fun hn => quiet_member hi g (h.2 hn)⟩

/-- The data was saved by a replica that reflected the log up to an index. -/
def Saved (S : Sys σ ρ κ H) (log : Nat → Entry) (fresh : σ → Prop) (cfg : Bytes) (f : σ) (i : Nat) (b : Bytes) : Prop :=
  ∃ ctx t t', Reflects S log fresh cfg f i t ∧ Step S.A t (.save ctx (.ok b)) t'

/-- Wherever the actor is while it sees `o`, it reflects the log up to some index, and after all of it up to `a`. -/
def Tracks (S : Sys σ ρ κ H) (log : Nat → Entry) (fresh : σ → Prop) (cfg : Bytes) (f s0 : σ) (a0 : Nat) (o : List Obs) (a : Nat) : Prop :=
  ∀ pre post, o = pre ++ post → ∃ n, a0 ≤ n ∧ n ≤ a ∧ (∀ u, Goes S.A pre s0 u → Reflects S log fresh cfg f n u) ∧ (post = [] → n = a) ∧
    (∀ i own ev post', post = .apply i own ev :: post' → n + 1 = i) ∧ ∀ i ∈ applyIndices pre, i ≤ n

theorem split_snoc {α : Type} {o pre post : List α} {x : α} (h : o ++ [x] = pre ++ post) :
    (pre = o ++ [x] ∧ post = []) ∨ ∃ post', post = post' ++ [x] ∧ o = pre ++ post' := by
  rcases List.eq_nil_or_concat post with rfl | ⟨post', y, rfl⟩
  · exact .inl ⟨by simpa using h.symm, rfl⟩
  · rw [List.concat_eq_append, ← List.append_assoc] at h
    obtain ⟨h1, h2⟩ := List.append_inj' h rfl
    cases h2
    exact .inr ⟨post', List.concat_eq_append, h1⟩

theorem tracks_entry {log : Nat → Entry} (hl : ∀ i, (log i).index = i) (hin : Inert S.A) {fresh : σ → Prop} {cfg : Bytes} {f s0 : σ} {a0 a id : Nat}
    {o q : List Obs} (ha : 1 ≤ a) (h : Tracks S log fresh cfg f s0 a0 o a) (hq : payload S.E.decEntry id (log (a + 1)) = some q) :
    Tracks S log fresh cfg f s0 a0 (o ++ q) (a + 1) := by
  rcases payload_eventOf hq with ⟨rfl, hev⟩ | ⟨own, ev, rfl, hev⟩
  · intro pre post hp
    rw [List.append_nil] at hp
    obtain ⟨n, h1, h2, h3, h4, h5, h6⟩ := h pre post hp
    by_cases hpost : post = []
    · subst hpost
      have hna := h4 rfl
      subst hna
      refine ⟨n + 1, by omega, Nat.le_refl _, fun u hu => ?_, fun _ => rfl, fun i own ev post' hx => (nomatch hx), fun i hi => Nat.le_succ_of_le (h6 i hi)⟩
      have := h3 u hu
      have he : eventsUpTo S.E.decEntry log (n + 1) = eventsUpTo S.E.decEntry log n := by rw [eventsUpTo_succ ha, hev]; simp
      unfold Reflects
      rw [he]
      exact ⟨this.1, fun _ => this.2 ha⟩
    · exact ⟨n, h1, by omega, h3, fun hx => absurd hx hpost, h5, h6⟩
  · rw [hl] at *
    intro pre post hp
    rcases split_snoc hp with ⟨rfl, rfl⟩ | ⟨post', rfl, ho⟩
    · obtain ⟨n, h1, h2, h3, h4, h5, h6⟩ := h o [] (by simp)
      have hna := h4 rfl
      subst hna
      refine ⟨n + 1, by omega, Nat.le_refl _, fun u hu => ?_, fun _ => rfl, fun i own ev post' hx => (nomatch hx), fun i hi => ?_⟩
      · obtain ⟨x, hx, y, z, hy, ⟨ctx, r, hz⟩, hw⟩ := goes_append hu
        have hx' := (h3 x hx).quiet hin hy
        refine Reflects.quiet hin ?_ hw
        unfold Reflects
        rw [eventsUpTo_succ ha, hev]
        exact ⟨hx'.1.apply hz, fun _ => (hx'.2 ha).apply hz⟩
      · rw [applyIndices_append] at hi
        rcases List.mem_append.1 hi with hi | hi
        · exact Nat.le_succ_of_le (h6 i hi)
        · simp [applyIndices] at hi; omega
    · obtain ⟨n, h1, h2, h3, h4, h5, h6⟩ := h pre post' ho
      refine ⟨n, h1, by omega, h3, fun hx => absurd hx (by simp), fun i own' ev' p hx => ?_, h6⟩
      cases post' with
      | nil =>
        have := h4 rfl
        simp only [List.nil_append, List.cons.injEq, Obs.apply.injEq] at hx
        omega
      | cons y ys =>
        simp only [List.cons_append, List.cons.injEq] at hx
        exact h5 i own' ev' ys (by rw [hx.1])

theorem tracks_entries {log : Nat → Entry} (hl : ∀ i, (log i).index = i) (hin : Inert S.A) {fresh : σ → Prop} {cfg : Bytes} {f s0 : σ} {a0 a id k : Nat}
    {o ps : List Obs} (ha : k = 0 ∨ 1 ≤ a) (h : Tracks S log fresh cfg f s0 a0 o a) (hq : payloads S.E.decEntry id (segment log a k) = some ps) :
    Tracks S log fresh cfg f s0 a0 (o ++ ps) (a + k) := by
  induction k generalizing ps with
  | zero =>
    simp only [segment, List.range_zero, List.map_nil, payloads, Option.some.injEq] at hq
    subst hq
    simpa using h
  | succ k ih =>
    rw [segment_succ] at hq
    obtain ⟨p, q, h1, h2, rfl⟩ := payloads_snoc hq
    have ha' : 1 ≤ a := by omega
    have := ih (.inr ha') h1
    rw [← List.append_assoc, show a + (k + 1) = (a + k) + 1 by omega]
    rw [show a + 1 + k = a + k + 1 by omega] at h2
    exact tracks_entry hl hin (by omega) this h2

theorem tracks_load {log : Nat → Entry} (hin : Inert S.A) {fresh : σ → Prop} {cfg : Bytes} {f s0 : σ} {a0 a i : Nat}
    {o : List Obs} {b : Bytes} (h : Tracks S log fresh cfg f s0 a0 o a) (hle : a ≤ i) (hs : Saved S log fresh cfg f i b) :
    Tracks S log fresh cfg f s0 a0 (o ++ [.load b]) i := by
  intro pre post hp
  rcases split_snoc hp with ⟨rfl, rfl⟩ | ⟨post', rfl, ho⟩
  · obtain ⟨n, h1, h2, h3, h4, h5, h6⟩ := h o [] (by simp)
    have hna := h4 rfl
    subst hna
    refine ⟨i, by omega, Nat.le_refl _, fun u hu => ?_, fun _ => rfl, fun i own ev post' hx => (nomatch hx), fun j hj => ?_⟩
    · obtain ⟨x, hx, y, z, hy, ⟨ctx, hz⟩, hw⟩ := goes_append hu
      obtain ⟨ctx1, t, t', ht, hsave⟩ := hs
      have hq := (h3 x hx).quiet hin hy
      obtain ⟨more, hm⟩ := eventsUpTo_le (dec := S.E.decEntry) (log := log) hle
      refine Reflects.quiet hin ?_ hw
      unfold Reflects at ht ⊢
      rw [hm] at ht ⊢
      exact ⟨hq.1.load ht.1 hsave hz, fun hi => .load hq.1 (ht.2 hi) hsave hz⟩
    · rw [applyIndices_append] at hj
      rcases List.mem_append.1 hj with hj | hj
      · have := h6 j hj; omega
      · simp [applyIndices] at hj
  · obtain ⟨n, h1, h2, h3, h4, h5, h6⟩ := h pre post' ho
    refine ⟨n, h1, by omega, h3, fun hx => absurd hx (by simp), fun i own' ev' p hx => ?_, h6⟩
    cases post' with
    | nil => simp at hx
    | cons y ys =>
      simp only [List.cons_append, List.cons.injEq] at hx
      exact h5 i own' ev' ys (by rw [hx.1])

theorem tracks_trail {log : Nat → Entry} (hl : ∀ i, (log i).index = i) (hin : Inert S.A) {fresh : σ → Prop} {cfg : Bytes} {f s0 : σ} {a0 id : Nat}
    {t : List (Ev H)} (ht : ∀ e ∈ t, kind e ≠ .raftInit) {o o' : List Obs} {a a' b : Nat} {y : Nat × Nat}
    (hf : Trail (Feed S.E.decEntry id) t (o, a) (o', a')) (hg : Trail (Advances log) t (b, a) y)
    (hfirst : ∀ e ∈ t.flatMap delivered, 2 ≤ e.index)
    (hsnap : ∀ r, .ready r ∈ t → r.snapshot.metadata.index ≠ 0 → Saved S log fresh cfg f r.snapshot.metadata.index r.snapshot.data)
    (h : Tracks S log fresh cfg f s0 a0 o a) : Tracks S log fresh cfg f s0 a0 o' a' := by
  induction t generalizing o a b with
  | nil => cases hf; exact h
  | cons e t ih =>
    obtain ⟨⟨o1, a1⟩, f1, hf⟩ := hf
    obtain ⟨⟨b1, c1⟩, ⟨g1, gle⟩, hg⟩ := hg
    have ht' : ∀ e ∈ t, kind e ≠ .raftInit := fun x hx => ht x (List.mem_cons_of_mem _ hx)
    have hfirst' : ∀ e ∈ t.flatMap delivered, 2 ≤ e.index := fun x hx => hfirst x (by rw [List.flatMap_cons]; exact List.mem_append_right _ hx)
    have hfirst0 : ∀ x ∈ delivered e, 2 ≤ x.index := fun x hx => hfirst x (by rw [List.flatMap_cons]; exact List.mem_append_left _ hx)
    have hsnap' : ∀ r, .ready r ∈ t → r.snapshot.metadata.index ≠ 0 → Saved S log fresh cfg f r.snapshot.metadata.index r.snapshot.data :=
      fun r hr => hsnap r (List.mem_cons_of_mem _ hr)
    have other : (o1, a1) = (o, a) → (b1, c1) = (b, a) → Tracks S log fresh cfg f s0 a0 o' a' := by
      intro h1 h2
      cases h1; cases h2
      exact ih ht' hf hg hfirst' hsnap' h
    cases e with
    | raftInit => exact absurd rfl (ht _ List.mem_cons_self)
    | ready r =>
      obtain ⟨es, ps, hes, hps, hy⟩ := f1
      obtain ⟨k, hk, hz⟩ := g1
      have := inOrder_segment hl hes hk
      subst this
      simp only [Prod.mk.injEq] at hy hz
      obtain ⟨rfl, rfl⟩ := hy
      obtain ⟨rfl, rfl⟩ := hz
      rw [lastIndex_segment hl (loadIndex r.snapshot a) k] at hf
      refine ih ht' hf hg hfirst' hsnap' (tracks_entries hl hin (segment_first hl hk hfirst0) ?_ hps)
      simp only at gle
      unfold loads
      unfold loadIndex at gle ⊢
      split
      · rw [List.append_nil]; exact h
      · rename_i hz
        rw [if_neg hz] at gle
        exact tracks_load hin h gle (hsnap r List.mem_cons_self hz)
    | light l =>
      obtain ⟨es, ps, hes, hps, hy⟩ := f1
      obtain ⟨k, hk, hz⟩ := g1
      have := inOrder_segment hl hes hk
      subst this
      simp only [Prod.mk.injEq] at hy hz
      obtain ⟨rfl, rfl⟩ := hy
      obtain ⟨rfl, rfl⟩ := hz
      rw [lastIndex_segment hl a k] at hf
      exact ih ht' hf hg hfirst' hsnap' (tracks_entries hl hin (segment_first hl hk hfirst0) h hps)
    | _ => exact other f1 g1

/-- What is known of a call on the actor that was recorded after `t1`. -/
def CalledAt (S : Sys σ ρ κ H) (log : Nat → Entry) (fresh : σ → Prop) (cfg : Bytes) (f : σ) (t1 : List (Ev H)) (c : Call) (a : Nat) : Prop :=
  ∃ n s s', n ≤ a ∧ Reflects S log fresh cfg f n s ∧ Step S.A s c s' ∧ (∀ ctx ec ev res, c = .apply ctx ec ev res → n + 1 = ec.index) ∧
    ∀ i ∈ applyIndices (observed t1), i ≤ n

theorem app_started {log : Nat → Entry} (hl : ∀ i, (log i).index = i) (hin : Inert S.A) {fresh : σ → Prop} {cfg : Bytes}
    {m : Option (InMsg H)} {d d' : Driver σ ρ κ H} (hs : d.state ≠ .created) (he : d.ephemeral = false)
    (h : body S m d = .ok (d', .ok ())) {b : Nat} {y : Nat × Nat} {new : List (Ev H)} (ht : d'.trace = d.trace ++ new)
    (hg : Trail (Advances log) new (b, d.applied) y) (hfirst : ∀ e ∈ new.flatMap delivered, 2 ≤ e.index)
    (hsnap : ∀ r, .ready r ∈ new → r.snapshot.metadata.index ≠ 0 → Saved S log fresh cfg f r.snapshot.metadata.index r.snapshot.data)
    (hasc : ∀ i ∈ applyIndices (observed d.trace), i ≤ d.applied)
    (ha : Reflects S log fresh cfg f d.applied d.actor) :
    Reflects S log fresh cfg f d'.applied d'.actor ∧ d.applied ≤ d'.applied ∧
    (∀ i c x, .storeCreate i c x ∈ new → Saved S log fresh cfg f i x) ∧ (∀ e ∈ new, kind e ≠ .raftInit) ∧
    ∀ n1 c n2, new = n1 ++ .actor c :: n2 → CalledAt S log fresh cfg f (d.trace ++ n1) c d'.applied := by
  obtain ⟨_, n1, t1, f1, _, c1⟩ := moves_body hs he h
  obtain ⟨n2, t2, k2⟩ := body_noInit hs h
  obtain ⟨n3, t3, k3⟩ := body_created hs h
  obtain ⟨n4, t4, k4⟩ := ((reaches_body m d).run _ _ h).acts
  have e1 : n1 = new := List.append_cancel_left (t1.symm.trans ht)
  have e2 : n2 = new := List.append_cancel_left (t2.symm.trans ht)
  have e3 : n3 = new := List.append_cancel_left (t3.symm.trans ht)
  have e4 : n4 = new := List.append_cancel_left (t4.symm.trans ht)
  rw [e1] at f1 c1
  rw [e2] at k2
  rw [e3] at k3
  rw [e4] at k4
  have hr : ∀ e ∈ new, kind e ≠ .raftInit := fun e he hk => k2 e he (by rw [hk]; decide)
  have hi : ∀ e ∈ new, kind e ≠ .actorInit := fun e he hk => k2 e he (by rw [hk]; decide)
  have hgoes := acts_goes c1 hi k4
  have htr := tracks_trail (S := S) hl hin (s0 := d.actor) (a0 := d.applied) hr (f1 []) hg hfirst hsnap (by
    intro pre post hp
    have hp' := List.append_eq_nil_iff.1 hp.symm
    rw [hp'.1, hp'.2]
    exact ⟨d.applied, Nat.le_refl _, Nat.le_refl _, fun u hu => ha.quiet hin hu, fun _ => rfl, fun i own ev p hx => (nomatch hx),
      fun i hi => by simp [applyIndices] at hi⟩)
  rw [List.nil_append] at htr
  obtain ⟨n, x1, x2, x3, x4, _⟩ := htr (observed new) [] (by simp)
  have hn := x4 rfl
  subst hn
  have hfin := x3 _ hgoes
  refine ⟨hfin, x1, fun i c x hx => ?_, hr, fun p1 c p2 hp => ?_⟩
  · obtain ⟨rfl, ctx, s, hsave⟩ := k3 i c x hx
    have := hin.save hsave
    rw [this] at hfin
    exact ⟨ctx, s, _, hfin, .save hsave⟩
  · rw [hp] at k4 c1 hi
    obtain ⟨s1, g1, s2, g2, _⟩ := trail_append.1 k4
    have hgo := acts_goes (fun e he => c1 e (List.mem_append_left _ he)) (fun e he => hi e (List.mem_append_left _ he)) g1
    have hobs : observed new = observed p1 ++ observed (Ev.actor c :: p2) := by rw [hp, observed_append]
    obtain ⟨n, y1, y2, y3, y4, y5, y6⟩ := htr _ _ hobs
    refine ⟨n, s1, s2, y2, y3 _ hgo, g2, fun ctx ec ev res hc => ?_, fun i hi => ?_⟩
    · subst hc
      exact y5 ec.index ec.owned ev (observed p2) (by simp [observed, observation])
    · rw [observed_append, applyIndices_append] at hi
      rcases List.mem_append.1 hi with hi | hi
      · have := hasc i hi; omega
      · exact y6 i hi

/-! ## Clusters -/

theorem advances_follows {log : Nat → Entry} {t : List (Ev H)} {x y : Nat × Nat} (h : Trail (Advances log) t x y) : Trail (Follows log) t x y := by
  induction t generalizing x with
  | nil => exact h
  | cons e t ih =>
    obtain ⟨z, ⟨h1, _⟩, h2⟩ := h
    exact ⟨z, h1, ih h2⟩

theorem Deployed.cluster {log : Nat → Entry} {founder : Nat} {fresh : σ → Prop} {cfg : Bytes} {ds : Nat → Driver σ ρ κ H}
    (h : Deployed S log founder fresh cfg ds) : Cluster S log founder ds := by
  induction h with
  | init h =>
    refine .init fun p => ?_
    obtain ⟨a, r, c, _, e⟩ := h p
    exact ⟨a, r, c, e⟩
  | call _ hs he hlog hfirst hsnap hfound _ ih =>
    obtain ⟨y, hy⟩ := hlog
    exact ih.call hs he ⟨y, advances_follows hy⟩ hfirst hsnap hfound

/-- What is true of all replicas of a cluster that runs one application. -/
structure AppInv (S : Sys σ ρ κ H) (log : Nat → Entry) (fresh : σ → Prop) (cfg : Bytes) (f : σ) (ds : Nat → Driver σ ρ κ H) : Prop where
  runs : ∀ p, ∃ d0 outs, Fresh d0 ∧ Runs S d0 outs (ds p)
  normal : ∀ p, (ds p).ephemeral = false
  pos : ∀ p, ∃ y, Trail (Advances log) (ds p).trace (0, 0) y
  before : ∀ p, (ds p).state = .created → fresh (ds p).actor
  actor : ∀ p, (ds p).state ≠ .created → Reflects S log fresh cfg f (ds p).applied (ds p).actor
  good : ∀ i b, Created ds i b → Saved S log fresh cfg f i b
  snaps : ∀ p r, .ready r ∈ (ds p).trace → r.snapshot.metadata.index ≠ 0 → Saved S log fresh cfg f r.snapshot.metadata.index r.snapshot.data
  calls : ∀ p t1 c t2, (ds p).trace = t1 ++ .actor c :: t2 → CalledAt S log fresh cfg f t1 c (ds p).applied

theorem AppInv.after {log : Nat → Entry} {fresh : σ → Prop} {cfg : Bytes} {ds : Nat → Driver σ ρ κ H} (I : AppInv S log fresh cfg f ds)
    {p : Nat} {d : Driver σ ρ κ H} (hr : ∃ d0 outs, Fresh d0 ∧ Runs S d0 outs d) (he : d.ephemeral = false)
    (hlog : ∃ y, Trail (Advances log) d.trace (0, 0) y) (hb : d.state = .created → fresh d.actor)
    (ha : d.state ≠ .created → Reflects S log fresh cfg f d.applied d.actor)
    (hsnap : ∀ r, .ready r ∈ d.trace → r.snapshot.metadata.index ≠ 0 → .ready r ∈ (ds p).trace ∨ Created ds r.snapshot.metadata.index r.snapshot.data)
    (hg : ∀ i b, Creates d.trace i b → Saved S log fresh cfg f i b)
    (hc : ∀ t1 c t2, d.trace = t1 ++ .actor c :: t2 → CalledAt S log fresh cfg f t1 c d.applied) : AppInv S log fresh cfg f (update ds p d) := by
  have hu : ∀ q, (update ds p d q = d ∧ q = p) ∨ update ds p d q = ds q := by
    intro q
    by_cases hq : q = p
    · exact .inl ⟨by simp [DrvSpec.update, hq], hq⟩
    · exact .inr (by simp [DrvSpec.update, hq])
  refine ⟨fun q => ?_, fun q => ?_, fun q => ?_, fun q => ?_, fun q => ?_, fun i b hcr => ?_, fun q r hm hz => ?_, fun q => ?_⟩
  · rcases hu q with ⟨h, _⟩ | h <;> rw [h]
    · exact hr
    · exact I.runs q
  · rcases hu q with ⟨h, _⟩ | h <;> rw [h]
    · exact he
    · exact I.normal q
  · rcases hu q with ⟨h, _⟩ | h <;> rw [h]
    · exact hlog
    · exact I.pos q
  · rcases hu q with ⟨h, _⟩ | h <;> rw [h]
    · exact hb
    · exact I.before q
  · rcases hu q with ⟨h, _⟩ | h <;> rw [h]
    · exact ha
    · exact I.actor q
  · obtain ⟨q, hq⟩ := hcr
    rcases hu q with ⟨h, _⟩ | h <;> rw [h] at hq
    · exact hg i b hq
    · exact I.good i b ⟨q, hq⟩
  · rcases hu q with ⟨h, _⟩ | h <;> rw [h] at hm
    · rcases hsnap r hm hz with h | h
      · exact I.snaps p r h hz
      · exact I.good _ _ h
    · exact I.snaps q r hm hz
  · rcases hu q with ⟨h, _⟩ | h <;> rw [h]
    · exact hc
    · exact I.calls q

theorem CalledAt.mono {log : Nat → Entry} {fresh : σ → Prop} {cfg : Bytes} {t1 : List (Ev H)} {c : Call} {a a' : Nat}
    (h : CalledAt S log fresh cfg f t1 c a) (hle : a ≤ a') : CalledAt S log fresh cfg f t1 c a' := by
  obtain ⟨n, s, s', h1, h2⟩ := h
  exact ⟨n, s, s', Nat.le_trans h1 hle, h2⟩

/-- An element of two lists appended. -/
theorem split_cases {α : Type} {a b t1 t2 : List α} {x : α} (h : a ++ b = t1 ++ x :: t2) :
    (∃ u, a = t1 ++ x :: u) ∨ ∃ u, t1 = a ++ u ∧ b = u ++ x :: t2 := by
  rcases List.append_eq_append_iff.1 h with ⟨u, h1, h2⟩ | ⟨u, h1, h2⟩
  · exact .inr ⟨u, h1, h2⟩
  · cases u with
    | nil => exact .inr ⟨[], by simpa using h1.symm, by simpa using h2.symm⟩
    | cons y u =>
      simp only [List.cons_append, List.cons.injEq] at h2
      exact .inl ⟨u, by rw [h1, h2.1]⟩

/-- A call keeps the invariant; the founder has to start in the state `f`. -/
theorem app_call {log : Nat → Entry} (hl : ∀ i, (log i).index = i) (hin : Inert S.A) {fresh : σ → Prop} {cfg : Bytes} {f : σ}
    {ds : Nat → Driver σ ρ κ H} {p instant : Nat} {m : Option (Option (InMsg H))} {d : Driver σ ρ κ H} {out}
    (hs : receive S instant m (ds p) = .ok (d, .ok out)) (he : d.ephemeral = false)
    (hlog : ∃ y, Trail (Advances log) d.trace (0, 0) y) (hfirst : ∀ e ∈ d.trace.flatMap delivered, 2 ≤ e.index)
    (hsnap : ∀ r, .ready r ∈ d.trace → r.snapshot.metadata.index ≠ 0 → .ready r ∈ (ds p).trace ∨ Created ds r.snapshot.metadata.index r.snapshot.data)
    (hcfg : ∀ ctx res, .actorInit ctx res ∈ d.trace → ctx.config = cfg) (I : AppInv S log fresh cfg f ds)
    (hv : (ds p).state = .created → ∀ ctx a b, S.A.onInit ctx (ds p).actor = .ok (a, .ok ()) →
      (∃ id, .raftInit id b true (.ok ()) ∈ d.trace) → .actorInit ctx (.ok ()) ∈ d.trace → a = f) :
    AppInv S log fresh cfg f (update ds p d) := by
  obtain ⟨d0, outs, h0, hr⟩ := I.runs p
  have hc := runs_created h0 hr
  obtain ⟨⟨b0, c0⟩, hpos⟩ := I.pos p
  have hap := (runs_position hl h0 hr (I.normal p) (advances_follows hpos)).1
  have hasc := (runs_ascending hl h0 hr (I.normal p) hpos).bound
  have key : (d.state = .created → fresh d.actor) ∧ (d.state ≠ .created → Reflects S log fresh cfg f d.applied d.actor) ∧
      (∀ i b, Creates d.trace i b → Saved S log fresh cfg f i b) ∧
      ∀ t1 c t2, d.trace = t1 ++ .actor c :: t2 → CalledAt S log fresh cfg f t1 c d.applied := by
    cases receive_outcome hs with
    | unknown => exact ⟨I.before p, I.actor p, fun i b h => I.good i b ⟨p, h⟩, I.calls p⟩
    | @done m' d2 c' os hm hb ho =>
      have noout : ∀ {e : Ev H}, e ∈ os.map (fun m => Ev.out (.comm m)) → kind e = .oComm := out_kind
      obtain ⟨y, hy⟩ := hlog
      obtain ⟨y2, hy2, _⟩ := trail_append.1 hy
      have hfirst2 : ∀ e ∈ d2.trace.flatMap delivered, 2 ≤ e.index := fun e h => hfirst e (by
        simp only [List.flatMap_append]; exact List.mem_append_left _ h)
      have hsnap2 : ∀ r, .ready r ∈ d2.trace → r.snapshot.metadata.index ≠ 0 → .ready r ∈ (ds p).trace ∨ Created ds r.snapshot.metadata.index r.snapshot.data :=
        fun r h => hsnap r (List.mem_append_left _ h)
      have hcfg2 : ∀ ctx res, .actorInit ctx res ∈ d2.trace → ctx.config = cfg := fun ctx res h => hcfg ctx res (List.mem_append_left _ h)
      suffices hsuf : d2.state ≠ .created ∧ Reflects S log fresh cfg f d2.applied d2.actor ∧
          (∀ i b, Creates d2.trace i b → Saved S log fresh cfg f i b) ∧
          ∀ t1 c t2, d2.trace = t1 ++ .actor c :: t2 → CalledAt S log fresh cfg f t1 c d2.applied by
        obtain ⟨k1, k2, k3, k4⟩ := hsuf
        refine ⟨fun h => absurd h k1, fun _ => k2, fun i b hcr => k3 i b ?_, fun t1 c t2 ht => ?_⟩
        · rcases hcr with ⟨c, hm⟩ | ⟨h1, id, hm⟩
          · rcases List.mem_append.1 hm with hm | hm
            · exact .inl ⟨c, hm⟩
            · exact absurd (noout hm) (by simp [kind])
          · rcases List.mem_append.1 hm with hm | hm
            · exact .inr ⟨h1, id, hm⟩
            · exact absurd (noout hm) (by simp [kind])
        · rcases split_cases ht with ⟨u, hu⟩ | ⟨u, _, hu⟩
          · exact k4 t1 c u hu
          · have : Ev.actor c ∈ os.map (fun m => Ev.out (.comm m)) := by rw [hu]; simp
            simp at this
      by_cases hst : (ds p).state = .created
      · obtain ⟨ht, ha, _, hpr, hu, _⟩ := hc.inv hst
        have hne := body_state (d := presetState S instant (ds p)) hst hu hb
        obtain ⟨r, ctx, a1, a2, b, d3, _, f1, f2, f3, hst3, e3, f4, f5, f6, f7, hb'⟩ :=
          start_body (S := S) (d := presetState S instant (ds p)) hst hu hb he
        have ht' : (presetState S instant (ds p)).trace = [] := ht
        have ha' : (presetState S instant (ds p)).applied = 0 := ha
        rw [ht', List.nil_append] at f7
        rw [ha'] at f4
        have hsn : d3.state ≠ .created := by rw [hst3]; simp
        obtain ⟨new, hnew, _⟩ := body_noInit hsn hb'
        have hcf : ctx.config = cfg := hcfg2 ctx (.ok ()) (by rw [hnew, f7]; simp)
        have h1 : Replica S.A fresh cfg [] a1 := .start (I.before p hst) hcf f1
        have h2 : Replica S.A fresh cfg [] a2 := h1.save (.save f2)
        have hm1 : r.isLeader = true → Member S.A fresh cfg f [] a1 := by
          intro hlead
          have : a1 = f := hv hst ctx a1 b f1 (by simp [hnew, f7, hlead]) (by simp [hnew, f7])
          rw [← this]
          exact .boot (I.before p hst) hcf f1
        have hle3 : d3.applied ≤ 1 := by rw [f4]; split <;> omega
        have hev : ∀ n, n ≤ 1 → eventsUpTo S.E.decEntry log n = [] := by
          intro n hn
          unfold eventsUpTo
          rw [show n - 1 = 0 by omega]
          rfl
        have ha3 : Reflects S log fresh cfg f d3.applied d3.actor := by
          unfold Reflects
          rw [hev _ hle3, f3]
          refine ⟨h2, fun h => ?_⟩
          cases hlead : r.isLeader with
          | false => rw [f4] at h; simp [hlead] at h
          | true => exact (hm1 hlead).save (.save f2)
        rw [hnew] at hy2
        obtain ⟨⟨b3, c3⟩, g3, g4⟩ := trail_append.1 hy2
        have hc3 : c3 = d3.applied := by
          rw [f4]
          rw [f7] at g3
          obtain ⟨_, rfl, _, rfl, _, hgi, _, rfl, hge⟩ := advances_follows g3
          cases hge
          cases hlead : r.isLeader with
          | true => rw [hlead] at hgi; cases hgi; rfl
          | false => rw [hlead] at hgi; cases hgi; rfl
        subst hc3
        have hf3 : ∀ e ∈ new.flatMap delivered, 2 ≤ e.index := fun e h => hfirst2 e (by
          rw [hnew, List.flatMap_append]; exact List.mem_append_right _ h)
        have hs3 : ∀ r, .ready r ∈ new → r.snapshot.metadata.index ≠ 0 → Saved S log fresh cfg f r.snapshot.metadata.index r.snapshot.data := by
          intro q hq hz
          rcases hsnap2 q (by rw [hnew]; exact List.mem_append_right _ hq) hz with h | h
          · rw [ht] at h; simp at h
          · exact I.good _ _ h
        obtain ⟨k1, kle, k2, k3, k4⟩ := app_started (S := S) hl hin hsn e3 hb' hnew g4 hf3 hs3 (by
          rw [f7]; intro i hi; simp [observed, observation, applyIndices] at hi) ha3
        refine ⟨hne, k1, fun i x hcr => ?_, fun t1 c t2 htr => ?_⟩
        · rw [hnew, f7] at hcr
          rcases hcr with ⟨c, hm⟩ | ⟨rfl, id, hm⟩
          · rcases List.mem_append.1 hm with hm | hm
            · simp at hm
            · exact k2 i c x hm
          · rcases List.mem_append.1 hm with hm | hm
            · simp only [List.mem_cons, reduceCtorEq, Ev.raftInit.injEq, List.not_mem_nil, or_false, false_or, and_true] at hm
              obtain ⟨_, rfl, hlead⟩ := hm
              refine ⟨ctx, a1, a2, ?_, .save f2⟩
              unfold Reflects
              rw [hev 1 (Nat.le_refl _)]
              exact ⟨h1, fun _ => hm1 hlead.symm⟩
            · exact absurd rfl (k3 _ hm)
        · rw [hnew] at htr
          rcases split_cases htr with ⟨u, hu⟩ | ⟨u, hu1, hu2⟩
          · rw [f7] at hu
            have : t1 = [.actorInit ctx (.ok ())] ∧ c = .save ctx (.ok b) := by
              match t1, hu with
              | [], hu => simp at hu
              | [x], hu => simp at hu; exact ⟨by rw [hu.1], hu.2.1.symm⟩
              | [x, y], hu => simp at hu
              | [x, y, z], hu => simp at hu
              | x :: y :: z :: w :: v, hu =>
                have := congrArg List.length hu
                simp at this
            obtain ⟨rfl, rfl⟩ := this
            refine ⟨0, a1, a2, Nat.zero_le _, ?_, .save f2, fun _ _ _ _ hx => (nomatch hx), fun i hi => by
              simp [observed, observation, applyIndices] at hi⟩
            unfold Reflects
            rw [hev 0 (by omega)]
            exact ⟨h1, fun h => absurd h (by omega)⟩
          · subst hu1
            exact k4 u c t2 hu2
      · obtain ⟨new, hnew, _⟩ := body_noInit (S := S) (d := presetState S instant (ds p)) hst hb
        have hnew' : d2.trace = (ds p).trace ++ new := hnew
        have hne : d2.state ≠ .created := ((reaches_body m' (presetState S instant (ds p))).run _ _ hb).lifecycle.1 hst
        rw [hnew'] at hy2
        obtain ⟨⟨b3, c3⟩, g3, g4⟩ := trail_append.1 hy2
        have hc3 := (runs_position hl h0 hr (I.normal p) (advances_follows g3)).1
        subst hc3
        have hf3 : ∀ e ∈ new.flatMap delivered, 2 ≤ e.index := fun e h => hfirst2 e (by
          rw [hnew', List.flatMap_append]; exact List.mem_append_right _ h)
        have hs3 : ∀ r, .ready r ∈ new → r.snapshot.metadata.index ≠ 0 → Saved S log fresh cfg f r.snapshot.metadata.index r.snapshot.data := by
          intro q hq hz
          rcases hsnap2 q (by rw [hnew']; exact List.mem_append_right _ hq) hz with h | h
          · exact I.snaps p q h hz
          · exact I.good _ _ h
        obtain ⟨k1, kle, k2, k3, k4⟩ := app_started (S := S) (d := presetState S instant (ds p)) hl hin hst (I.normal p) hb hnew g4 hf3 hs3 hasc (I.actor p hst)
        refine ⟨hne, k1, fun i x hcr => ?_, fun t1 c t2 htr => ?_⟩
        · rw [hnew'] at hcr
          rcases hcr with ⟨c, hm⟩ | ⟨rfl, id, hm⟩
          · rcases List.mem_append.1 hm with hm | hm
            · exact I.good i x ⟨p, .inl ⟨c, hm⟩⟩
            · exact k2 i c x hm
          · rcases List.mem_append.1 hm with hm | hm
            · exact I.good 1 x ⟨p, .inr ⟨rfl, id, hm⟩⟩
            · exact absurd rfl (k3 _ hm)
        · rw [hnew'] at htr
          rcases split_cases htr with ⟨u, hu⟩ | ⟨u, hu1, hu2⟩
          · exact (I.calls p t1 c u hu).mono kle
          · subst hu1
            exact k4 u c t2 hu2
  exact I.after ⟨d0, _, h0, hr.snoc hs⟩ he hlog key.1 key.2.1 hsnap key.2.2.1 key.2.2.2

theorem app_inv {log : Nat → Entry} (hl : ∀ i, (log i).index = i) (hin : Inert S.A) {founder : Nat} {fresh : σ → Prop} {cfg : Bytes}
    {ds : Nat → Driver σ ρ κ H} (h : Deployed S log founder fresh cfg ds) :
    (∃ f, AppInv S log fresh cfg f ds) ∧ ((ds founder).state = .created → ∀ f, AppInv S log fresh cfg f ds) := by
  induction h with
  | @init ds0 h =>
    suffices all : ∀ f, AppInv S log fresh cfg f ds0 from ⟨⟨(ds0 0).actor, all _⟩, fun _ => all⟩
    intro f
    refine ⟨fun p => ?_, fun p => ?_, fun p => ?_, fun p _ => ?_, fun p hne => ?_, fun i b hc => ?_, fun p r hm => ?_, fun p t1 c t2 ht => ?_⟩
    · obtain ⟨a, r, c, _, e⟩ := h p
      exact ⟨_, _, ⟨a, r, c, e⟩, .nil⟩
    · obtain ⟨a, r, c, _, e⟩ := h p
      rw [e]; rfl
    · obtain ⟨a, r, c, _, e⟩ := h p
      rw [e]; exact ⟨_, rfl⟩
    · obtain ⟨a, r, c, hf, e⟩ := h p
      rw [e]; exact hf
    · obtain ⟨a, r, c, hf, e⟩ := h p
      rw [e] at hne; exact absurd rfl hne
    · obtain ⟨p, hp⟩ := hc
      obtain ⟨a, r, c, _, e⟩ := h p
      rw [e] at hp; simp [Driver.new] at hp
    · obtain ⟨a, r, c, _, e⟩ := h p
      rw [e] at hm; simp [Driver.new] at hm
    · obtain ⟨a, r, c, _, e⟩ := h p
      rw [e] at ht; simp [Driver.new] at ht
  | @call ds p instant m d out h hs he hlog hfirst hsnap hfound hcfg ih =>
    obtain ⟨⟨f, I⟩, J⟩ := ih
    by_cases hp : p = founder
    · subst hp
      have hupd : update ds p d p = d := by simp [update]
      by_cases hst : (ds p).state = .created
      · obtain ⟨d0, outs, h0, hr⟩ := I.runs p
        have hc := (runs_created h0 hr).inv hst
        cases receive_outcome hs with
        | unknown hm =>
          have hnone : ∀ e, e ∉ (presetState S instant (ds p)).trace := by
            intro e he
            have : (presetState S instant (ds p)).trace = [] := hc.1
            rw [this] at he; simp at he
          have all : ∀ f, AppInv S log fresh cfg f ds → AppInv S log fresh cfg f (update ds p (presetState S instant (ds p))) :=
            fun f I => app_call hl hin hs he hlog hfirst hsnap hcfg I fun _ _ _ b _ hb => absurd hb.choose_spec (hnone _)
          exact ⟨⟨f, all f I⟩, fun _ g => all g (J hst g)⟩
        | @done m' d2 c' os hm hb ho =>
          have hne := body_state (d := presetState S instant (ds p)) hst hc.2.2.2.2.1 hb
          refine ⟨?_, fun h => absurd (by rw [hupd] at h; exact h) hne⟩
          obtain ⟨r, ctx, a1, a2, b, d3, _, f1, _, _, hst3, e3, _, _, _, f7, hb'⟩ :=
            start_body (S := S) (d := presetState S instant (ds p)) hst hc.2.2.2.2.1 hb he
          have ht' : (presetState S instant (ds p)).trace = [] := hc.1
          rw [ht', List.nil_append] at f7
          have hsn : d3.state ≠ .created := by rw [hst3]; simp
          obtain ⟨new, hnew, hk⟩ := body_noInit hsn hb'
          refine ⟨a1, app_call hl hin hs he hlog hfirst hsnap hcfg (J hst a1) fun _ ctx' a b' hi _ hinit => ?_⟩
          have : ctx' = ctx := by
            simp only [hnew, f7] at hinit
            rcases List.mem_append.1 hinit with hinit | hinit
            · rcases List.mem_append.1 hinit with hinit | hinit
              · simpa using hinit
              · exact absurd (hk _ hinit) (by simp [kind])
            · exact absurd (out_kind hinit) (by simp [kind])
          subst this
          rw [show S.A.onInit ctx' (ds p).actor = .ok (a1, .ok ()) from f1] at hi
          cases hi; rfl
      · refine ⟨⟨f, app_call hl hin hs he hlog hfirst hsnap hcfg I fun h => absurd h hst⟩, fun h => ?_⟩
        rw [hupd] at h
        obtain ⟨d2, hstar, hd2⟩ := receive_star hs
        have hlc := hstar.lifecycle.1 hst
        rcases hd2 with e | ⟨_, _, _, _, e⟩ <;> rw [e] at h <;> exact absurd h hlc
    · have hupd : update ds p d founder = ds founder := by simp [update, Ne.symm hp]
      have all : ∀ f, AppInv S log fresh cfg f ds → AppInv S log fresh cfg f (update ds p d) := fun f I =>
        app_call hl hin hs he hlog hfirst hsnap hcfg I fun _ _ _ b _ hb => absurd (hfound _ b hb.choose_spec) hp
      exact ⟨⟨f, all f I⟩, fun hc g => all g (J (by rw [← hupd]; exact hc) g)⟩

theorem deployed_first {log : Nat → Entry} {founder : Nat} {fresh : σ → Prop} {cfg : Bytes} {ds : Nat → Driver σ ρ κ H}
    (h : Deployed S log founder fresh cfg ds) : ∀ p, ∀ e ∈ (ds p).trace.flatMap delivered, 2 ≤ e.index := by
  induction h with
  | init h =>
    intro p
    obtain ⟨a, r, c, _, e⟩ := h p
    rw [e]; simp [Driver.new]
  | @call ds p instant m d out h hs he hlog hfirst hsnap hfound hcfg ih =>
    intro q
    by_cases hq : q = p
    · subst hq; simpa [update] using hfirst
    · simpa [update, hq] using ih q

theorem mem_split {α : Type} {l : List α} {x : α} (h : x ∈ l) : ∃ a b, l = a ++ x :: b := List.append_of_mem h

/-- What a replica sent up to an earlier moment `ds`, in terms of a later moment `ds'`. -/
theorem app_answers_later {log : Nat → Entry} (hl : ∀ i, (log i).index = i) {founder : Nat} {fresh : σ → Prop} {cfg : Bytes} {f f' : σ}
    {ds ds' : Nat → Driver σ ρ κ H} (h : Deployed S log founder fresh cfg ds) (I : AppInv S log fresh cfg f ds) (I' : AppInv S log fresh cfg f' ds')
    {p : Nat} (hlater : (ds p).trace <+: (ds' p).trace) {r : ActorCommand} (hr : r ∈ appMessages (outMessages (ds p).trace)) :
    (∃ n s s' ctx c o, n ≤ (ds' p).applied ∧ Reflects S log fresh cfg f' n s ∧ .actor (.command ctx c (.ok o)) ∈ (ds p).trace ∧
      S.A.onProcessCommand ctx s c = .ok (s', .ok o) ∧ r ∈ o.commands) ∨
    (∃ i replica ev s s' ctx o, 2 ≤ i ∧ i ≤ (ds p).applied ∧ i ≤ (ds' p).applied ∧ Reflects S log fresh cfg f' (i - 1) s ∧
      eventOf S.E.decEntry (log i) = some ev ∧ proposerOf S.E.decEntry (log i) = some replica ∧
      S.A.onApplyEvent ctx s ⟨i, decide (replica = (ds p).id)⟩ ev = .ok (s', .ok o) ∧ r ∈ o.commands) := by
  obtain ⟨d0, outs, h0, hruns⟩ := I.runs p
  obtain ⟨d0', outs', h0', hruns'⟩ := I'.runs p
  obtain ⟨y, hy⟩ := I.pos p
  obtain ⟨y', hy'⟩ := I'.pos p
  obtain ⟨more, hmore⟩ := hlater
  rw [calls_replies h0 (runs_calls hruns)] at hr
  obtain ⟨e, hm, hr⟩ := List.mem_flatMap.1 hr
  have hm' : e ∈ (ds' p).trace := by rw [← hmore]; exact List.mem_append_left _ hm
  match e, hm, hm', hr with
  | .actor (.command ctx c (.ok o)), hm, hm', hr =>
    obtain ⟨t1, t2, ht⟩ := mem_split hm'
    obtain ⟨n, s, s', h1, h2, h3, _⟩ := I'.calls p t1 _ t2 ht
    cases h3 with
    | command h3 => exact .inl ⟨n, s, s', ctx, c, o, h1, h2, hm, h3, hr⟩
  | .actor (.apply ctx ⟨i, w⟩ ev (.ok o)), hm, hm', hr =>
    obtain ⟨t1, t2, ht⟩ := mem_split hm'
    obtain ⟨n, s, s', h1, h2, h3, h4, _⟩ := I'.calls p t1 _ t2 ht
    have hn := h4 _ _ _ _ rfl
    simp only at hn
    have ho : .apply i w ev ∈ observed (ds p).trace := List.mem_filterMap.2 ⟨_, hm, rfl⟩
    have ho' : .apply i w ev ∈ observed (ds' p).trace := List.mem_filterMap.2 ⟨_, hm', rfl⟩
    obtain ⟨e, he, hi, hd, hty, replica, hdec, hw⟩ := runs_stems h0 hruns (I.normal p) _ ho
    obtain ⟨j, rfl⟩ := follows_delivered (advances_follows hy) e he
    have h2i := deployed_first h p _ he
    rw [hl] at hi h2i
    subst hi
    cases h3 with
    | apply h3 =>
      subst hw
      refine .inr ⟨j, replica, ev, s, s', ctx, o, h2i, ?_, ?_, ?_, ?_, ?_, h3, hr⟩
      · exact (runs_ascending hl h0 hruns (I.normal p) hy).bound _ (List.mem_filterMap.2 ⟨_, ho, rfl⟩)
      · exact (runs_ascending hl h0' hruns' (I'.normal p) hy').bound _ (List.mem_filterMap.2 ⟨_, ho', rfl⟩)
      · rw [← hn]; exact h2
      · unfold eventOf
        rw [if_neg hd, if_neg hty, hdec]
      · unfold proposerOf
        rw [if_neg hd, if_neg hty, hdec]

theorem app_answers {log : Nat → Entry} (hl : ∀ i, (log i).index = i) {founder : Nat} {fresh : σ → Prop} {cfg : Bytes} {f : σ}
    {ds : Nat → Driver σ ρ κ H} (h : Deployed S log founder fresh cfg ds) (I : AppInv S log fresh cfg f ds) {p : Nat} {r : ActorCommand}
    (hr : r ∈ appMessages (outMessages (ds p).trace)) :
    (∃ n s s' ctx c o, n ≤ (ds p).applied ∧ Reflects S log fresh cfg f n s ∧ .actor (.command ctx c (.ok o)) ∈ (ds p).trace ∧
      S.A.onProcessCommand ctx s c = .ok (s', .ok o) ∧ r ∈ o.commands) ∨
    (∃ i replica ev s s' ctx o, 2 ≤ i ∧ i ≤ (ds p).applied ∧ Reflects S log fresh cfg f (i - 1) s ∧
      eventOf S.E.decEntry (log i) = some ev ∧ proposerOf S.E.decEntry (log i) = some replica ∧
      S.A.onApplyEvent ctx s ⟨i, decide (replica = (ds p).id)⟩ ev = .ok (s', .ok o) ∧ r ∈ o.commands) := by
  rcases app_answers_later hl h I I (List.prefix_refl _) hr with h | ⟨i, replica, ev, s, s', ctx, o, h1, h2, _, h3⟩
  · exact .inl h
  · exact .inr ⟨i, replica, ev, s, s', ctx, o, h1, h2, h3⟩

theorem app_proposals {log : Nat → Entry} {fresh : σ → Prop} {cfg : Bytes} {f : σ} {ds : Nat → Driver σ ρ κ H}
    (I : AppInv S log fresh cfg f ds) {p : Nat} {b : Bytes} (hb : .propose b ∈ (ds p).trace) :
    ∃ n s s' ctx c o ev, n ≤ (ds p).applied ∧ Reflects S log fresh cfg f n s ∧ .actor (.command ctx c (.ok o)) ∈ (ds p).trace ∧
      S.A.onProcessCommand ctx s c = .ok (s', .ok o) ∧ o.event = some ev ∧
      b = S.E.encEntry ⟨some ((ds p).id, ev.correlationId), ev.contents⟩ := by
  obtain ⟨d0, outs, h0, hruns⟩ := I.runs p
  obtain ⟨ev, hev, rfl⟩ := runs_proposal h0 hruns (I.normal p) hb
  obtain ⟨e, hm, he⟩ := List.mem_filterMap.1 hev
  match e, hm, he with
  | .actor (.command ctx c (.ok o)), hm, he =>
    obtain ⟨t1, t2, ht⟩ := mem_split hm
    obtain ⟨n, s, s', h1, h2, h3, _⟩ := I.calls p t1 _ t2 ht
    cases h3 with
    | command h3 => exact ⟨n, s, s', ctx, c, o, ev, h1, h2, hm, h3, he, rfl⟩

theorem eventOf_some {dec : Bytes → Option LogEntry} {e : Entry} {ev : ActorEvent} (h : eventOf dec e = some ev) :
    ∃ replica, proposerOf dec e = some replica ∧ dec e.data = some ⟨some (replica, ev.correlationId), ev.contents⟩ := by
  unfold eventOf at h
  by_cases h1 : e.data = []
  · rw [if_pos h1] at h; cases h
  · rw [if_neg h1] at h
    by_cases h2 : e.type = .confChange
    · rw [if_pos h2] at h; cases h
    · rw [if_neg h2] at h
      rcases h3 : dec e.data with _ | ⟨_ | ⟨r, c⟩, contents⟩ <;> rw [h3] at h <;> cases h
      refine ⟨r, ?_, rfl⟩
      unfold proposerOf
      rw [if_neg h1, if_neg h2, h3]

/-- Events of commands no replica was handed yet have an index no replica has reached. -/
theorem app_realtime (hcod : ∀ x, S.E.decEntry (S.E.encEntry x) = some x) (hcor : Correlates S.A) {log : Nat → Entry} {fresh : σ → Prop}
    {cfg : Bytes} {f : σ} {ds : Nat → Driver σ ρ κ H} (I : AppInv S log fresh cfg f ds) (hca : Causal S.E.decEntry log ds) {j : Nat} {ev : ActorEvent}
    (hj : 2 ≤ j) (hev : eventOf S.E.decEntry (log j) = some ev)
    (hnew : ∀ q, proposerOf S.E.decEntry (log j) = some (ds q).id → ∀ c ∈ (ds q).trace.filterMap handed, c.correlationId ≠ ev.correlationId)
    (p : Nat) : (ds p).applied < j := by
  apply Nat.lt_of_not_le
  intro hle
  obtain ⟨q, hq⟩ := hca p j ev hj hle hev
  obtain ⟨n, s, s', ctx, c, o, ev', _, _, hm, hc, ho, hb⟩ := app_proposals I hq
  obtain ⟨replica, hpr, hdec⟩ := eventOf_some hev
  rw [hb, hcod] at hdec
  simp only [Option.some.injEq, LogEntry.mk.injEq, Prod.mk.injEq] at hdec
  obtain ⟨⟨rfl, h1⟩, _⟩ := hdec
  obtain ⟨cmd, rfl, h2⟩ := hcor hc ho
  exact hnew q hpr cmd (List.mem_filterMap.2 ⟨_, hm, rfl⟩) (h2.symm.trans h1)

end TCP.Drv
