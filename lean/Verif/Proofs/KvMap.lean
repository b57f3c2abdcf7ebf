import Verif.Proofs.KvGuard
import Verif.Proofs.KvCount
import Verif.Proofs.CacheCommitted
import Verif.Props.CacheSerial
import Verif.Spec.KvMap

/-!
# The answers of the key-value store come from handler calls of transactions that succeeded
-/

namespace TCP.Cache

open TCP TCP.TabletStore TCP.Cache.Spec

/-! ## All requests of the store were accepted -/

structure TabletFrom (A : KvRequest → Prop) (tr : TabletTracker) : Prop where
  pending : ∀ r ∈ tr.pending, A r
  waiting : ∀ e ∈ tr.waiting, ∀ r ∈ e.2, A r

structure AllFrom (A : KvRequest → Prop) (c : KvCore) : Prop where
  pending : ∀ r ∈ c.pending, A r
  resolving : ∀ e ∈ c.resolving, ∀ r ∈ e.2, A r
  tablets : ∀ e ∈ c.tablets, TabletFrom A e.2

variable {A : KvRequest → Prop}

theorem TabletFrom.mono {B : KvRequest → Prop} (hs : ∀ r, A r → B r) {tr : TabletTracker} (h : TabletFrom A tr) : TabletFrom B tr :=
  ⟨fun r hr => hs r (h.pending r hr), fun e he r hr => hs r (h.waiting e he r hr)⟩

theorem AllFrom.mono {B : KvRequest → Prop} (hs : ∀ r, A r → B r) {c : KvCore} (h : AllFrom A c) : AllFrom B c :=
  ⟨fun r hr => hs r (h.pending r hr), fun e he r hr => hs r (h.resolving e he r hr), fun e he => (h.tablets e he).mono hs⟩

theorem TabletFrom.create (n : Nat) : TabletFrom A (.create n) := ⟨by simp [TabletTracker.create], by simp [TabletTracker.create]⟩

theorem handleResolve_from : ∀ (xs : List (Query × UInt32)) {c : KvCore}, AllFrom A c → AllFrom A (c.handleResolve xs) := by
  intro xs
  induction xs with
  | nil => intro c h; exact h
  | cons x rest ih =>
    obtain ⟨q, t⟩ := x
    intro c h
    refine ih ⟨h.pending, fun e he => h.resolving e (mem_erase he), fun e he => ?_⟩
    rcases mem_set he with rfl | he
    · have ht : TabletFrom A ((c.tablets.get t).getD (.create c.minProcess)) := by
        cases hg : c.tablets.get t with
        | none => exact .create _
        | some tr => exact h.tablets _ (AMap.mem_of_get hg)
      refine ⟨fun r hr => ?_, ht.waiting⟩
      rcases List.mem_append.mp hr with hr | hr
      · exact ht.pending r hr
      · cases hg : c.resolving.get q.id with
        | none => simp [hg] at hr
        | some rs => simp only [hg, Option.getD_some] at hr; exact h.resolving _ (AMap.mem_of_get hg) r hr
    · exact h.tablets e he

theorem handleCalls_from : ∀ (cs : List (Nat × List (Query × UInt32))) {c : KvCore}, AllFrom A c → AllFrom A (handleCalls c cs) := by
  intro cs
  induction cs with
  | nil => intro c h; exact h
  | cons x rest ih => intro c h; exact ih (handleResolve_from _ h)

theorem collectProcess_from (env : KvEnv) : ∀ (ts : AMap UInt32 TabletTracker) (c : KvCore), (∀ e ∈ ts, TabletFrom A e.2) →
    ∀ e ∈ (collectProcess env c ts).2.1, TabletFrom A e.2 := by
  intro ts
  induction ts with
  | nil => intro c _ e he; simp [collectProcess] at he
  | cons x rest ih =>
    obtain ⟨t, tr⟩ := x
    intro c h e he
    have hx := h (t, tr) (by simp)
    have hr : ∀ e ∈ rest, TabletFrom A e.2 := fun e he => h e (by simp [he])
    unfold collectProcess at he
    split at he
    · rcases List.mem_cons.mp he with rfl | he
      · refine ⟨by simp, fun e he => ?_⟩
        rcases mem_set he with rfl | he
        · exact hx.pending
        · exact hx.waiting e he
      · exact ih _ hr e he
    · rcases List.mem_cons.mp he with rfl | he
      · exact hx
      · exact ih _ hr e he

theorem collectProcess_queries (env : KvEnv) : ∀ (ts : AMap UInt32 TabletTracker) (c : KvCore), ∀ q ∈ (collectProcess env c ts).2.2.1, QueryOk q ∧ q.table = c.table := by
  intro ts
  induction ts with
  | nil => intro c q hq; simp [collectProcess] at hq
  | cons x rest ih =>
    obtain ⟨t, tr⟩ := x
    intro c q hq
    unfold collectProcess at hq
    split at hq
    · rcases List.mem_cons.mp hq with rfl | hq
      · exact ⟨asc_setOf _, rfl⟩
      · exact ih (createQuery env c tr.pending).1 q hq
    · exact ih _ q hq

theorem handleResolve_table : ∀ (xs : List (Query × UInt32)) (c : KvCore), (c.handleResolve xs).table = c.table := by
  intro xs
  induction xs with
  | nil => intro c; rfl
  | cons x rest ih => obtain ⟨q, t⟩ := x; intro c; exact ih _

theorem handleCalls_table : ∀ (cs : List (Nat × List (Query × UInt32))) (c : KvCore), (handleCalls c cs).table = c.table := by
  intro cs
  induction cs with
  | nil => intro c; rfl
  | cons x rest ih => intro c; exact (ih _).trans (handleResolve_table _ _)

theorem processTablets_table {env : KvEnv} {txn : Nat} : ∀ {vs : List (Query × UInt32 × Option Bytes)} {c c' : KvCore} {ws : List (Option Bytes)},
    c.processTablets env txn vs = .ok (c', ws) → c'.table = c.table := by
  intro vs
  induction vs with
  | nil => intro c c' ws h; simp only [KvCore.processTablets, Run.ok.injEq, Prod.mk.injEq] at h; rw [← h.1]
  | cons v rest ih =>
    obtain ⟨q, t, b⟩ := v
    intro c c' ws h
    have skip : ((c.processTablets env txn rest).bind fun z => Run.ok (z.1, none :: z.2)) = .ok (c', ws) → c'.table = c.table := by
      intro h
      obtain ⟨⟨c1, ws1⟩, h1, h2⟩ := Run.bind_eq_ok.mp h
      simp only [Run.ok.injEq, Prod.mk.injEq] at h2
      rw [← h2.1]; exact ih h1
    cases hx : c.txns.get txn with
    | none => simp only [KvCore.processTablets, hx] at h; exact skip h
    | some x =>
      cases ht : c.tablets.get t with
      | none => simp only [KvCore.processTablets, hx, ht] at h; exact skip h
      | some tr =>
        simp only [KvCore.processTablets, hx, ht] at h
        obtain ⟨y, h1, h2⟩ := Run.bind_eq_ok.mp h
        obtain ⟨⟨c1, ws1⟩, h3, h4⟩ := Run.bind_eq_ok.mp h2
        simp only [Run.ok.injEq, Prod.mk.injEq] at h4
        rw [← h4.1]
        have := ih h3
        exact this

theorem completeTablets_from : ∀ (ids : List UInt32) {ts : AMap UInt32 TabletTracker}, (∀ e ∈ ts, TabletFrom A e.2) → ∀ e ∈ completeTablets ts ids, TabletFrom A e.2 := by
  intro ids
  induction ids with
  | nil => intro ts h; exact h
  | cons t rest ih =>
    intro ts h
    unfold completeTablets
    split
    · rename_i tr ht
      refine ih fun e he => ?_
      rcases mem_set he with rfl | he
      · have := h _ (AMap.mem_of_get ht)
        exact ⟨this.pending, this.waiting⟩
      · exact h e he
    · exact ih h

/-! ## Handler calls -/

/-- The response was computed for one of the tablets a handler was given, from requests of `A` the query is about, and what the handler set is what it should. -/
def ServedBy (env : KvEnv) (A : KvRequest → Prop) (vs : List (Query × UInt32 × Option Bytes)) (sets : List (Option Bytes)) (r : KvResponse) : Prop :=
  ∃ (k : Nat) (q : Query) (id : UInt32) (b : Bytes) (d : AMap String Bytes) (batch : List KvRequest) (w : Option Bytes),
    vs[k]? = some (q, id, some b) ∧ env.dec b = some d ∧ sets[k]? = some w ∧ (∀ x ∈ batch, A x ∧ env.hash x.key ∈ q.hashes) ∧ writes env d.get batch w ∧ r ∈ (execReqs d.get batch).2

theorem ServedBy.mono {env : KvEnv} {B : KvRequest → Prop} (hs : ∀ r, A r → B r) {vs : List (Query × UInt32 × Option Bytes)} {sets : List (Option Bytes)} {r : KvResponse}
    (h : ServedBy env A vs sets r) : ServedBy env B vs sets r := by
  obtain ⟨k, q, id, b, d, batch, w', h1, h2, h3, h4, h5⟩ := h
  exact ⟨k, q, id, b, d, batch, w', h1, h2, h3, fun x hx => ⟨hs x (h4 x hx).1, (h4 x hx).2⟩, h5⟩

theorem ServedBy.cons {env : KvEnv} {vs : List (Query × UInt32 × Option Bytes)} {sets : List (Option Bytes)} {r : KvResponse} (h : ServedBy env A vs sets r)
    (v : Query × UInt32 × Option Bytes) (w : Option Bytes) : ServedBy env A (v :: vs) (w :: sets) r := by
  obtain ⟨k, q, id, b, d, batch, w', h1, h2, h3, h4⟩ := h
  exact ⟨k + 1, q, id, b, d, batch, w', by simpa using h1, h2, by simpa using h3, h4⟩

theorem processLoop_left (env : KvEnv) (q : Query) : ∀ (rs : List KvRequest) (d : AMap String Bytes), ∀ r ∈ (processLoop env q rs d).2.1, r ∈ rs := by
  intro rs
  induction rs with
  | nil => intro d r hr; simp [processLoop] at hr
  | cons x rest ih =>
    intro d r hr
    unfold processLoop at hr
    split at hr
    · exact List.mem_cons_of_mem _ (ih _ _ hr)
    · rcases List.mem_cons.mp hr with rfl | hr
      · simp
      · exact List.mem_cons_of_mem _ (ih _ _ hr)

theorem processQuery_served {env : KvEnv} {t : TabletTracker} {q : Query} {b : Option Bytes} {y : TabletTracker × List (KvRequest × KvResponse) × Option Bytes}
    (h : t.processQuery env q b = .ok y) (hf : TabletFrom A t) :
    TabletFrom A y.1 ∧ ∃ b' d batch, b = some b' ∧ env.dec b' = some d ∧ (∀ x ∈ batch, A x ∧ env.hash x.key ∈ q.hashes) ∧ writes env d.get batch y.2.2 ∧ y.2.1.map Prod.snd = (execReqs d.get batch).2 ∧ y.2.1.map Prod.fst = batch := by
  have h0 := h
  unfold TabletTracker.processQuery at h
  obtain ⟨b', h1, h⟩ := Run.bind_eq_ok.mp h
  obtain ⟨d, h2, h3⟩ := Run.bind_eq_ok.mp h
  have hb : b = some b' := by cases b with | none => simp [Run.unwrap] at h1 | some x => simp [Run.unwrap] at h1; rw [h1]
  have hd : env.dec b' = some d := by cases hx : env.dec b' with | none => simp [hx, Run.unwrap] at h2 | some x => simp [hx, Run.unwrap] at h2; rw [h2]
  subst hb
  obtain ⟨t', w, k1, k2, _⟩ := processQuery_spec env (t := t) (q := q) hd
  rw [h0] at k1
  simp only [Run.ok.injEq] at k1
  have hA : ∀ x ∈ (t.waiting.get q.id).getD [], A x := by
    intro x hx
    cases hg : t.waiting.get q.id with
    | none => simp [hg] at hx
    | some rs => simp only [hg, Option.getD_some] at hx; exact hf.waiting _ (AMap.mem_of_get hg) x hx
  refine ⟨?_, b', d, covered env q ((t.waiting.get q.id).getD []), rfl, hd, fun x hx => ⟨hA x (List.mem_filter.mp hx).1, of_decide_eq_true (List.mem_filter.mp hx).2⟩, by rw [k1]; exact k2, ?_, ?_⟩
  · cases hr : t.waiting.get q.id with
    | none => simp only [hr, Run.ok.injEq] at h3; rw [← h3]; exact hf
    | some rs =>
      simp only [hr, Run.ok.injEq] at h3
      rw [← h3]
      refine ⟨hf.pending, fun e he => ?_⟩
      rcases mem_set he with rfl | he
      · exact fun x hx => hA x (by rw [hr]; exact processLoop_left env q rs d x hx)
      · exact hf.waiting e he
  · rw [k1]
    exact List.map_snd_zip (by rw [execReqs_length]; exact Nat.le_refl _)
  · rw [k1]
    exact List.map_fst_zip (by rw [execReqs_length]; exact Nat.le_refl _)

theorem processTablets_served {env : KvEnv} {txn : Nat} : ∀ {vs : List (Query × UInt32 × Option Bytes)} {c c' : KvCore} {ws : List (Option Bytes)},
    c.processTablets env txn vs = .ok (c', ws) → AllFrom A c → AllFrom A c' ∧ ∀ i t', c'.txns.get i = some t' → ∃ t, c.txns.get i = some t ∧ t'.commit = t.commit ∧
      ∀ r ∈ t'.responses, r ∈ t.responses ∨ (i = txn ∧ ServedBy env A vs ws r) := by
  intro vs
  induction vs with
  | nil =>
    intro c c' ws h hf
    simp only [KvCore.processTablets, Run.ok.injEq, Prod.mk.injEq] at h
    rw [← h.1]
    exact ⟨hf, fun i t' ht => ⟨t', ht, rfl, fun r hr => .inl hr⟩⟩
  | cons v rest ih =>
    obtain ⟨q, t, b⟩ := v
    intro c c' ws h hf
    have skip : ((c.processTablets env txn rest).bind fun z => Run.ok (z.1, none :: z.2)) = .ok (c', ws) →
        AllFrom A c' ∧ ∀ i t', c'.txns.get i = some t' → ∃ t0, c.txns.get i = some t0 ∧ t'.commit = t0.commit ∧
          ∀ r ∈ t'.responses, r ∈ t0.responses ∨ (i = txn ∧ ServedBy env A ((q, t, b) :: rest) ws r) := by
      intro h
      obtain ⟨⟨c1, ws1⟩, h1, h2⟩ := Run.bind_eq_ok.mp h
      simp only [Run.ok.injEq, Prod.mk.injEq] at h2
      rw [← h2.1, ← h2.2]
      obtain ⟨g1, g2⟩ := ih h1 hf
      refine ⟨g1, fun i t' ht => ?_⟩
      obtain ⟨t0, g3, g4, g5⟩ := g2 i t' ht
      exact ⟨t0, g3, g4, fun r hr => (g5 r hr).imp id fun x => ⟨x.1, x.2.cons _ _⟩⟩
    cases hx : c.txns.get txn with
    | none => simp only [KvCore.processTablets, hx] at h; exact skip h
    | some x =>
      cases ht : c.tablets.get t with
      | none => simp only [KvCore.processTablets, hx, ht] at h; exact skip h
      | some tr =>
        simp only [KvCore.processTablets, hx, ht] at h
        obtain ⟨y, h1, h2⟩ := Run.bind_eq_ok.mp h
        obtain ⟨⟨c1, ws1⟩, h3, h4⟩ := Run.bind_eq_ok.mp h2
        simp only [Run.ok.injEq, Prod.mk.injEq] at h4
        rw [← h4.1, ← h4.2]
        obtain ⟨k1, b', d, batch, rfl, k2, k3, k4, k5, -⟩ := processQuery_served h1 (hf.tablets _ (AMap.mem_of_get ht))
        obtain ⟨g1, g2⟩ := ih h3 ⟨hf.pending, hf.resolving, fun e he => by
          rcases mem_set he with rfl | he
          · exact k1
          · exact hf.tablets e he⟩
        refine ⟨g1, fun i t' ht' => ?_⟩
        obtain ⟨t0, g3, g4, g5⟩ := g2 i t' ht'
        dsimp only at g3
        rw [AMap.get_set] at g3
        split at g3
        · rename_i hi
          subst hi
          simp only [Option.some.injEq] at g3
          subst g3
          refine ⟨x, hx, g4, fun r hr => ?_⟩
          rcases g5 r hr with g | g
          · rcases List.mem_append.mp g with g | g
            · exact .inl g
            · exact .inr ⟨rfl, 0, q, t, b', d, batch, y.2.2, by simp, k2, by simp, k3, k4, by rw [← k5]; exact g⟩
          · exact .inr ⟨g.1, g.2.cons _ _⟩
        · exact ⟨t0, g3, g4, fun r hr => (g5 r hr).imp id fun x => ⟨x.1, x.2.cons _ _⟩⟩

/-! ## Transactions -/

section
variable (env : KvEnv) (data : DataEnv Bytes) (evict : AMap String (Entry Bytes) → List String) (good : MetaCache → Prop) (A : KvRequest → Prop)

/-- A handler of transaction `i` computed the response. -/
def Served (mevs : List (MEvent Unit)) (cl : Client Bytes Unit KvCore) (i : Nat) (r : KvResponse) : Prop :=
  ∃ w vs w' sets, CalledIn (txnEnv env data evict) mevs cl () w i vs ∧ (txnEnv env data evict).handle () w i vs = .ok (w', sets) ∧ ServedBy env A vs sets r

/-- The request was accepted. -/
abbrev AcceptedIn (evs : List KEvent) (r : KvRequest) : Prop := .accept r ∈ evs

/-- Then the transaction was committed, when what had happened to the store was `ka`, and since then `b` has happened. -/
def Decided (evs : List KEvent) (mevs : List (MEvent Unit)) (cl : Client Bytes Unit KvCore) (i : Nat) (r : KvResponse) (b : List (MEvent Unit)) : Prop :=
  ∃ ka kb a c1 sent, evs = ka ++ kb ∧ a.filterMap wireM = ka.filterMap wireK ∧ mevs = a ++ .commit i sent :: b ∧ MHistory (txnEnv env data evict) a c1 ∧ MSteps (txnEnv env data evict) c1 (.commit i sent :: b) cl ∧
    good c1.m.world.md ∧ Served env data evict (AcceptedIn ka) a c1 i r

/-- The store a handler works on holds requests of `B`, and by it the transaction carries out no more than `R` says. -/
def Fits (B : KvRequest → Prop) (R : Nat → KvRequest → Nat) : Guard Bytes Unit KvCore := fun _ w i vs => AllFrom B w ∧
  ∀ w' ws, w.processTablets env i vs = .ok (w', ws) → ∀ x', w'.txns.get i = some x' → ∀ q, x'.requests.count q ≤ R i q

/-- A history of the store goes with a history of its manager. -/
structure KMan (R : Nat → KvRequest → Nat) (cfg : List (String × UInt32)) (evs : List KEvent) (s : Sys) (mevs : List (MEvent Unit)) (cl : Client Bytes Unit KvCore) : Prop where
  hist : MHistory (txnEnv env data evict) mevs cl
  link : KLink s cl
  wire : mevs.filterMap wireM = evs.filterMap wireK
  conf : evs = [] ∧ mevs = [] ∨ evs ≠ [] ∧ Configured cfg mevs
  allFrom : AllFrom (AcceptedIn evs) s.world.shared
  track : ∀ i t, s.world.shared.txns.get i = some t → ∀ r ∈ t.responses,
    (t.commit = none → Served env data evict (AcceptedIn evs) mevs cl i r) ∧ (t.commit.isSome → ∃ b, Decided env data evict good evs mevs cl i r b)
  asked : ∀ i qs x, .process i qs x ∈ mevs → ∀ q ∈ qs, QueryOk q ∧ q.table = s.world.shared.table
  named : evs = [] ∨ ∃ a b cs, .init s.world.shared.table a b cs ∈ evs
  guard : ∀ B : KvRequest → Prop, (∀ r, AcceptedIn evs r → B r) → MHistory (guarded (Fits env B R) (txnEnv env data evict)) mevs cl
  commits : ∀ a i sent b, mevs = a ++ .commit i sent :: b → ∃ ka kb c1, evs = ka ++ kb ∧ a.filterMap wireM = ka.filterMap wireK ∧
    MHistory (guarded (Fits env (AcceptedIn ka) R) (txnEnv env data evict)) a c1 ∧ MSteps (txnEnv env data evict) c1 (.commit i sent :: b) cl
  done : ∀ r ∈ s.world.shared.responses, ∃ i b, Decided env data evict good evs mevs cl i r b ∧ .check i (some .succeeded) ∈ b
  emit : ∀ k1 rs k2, evs = k1 ++ .responses rs :: k2 → ∀ r ∈ rs, ∃ m1 m2 cl1 i b, mevs = m1 ++ m2 ∧ MSteps (txnEnv env data evict) cl1 m2 cl ∧
    m1.filterMap wireM = k1.filterMap wireK ∧ Decided env data evict good k1 m1 cl1 i r b ∧ .check i (some .succeeded) ∈ b
end

section
variable {env : KvEnv} {data : DataEnv Bytes} {evict : AMap String (Entry Bytes) → List String} {good : MetaCache → Prop}

theorem Served.more {mevs more : List (MEvent Unit)} {cl cl' : Client Bytes Unit KvCore} {i : Nat} {r : KvResponse} (h : Served env data evict A mevs cl i r)
    (hm : MSteps (txnEnv env data evict) cl more cl') : Served env data evict A (mevs ++ more) cl' i r := by
  obtain ⟨w, vs, w', sets, ⟨a, b, c1, m, rfl, h1, h2, h3⟩, h4⟩ := h
  exact ⟨w, vs, w', sets, ⟨a, b ++ more, c1, m, by simp, h1, h2, h3.append hm⟩, h4⟩

theorem Served.mono {B : KvRequest → Prop} (hs : ∀ r, A r → B r) {mevs : List (MEvent Unit)} {cl : Client Bytes Unit KvCore} {i : Nat} {r : KvResponse}
    (h : Served env data evict A mevs cl i r) : Served env data evict B mevs cl i r := by
  obtain ⟨w, vs, w', sets, h1, h2, h3⟩ := h
  exact ⟨w, vs, w', sets, h1, h2, h3.mono hs⟩

theorem Served.later {evs : List KEvent} {ev : KEvent} {mevs : List (MEvent Unit)} {cl : Client Bytes Unit KvCore} {i : Nat} {r : KvResponse}
    (h : Served env data evict (AcceptedIn evs) mevs cl i r) : Served env data evict (AcceptedIn (evs ++ [ev])) mevs cl i r :=
  h.mono fun _ hr => List.mem_append_left _ hr

theorem Decided.more {evs : List KEvent} {mevs more b : List (MEvent Unit)} {cl cl' : Client Bytes Unit KvCore} {i : Nat} {r : KvResponse} (h : Decided env data evict good evs mevs cl i r b)
    (hm : MSteps (txnEnv env data evict) cl more cl') : Decided env data evict good evs (mevs ++ more) cl' i r (b ++ more) := by
  obtain ⟨ka, kb, a, c1, sent, h0, hw, rfl, h1, h2, h3⟩ := h
  exact ⟨ka, kb, a, c1, sent, h0, hw, by simp, h1, by simpa using h2.append hm, h3⟩

theorem Decided.later {evs : List KEvent} {ev : KEvent} {mevs b : List (MEvent Unit)} {cl : Client Bytes Unit KvCore} {i : Nat} {r : KvResponse} (h : Decided env data evict good evs mevs cl i r b) :
    Decided env data evict good (evs ++ [ev]) mevs cl i r b := by
  obtain ⟨ka, kb, a, c1, sent, rfl, h⟩ := h
  exact ⟨ka, kb ++ [ev], a, c1, sent, by simp, h⟩

theorem AllFrom.later {evs : List KEvent} {ev : KEvent} {c : KvCore} (h : AllFrom (AcceptedIn evs) c) : AllFrom (AcceptedIn (evs ++ [ev])) c :=
  h.mono fun _ hr => List.mem_append_left _ hr

/-- The commits stay what they were, also if new ones are made before anything is received or sent. -/
theorem fits_more {B : KvRequest → Prop} {R R' : Nat → KvRequest → Nat} (h : ∀ i q, R i q ≤ R' i q) : ∀ x w i vs, Fits env B R x w i vs → Fits env B R' x w i vs :=
  fun _ _ i _ hf => ⟨hf.1, fun w' ws hw x' hx q => Nat.le_trans (hf.2 w' ws hw x' hx q) (h i q)⟩

theorem commits_keep {R R' : Nat → KvRequest → Nat} (hR : ∀ i q, R i q ≤ R' i q) {evs : List KEvent} {ev : KEvent} {mevs m : List (MEvent Unit)} {cl cl' : Client Bytes Unit KvCore} (hw : mevs.filterMap wireM = evs.filterMap wireK)
    (hg : ∀ B : KvRequest → Prop, (∀ r, AcceptedIn evs r → B r) → MHistory (guarded (Fits env B R) (txnEnv env data evict)) mevs cl)
    (h : ∀ a i sent b, mevs = a ++ .commit i sent :: b → ∃ ka kb c1, evs = ka ++ kb ∧ a.filterMap wireM = ka.filterMap wireK ∧
    MHistory (guarded (Fits env (AcceptedIn ka) R) (txnEnv env data evict)) a c1 ∧ MSteps (txnEnv env data evict) c1 (.commit i sent :: b) cl)
    (hm : MSteps (txnEnv env data evict) cl m cl') (hc : (∀ i s, .commit i s ∉ m) ∨ m.filterMap wireM = [] ∧ .progress ∉ m) :
    ∀ a i sent b, mevs ++ m = a ++ .commit i sent :: b → ∃ ka kb c1, evs ++ [ev] = ka ++ kb ∧ a.filterMap wireM = ka.filterMap wireK ∧
    MHistory (guarded (Fits env (AcceptedIn ka) R') (txnEnv env data evict)) a c1 ∧ MSteps (txnEnv env data evict) c1 (.commit i sent :: b) cl' := by
  intro a i sent b he
  have new : ∀ u, a = mevs ++ u → m = u ++ .commit i sent :: b → ∃ ka kb c1, evs ++ [ev] = ka ++ kb ∧ a.filterMap wireM = ka.filterMap wireK ∧
      MHistory (guarded (Fits env (AcceptedIn ka) R') (txnEnv env data evict)) a c1 ∧ MSteps (txnEnv env data evict) c1 (.commit i sent :: b) cl' := by
    rintro u rfl rfl
    rcases hc with hc | ⟨hc, hp⟩
    · exact absurd (by simp) (hc i sent)
    · obtain ⟨k1, k2, k3, k4, k5⟩ := hm.split rfl
      have hu : u.filterMap wireM = [] := by
        rw [List.filterMap_eq_nil_iff] at hc ⊢
        exact fun e he => hc e (by simp [he])
      exact ⟨evs, [ev], k1, rfl, by simp [hw, hu], (mhistory_guard_mono (fits_more hR) (hg _ fun _ hr => hr)).extend (msteps_guard k3 fun hx => hp (by simp [hx])), (MSteps.single k4).append k5⟩
  rcases List.append_eq_append_iff.mp he with ⟨u, rfl, h2⟩ | ⟨u, h1, h2⟩
  · exact new u rfl h2
  · cases u with
    | nil => exact new [] (by simpa using h1.symm) (by simpa using h2.symm)
    | cons e u =>
      simp only [List.cons_append, List.cons.injEq] at h2
      obtain ⟨rfl, rfl⟩ := h2
      obtain ⟨ka, kb, c1, g1, g2, g3, g4⟩ := h a i sent u h1
      exact ⟨ka, kb ++ [ev], c1, by rw [g1]; simp, g2, mhistory_guard_mono (fits_more hR) g3, by simpa using g4.append hm⟩

/-- What was given out before is still known after a step that gives nothing out. -/
theorem emit_keep {evs : List KEvent} {ev : KEvent} {mevs m : List (MEvent Unit)} {cl cl' : Client Bytes Unit KvCore} (he : emitted [ev] = [])
    (h : ∀ k1 rs k2, evs = k1 ++ .responses rs :: k2 → ∀ r ∈ rs, ∃ m1 m2 cl1 i b, mevs = m1 ++ m2 ∧ MSteps (txnEnv env data evict) cl1 m2 cl ∧
      m1.filterMap wireM = k1.filterMap wireK ∧ Decided env data evict good k1 m1 cl1 i r b ∧ .check i (some .succeeded) ∈ b)
    (hm : MSteps (txnEnv env data evict) cl m cl') :
    ∀ k1 rs k2, evs ++ [ev] = k1 ++ .responses rs :: k2 → ∀ r ∈ rs, ∃ m1 m2 cl1 i b, mevs ++ m = m1 ++ m2 ∧ MSteps (txnEnv env data evict) cl1 m2 cl' ∧
      m1.filterMap wireM = k1.filterMap wireK ∧ Decided env data evict good k1 m1 cl1 i r b ∧ .check i (some .succeeded) ∈ b := by
  intro k1 rs k2 hk r hr
  rcases List.eq_nil_or_concat k2 with rfl | ⟨k2', e, rfl⟩
  · obtain ⟨_, h2⟩ := List.append_inj' hk rfl
    simp only [List.cons.injEq, and_true] at h2
    rw [h2] at he
    have : rs = [] := by simpa [emitted] using he
    rw [this] at hr; cases hr
  · have h2 : evs = k1 ++ .responses rs :: k2' := by
      have : evs ++ [ev] = (k1 ++ .responses rs :: k2') ++ [e] := by simpa using hk
      exact (List.append_inj' this rfl).1
    obtain ⟨m1, m2, cl1, i, b, g1, g2, g3⟩ := h k1 rs k2' h2 r hr
    exact ⟨m1, m2 ++ m, cl1, i, b, by rw [g1]; simp, g2.append hm, g3⟩

theorem Configured.more {cfg : List (String × UInt32)} {mevs more : List (MEvent Unit)} (h : Configured cfg mevs) (hn : ∀ t, .init t ∉ more) : Configured cfg (mevs ++ more) := by
  obtain ⟨rest, rfl, h1⟩ := h
  exact ⟨rest ++ more, by simp, fun t ht => by
    rcases List.mem_append.mp ht with ht | ht
    · exact h1 t ht
    · exact hn t ht⟩

theorem commits_world {tenv : TxnEnv Bytes Unit KvCore} {mevs : List (MEvent Unit)} {cl cl' : Client Bytes Unit KvCore} (h : MSteps tenv cl mevs cl') :
    (∀ e ∈ mevs, ∃ i s, e = MEvent.commit i s) → cl'.m.world = cl.m.world := by
  induction h with
  | refl => intro _; rfl
  | @step evs c' ev c'' _ hs ih =>
    intro hc
    have h1 := ih fun e he => hc e (by simp [he])
    obtain ⟨i, s, rfl⟩ := hc ev (by simp)
    rw [← h1]
    generalize he : (MEvent.commit i s : MEvent Unit) = e at hs
    cases hs <;> first | rfl | cases he

/-- The store makes progress. -/
theorem storeProgress_man {R R' : Nat → KvRequest → Nat} (hR : ∀ i q, R i q ≤ R' i q) {s s' : Sys} {evs : List KEvent} {cfg : List (String × UInt32)} {mevs : List (MEvent Unit)} {cl : Client Bytes Unit KvCore}
    (h : s.storeProgress env = .ok s') (hk : KMan env data evict good R cfg evs s mevs cl) (hne : evs ≠ []) (hg : good s'.world.md) :
    ∃ m cl', KMan env data evict good R' cfg (evs ++ [.store]) s' (mevs ++ m) cl' := by
  have hcfg := (hk.conf.resolve_left fun h => hne h.1).2
  have hl := hk.link
  unfold Manager.storeProgress at h
  obtain ⟨s1, h1, h⟩ := Run.bind_eq_ok.mp h
  obtain ⟨s2, h2, h⟩ := Run.bind_eq_ok.mp h
  obtain ⟨x, h3, h⟩ := Run.bind_eq_ok.mp h
  obtain ⟨y, h4, h⟩ := Run.bind_eq_ok.mp h
  simp only [Run.ok.injEq] at h
  subst h
  let tenv := txnEnv env data evict
  have w1 : ∃ mevs cl', MSteps tenv cl mevs cl' ∧ mevs.filterMap wireM = [] ∧ (∀ t, .init t ∉ mevs) ∧ KLink s1 cl' ∧
      s1.world.shared.txns = s.world.shared.txns ∧ s1.world.shared.responses = s.world.shared.responses ∧ AllFrom (AcceptedIn evs) s1.world.shared ∧
      (∀ i qs x, .process i qs x ∉ mevs) ∧ s1.world.shared.table = s.world.shared.table ∧ .progress ∉ mevs := by
    unfold Manager.maybeResolve at h1
    dsimp only at h1
    split at h1
    · obtain ⟨s', k1, k2⟩ := Run.bind_eq_ok.mp h1
      split at k2
      · simp only [Run.ok.injEq] at k2
        subst k2
        obtain ⟨cl1, g1, g2⟩ := hl.app (tenv := tenv) (c := { (createQuery env s.world.shared s.world.shared.pending).1 with
          resolving := s.world.shared.resolving.set (createQuery env s.world.shared s.world.shared.pending).2.id s.world.shared.pending, pending := [] }) rfl
        have hsh := resolve_shared k1
        have g3 : MStep tenv cl1 (.resolve [(createQuery env s.world.shared s.world.shared.pending).2]) { cl1 with m := s' } := .resolve (by rw [g2.same]; exact k1)
        refine ⟨_, _, g1.append (.single g3), by simp [List.filterMap_cons, wireM], by simp, ⟨rfl, ?_, ?_⟩, ?_, ?_, ?_, by simp, by rw [hsh]; rfl, by simp⟩
        · rw [hsh]; exact g2.wf
        · rw [hsh]; exact fun e he => ⟨(g2.txns e he).opened, (g2.txns e he).commit⟩
        · rw [hsh]; rfl
        · rw [hsh]; rfl
        · rw [hsh]
          refine ⟨by simp [Manager.withCore], fun e he => ?_, hk.allFrom.tablets⟩
          rcases mem_set he with rfl | he
          · exact hk.allFrom.pending
          · exact hk.allFrom.resolving e he
      · cases k2
    · simp only [Run.ok.injEq] at h1
      subst h1
      exact ⟨[], cl, .refl, rfl, by simp, hl, rfl, rfl, hk.allFrom, by simp, rfl, by simp⟩
  obtain ⟨mevs1, cl1, w1a, w1b, w1i, w1c, w1d, w1e, w1f, w1g, w1h, w1p⟩ := w1
  have w2 : ∃ mevs cl', MSteps tenv cl1 mevs cl' ∧ mevs.filterMap wireM = [] ∧ (∀ t, .init t ∉ mevs) ∧ KLink s2 cl' ∧
      (∀ e ∈ s2.world.shared.txns, e ∈ s1.world.shared.txns ∨ e.2.responses = []) ∧ s2.world.shared.responses = s1.world.shared.responses ∧ AllFrom (AcceptedIn evs) s2.world.shared ∧
      (∀ i qs x, .process i qs x ∈ mevs → ∀ q ∈ qs, QueryOk q ∧ q.table = s1.world.shared.table) ∧ s2.world.shared.table = s1.world.shared.table ∧ .progress ∉ mevs := by
    obtain ⟨_, n, k2⟩ := collectProcess_weight env (true, 0) s1.world.shared.tablets s1.world.shared
    have hcol := collectProcess_from (A := AcceptedIn evs) env s1.world.shared.tablets s1.world.shared w1f.tablets
    unfold Manager.maybeStart at h2
    dsimp only at h2
    split at h2
    · simp only [Run.ok.injEq] at h2
      subst h2
      obtain ⟨cl2, g1, g2⟩ := w1c.app (tenv := tenv) (c := { (collectProcess env s1.world.shared s1.world.shared.tablets).1 with
        tablets := (collectProcess env s1.world.shared s1.world.shared.tablets).2.1 }) (by rw [k2])
      refine ⟨_, cl2, g1, by simp [List.filterMap_cons, wireM], by simp, g2, ?_, ?_, ?_, by simp, by simp only [Manager.withCore, k2], by simp⟩
      · simp only [Manager.withCore, k2]; exact fun e he => .inl he
      · simp only [Manager.withCore, k2]
      · simp only [Manager.withCore, k2]; exact ⟨w1f.pending, w1f.resolving, hcol⟩
    · obtain ⟨co, h5, h6⟩ := Run.bind_eq_ok.mp h2
      simp only [Run.ok.injEq] at h6
      subst h6
      have hm := w1c.same
      have e1 : MStep tenv cl1 _ _ := .start
      rw [hm] at e1
      have e2 : MStep tenv { cl1 with m := { s1 with coord := s1.coord.createTxn.1 }, opened := s1.coord.createTxn.2 :: cl1.opened }
          (.process s1.coord.createTxn.2 (collectProcess env s1.world.shared s1.world.shared.tablets).2.2.1 ()) _ := .process (List.mem_cons_self) h5
      have e3 := MSteps.step (MSteps.step (MSteps.single e1) e2) (.app (w := { (collectProcess env s1.world.shared s1.world.shared.tablets).1 with
        tablets := (collectProcess env s1.world.shared s1.world.shared.tablets).2.1,
        txns := (collectProcess env s1.world.shared s1.world.shared.tablets).1.txns.set s1.coord.createTxn.2
          ⟨(collectProcess env s1.world.shared s1.world.shared.tablets).2.2.2, [], [], some s1.coord.createTxn.2, none⟩ }))
      refine ⟨_, _, e3, by simp [List.filterMap_cons, wireM], by simp, ⟨rfl, ?_, ?_⟩, ?_, ?_, ?_, ?_, by simp only [Manager.withCore, k2], by simp⟩
      · simp only [Manager.withCore, k2]; exact w1c.wf.set _ _
      · intro e he
        simp only [Manager.withCore, k2] at he
        rcases mem_set he with he | he
        · rw [he]
          refine ⟨?_, by simp⟩
          intro j hj
          simp only [Option.some.injEq] at hj
          exact ⟨hj.symm, by simp⟩
        · have := w1c.txns e he
          exact ⟨fun j hj => ⟨(this.opened j hj).1, List.mem_cons_of_mem _ (this.opened j hj).2⟩, this.commit⟩
      · intro e he
        simp only [Manager.withCore, k2] at he
        rcases mem_set he with he | he
        · exact .inr (by rw [he])
        · exact .inl he
      · simp only [Manager.withCore, k2]
      · simp only [Manager.withCore, k2]; exact ⟨w1f.pending, w1f.resolving, hcol⟩
      · intro i qs x hm
        simp only [List.mem_append, List.mem_cons, List.not_mem_nil, or_false, reduceCtorEq, false_or, MEvent.process.injEq] at hm
        rw [hm.2.1]
        exact collectProcess_queries env _ _
  obtain ⟨mevs2, cl2, w2a, w2b, w2i, w2c, w2d, w2e, w2f, w2g, w2h, w2p⟩ := w2
  have hm2 := w2c.same
  obtain ⟨mevs3, cl3, c1, c2, c3, c4, c5, _, c7⟩ := commitTxns_sim (tenv := tenv) (cl := cl2) (by rw [hm2]; exact h3) w2c.wf w2c.txns
  have a1 : MStep tenv cl3 .app _ := .app (w := { s2.world.shared with txns := x.2 })
  have hm3 : ({ cl3.m with world := { cl3.m.world with shared := { s2.world.shared with txns := x.2 } } } : Sys) =
      Manager.withCore { s2 with coord := x.1 } { s2.world.shared with txns := x.2 } := by
    rw [c3, hm2]; rfl
  have hwf3 : AMap.WF x.2 := by unfold AMap.WF; rw [c5]; exact w2c.wf
  obtain ⟨mevs4, cl4, f1, f2, f3, f4, f5, f6, _, f8⟩ := finalizeTxns_sim (tenv := tenv)
    (cl := { cl3 with m := { cl3.m with world := { cl3.m.world with shared := { s2.world.shared with txns := x.2 } } } }) (ts := x.2) (y := y)
    (by rw [hm3]; exact h4) hwf3 (fun e he => ⟨(c4 e he).opened, (c4 e he).commit⟩)
  have hw4 := (finalizeTxns_weight (true, 0) _ _ _ h4).1
  have a2 : MStep tenv cl4 .app _ := .app (w := { y.1.world.shared with txns := y.2.1, tablets := completeTablets y.1.world.shared.tablets y.2.2.1, responses := y.1.world.shared.responses ++ y.2.2.2 })
  have c2' : mevs3.filterMap wireM = [] := by
    rw [List.filterMap_eq_nil_iff]
    intro e he
    obtain ⟨i, s, rfl⟩ := c2 e he
    rfl
  have c2i : ∀ t, .init t ∉ mevs3 := by
    intro t ht
    obtain ⟨i, s, he⟩ := c2 _ ht
    cases he
  have hmd : s2.world.md = y.1.world.md := by rw [hw4]; rfl
  -- the steps up to the commits, and after them
  have p12 := w1a.append w2a
  have hist2 := hk.hist.extend p12
  have p4 := (MSteps.single a1).append (f1.append (.single a2))
  -- the trackers before the commits
  have t2 : ∀ i t, (i, t) ∈ s2.world.shared.txns → ∀ r ∈ t.responses, (t.commit = none → Served env data evict (AcceptedIn evs) (mevs ++ (mevs1 ++ mevs2)) cl2 i r) ∧
      (t.commit.isSome → ∃ b, Decided env data evict good evs (mevs ++ (mevs1 ++ mevs2)) cl2 i r b) := by
    intro i t ht r hr
    rcases w2d _ ht with h | h
    · rw [w1d] at h
      obtain ⟨g1, g2⟩ := hk.track i t (AMap.get_of_mem hl.wf h) r hr
      refine ⟨fun hc => (g1 hc).more p12, fun hc => ?_⟩
      obtain ⟨b, g3⟩ := g2 hc
      exact ⟨_, g3.more p12⟩
    · dsimp only at h
      rw [h] at hr; simp at hr
  -- and after them
  have t3 : ∀ i t, (i, t) ∈ x.2 → ∀ r ∈ t.responses, (t.commit = none → Served env data evict (AcceptedIn evs) (mevs ++ (mevs1 ++ mevs2) ++ mevs3) cl3 i r) ∧
      (t.commit.isSome → ∃ b, Decided env data evict good evs (mevs ++ (mevs1 ++ mevs2) ++ mevs3) cl3 i r b) := by
    intro i t ht r hr
    obtain ⟨t0, q1, q2, q3⟩ := c7 (i, t) ht
    dsimp only at q1 q2 q3
    rw [← q2] at hr
    obtain ⟨g1, g2⟩ := t2 i t0 q1 r hr
    by_cases hn : t0.commit = none
    · rcases q3 with q3 | ⟨sent, q3⟩
      · rw [q3]
        exact ⟨fun hc => (g1 hc).more c1, fun hc => by rw [hn] at hc; simp at hc⟩
      · refine ⟨fun hc => (g1 hn).more c1, fun _ => ?_⟩
        obtain ⟨u, v, rfl⟩ := List.append_of_mem q3
        obtain ⟨k1, k2, k3, k4, k5⟩ := c1.split rfl
        have hu : u.filterMap wireM = [] := by
          rw [List.filterMap_eq_nil_iff] at c2' ⊢
          exact fun e he => c2' e (by simp [he])
        refine ⟨v, evs, [], mevs ++ (mevs1 ++ mevs2) ++ u, k1, sent, by simp, by simp [hk.wire, w1b, w2b, hu], by simp, hist2.extend k3, by simpa using (MSteps.single k4).append k5, ?_, (g1 hn).more k3⟩
        have : k1.m.world = cl2.m.world := commits_world k3 fun e he => c2 e (by simp [he])
        rw [this, hm2, hmd]
        exact hg
    · obtain ⟨b, g3⟩ := g2 (by cases hc : t0.commit with | none => exact absurd hc hn | some _ => rfl)
      refine ⟨fun hc => ?_, fun _ => ⟨_, g3.more c1⟩⟩
      exact absurd hc (by
        intro hc
        rcases q3 with q3 | ⟨sent', q3⟩
        · exact hn (by rw [← q3, hc])
        · obtain ⟨k, hk'⟩ : ∃ k, t0.commit = some k := by cases hc' : t0.commit with | none => exact absurd hc' hn | some k => exact ⟨k, rfl⟩
          have l1 := (w2c.txns _ q1).commit k hk'
          obtain ⟨u, v, rfl⟩ := List.append_of_mem q3
          obtain ⟨k1, k2, k3, k4, k5⟩ := c1.split rfl
          obtain ⟨_, _, ⟨sent2, l3⟩, _⟩ := (history_cinv hist2).commits i k l1.2
          have l4 := (history_cinv (hist2.extend k3)).sent i sent2 (List.mem_append_left _ l3)
          have l5 := commit_step k4
          exact l4.2.1 l5.1)
  have hall := (p12.append c1).append p4
  have hre : mevs ++ (mevs1 ++ mevs2 ++ mevs3 ++ ([.app] ++ (mevs4 ++ [.app]))) = mevs ++ (mevs1 ++ mevs2) ++ mevs3 ++ ([.app] ++ (mevs4 ++ [.app])) := by simp
  have hcheck : ∀ t, .init t ∉ mevs4 := by
    intro t ht
    obtain ⟨i, o, he⟩ := f2 _ ht
    cases he
  have f2' : mevs4.filterMap wireM = [] := by
    rw [List.filterMap_eq_nil_iff]
    intro e he
    obtain ⟨i, s, rfl⟩ := f2 e he
    rfl
  have hprog : .progress ∉ mevs1 ++ mevs2 ++ mevs3 ++ ([.app] ++ (mevs4 ++ [.app])) := by
    simp only [List.mem_append, List.mem_singleton, not_or, reduceCtorEq, not_false_eq_true, and_true, true_and]
    refine ⟨⟨⟨w1p, w2p⟩, fun h => ?_⟩, fun h => ?_⟩
    · obtain ⟨_, _, he⟩ := c2 _ h; cases he
    · obtain ⟨_, _, he⟩ := f2 _ h; cases he
  have htab : y.1.world.shared.table = s.world.shared.table := by rw [hw4]; exact w2h.trans w1h
  refine ⟨_, _, hk.hist.extend hall, ⟨?_, f5, ?_⟩, ?_, .inr ⟨by simp, Configured.more hcfg ?_⟩, AllFrom.later ?_, ?_, ?_, ?_, fun B hB => (mhistory_guard_mono (fits_more hR) (hk.guard B fun r hr => hB r (by simp [hr]))).extend (msteps_guard hall hprog),
    commits_keep hR hk.wire hk.guard hk.commits hall (.inr ⟨by simp [List.filterMap_cons, wireM, w1b, w2b, c2', f2'], hprog⟩), ?_, emit_keep rfl hk.emit hall⟩
  · dsimp only; rw [f3]; rfl
  · exact fun e he => ⟨(f4 e he).opened, (f4 e he).commit⟩
  · simp [hk.wire, List.filterMap_cons, wireM, wireK, w1b, w2b, c2', f2']
  · simp only [List.mem_append, List.mem_singleton, not_or, reduceCtorEq, not_false_eq_true, and_true, true_and]
    exact fun t => ⟨⟨⟨w1i t, w2i t⟩, c2i t⟩, hcheck t⟩
  · have : AllFrom (AcceptedIn evs) y.1.world.shared := by rw [hw4]; exact ⟨w2f.pending, w2f.resolving, w2f.tablets⟩
    exact ⟨this.pending, this.resolving, completeTablets_from _ this.tablets⟩
  · intro i t ht r hr
    have ht' := AMap.mem_of_get ht
    obtain ⟨_, t0, q1, q2, q3⟩ := f6 _ ht'
    dsimp only at q1 q2 q3
    rw [← q2] at hr
    obtain ⟨g1, g2⟩ := t3 i t0 q1 r hr
    rw [hre]
    refine ⟨fun hc => ((g1 ?_).more p4).later, fun hc => ?_⟩
    · rw [hc] at q3; simpa using q3
    · obtain ⟨b, g3⟩ := g2 (by rw [q3]; exact hc)
      exact ⟨_, (g3.more p4).later⟩
  · intro i qs z hm
    simp only [List.mem_append, List.mem_singleton, reduceCtorEq, false_or, or_false] at hm
    show ∀ q ∈ qs, QueryOk q ∧ q.table = y.1.world.shared.table
    rw [htab]
    rcases hm with hm | ((hm | hm) | hm) | hm
    · exact hk.asked i qs z hm
    · exact absurd hm (w1g i qs z)
    · rw [← w1h]; exact w2g i qs z hm
    · obtain ⟨_, _, he⟩ := c2 _ hm; cases he
    · obtain ⟨_, _, he⟩ := f2 _ hm; cases he
  · right
    show ∃ a b cs, KEvent.init y.1.world.shared.table a b cs ∈ evs ++ [.store]
    rw [htab]
    obtain ⟨a, b, cs, hi⟩ := hk.named.resolve_left hne
    exact ⟨a, b, cs, by simp [hi]⟩
  · intro r hr
    rw [hre]
    simp only [Manager.withCore, hw4] at hr
    rcases List.mem_append.mp hr with hr | hr
    · obtain ⟨i, b, g1, g2⟩ := hk.done r (by rw [← w1e, ← w2e]; exact hr)
      exact ⟨i, _, (((g1.more p12).more c1).more p4).later, by simp [g2]⟩
    · obtain ⟨e, g1, g2, g4, g3⟩ := f8 r hr
      obtain ⟨b, g5⟩ := (t3 e.1 e.2 g1 r g2).2 g4
      exact ⟨e.1, _, (g5.more p4).later, by simp [g3]⟩
end

section
variable {env : KvEnv} {data : DataEnv Bytes} {evict : AMap String (Entry Bytes) → List String} {good : MetaCache → Prop}

theorem init_withCore {s s' : Sys} {c : KvCore} {tables : List (String × UInt32)} (h : (s.withCore c).init tables = .ok s') :
    ∃ s1, s.init tables = .ok s1 ∧ s' = s1.withCore c := by
  unfold Manager.init at h ⊢
  obtain ⟨md, h1, h2⟩ := Run.bind_eq_ok.mp h
  simp only [Run.ok.injEq] at h2
  exact ⟨_, by rw [show s.world.md.init tables = .ok md from h1]; rfl, h2.symm⟩

/-- One step of the store. -/
theorem kstep_man (hsane : Sane (txnEnv env data evict)) {R R' : Nat → KvRequest → Nat} (hR : ∀ i q, R i q ≤ R' i q) {s s' : Sys}
    (hR' : ∀ i t, s'.world.shared.txns.get i = some t → ∀ q, t.requests.count q ≤ R' i q) {evs : List KEvent} {ev : KEvent} {cfg : List (String × UInt32)} {mevs : List (MEvent Unit)} {cl : Client Bytes Unit KvCore}
    (hk : KMan env data evict good R cfg evs s mevs cl) (h : KStep env (txnEnv env data evict) s ev s')
    (hc : KConfigured cfg (evs ++ [ev])) (hg : good s'.world.md) :
    ∃ m cl', KMan env data evict good R' cfg (evs ++ [ev]) s' (mevs ++ m) cl' := by
  have hcase : (∀ t, (∃ tb a b, ev = .init tb a b t) → evs = [] ∧ t = cfg) ∧ ((∀ tb a b t, ev ≠ .init tb a b t) → evs ≠ []) := by
    obtain ⟨tb, a, b, rest, he, hno⟩ := hc
    cases evs with
    | nil =>
      simp only [List.nil_append, List.cons.injEq] at he
      refine ⟨?_, fun hn => absurd he.1 (hn _ _ _ _)⟩
      rintro t ⟨tb', a', b', rfl⟩
      simp only [KEvent.init.injEq] at he
      exact ⟨rfl, he.1.2.2.2⟩
    | cons e evs =>
      simp only [List.cons_append, List.cons.injEq] at he
      refine ⟨?_, by simp⟩
      rintro t ⟨tb', a', b', rfl⟩
      exact absurd (by rw [← he.2]; simp) (hno tb' a' b' t)
  -- a step that keeps the responses
  have keep : ∀ {m cl'}, MSteps (txnEnv env data evict) cl m cl' → KLink s' cl' → m.filterMap wireM = [ev].filterMap wireK → Configured cfg (mevs ++ m) →
      AllFrom (AcceptedIn (evs ++ [ev])) s'.world.shared → s'.world.shared.txns = s.world.shared.txns →
      s'.world.shared.responses = s.world.shared.responses → emitted [ev] = [] →
      (∀ i qs x, .process i qs x ∈ mevs ++ m → ∀ q ∈ qs, QueryOk q ∧ q.table = s'.world.shared.table) → (∃ a b cs, .init s'.world.shared.table a b cs ∈ evs ++ [ev]) → .progress ∉ m → (∀ i s, .commit i s ∉ m) →
      ∃ m cl', KMan env data evict good R' cfg (evs ++ [ev]) s' (mevs ++ m) cl' := by
    intro m cl' h1 h2 h3 h4 h5 h6 h7 h8 h9 h10 h11 h12
    refine ⟨m, cl', hk.hist.extend h1, h2, by rw [List.filterMap_append, List.filterMap_append, hk.wire, h3], .inr ⟨by simp, h4⟩, h5, ?_, h9, .inr h10,
      fun B hB => (mhistory_guard_mono (fits_more hR) (hk.guard B fun r hr => hB r (by simp [hr]))).extend (msteps_guard h1 h11), commits_keep hR hk.wire hk.guard hk.commits h1 (.inl h12), ?_, emit_keep h8 hk.emit h1⟩
    · intro i t ht r hr
      rw [h6] at ht
      obtain ⟨g1, g2⟩ := hk.track i t ht r hr
      refine ⟨fun hc => ((g1 hc).more h1).later, fun hc => ?_⟩
      obtain ⟨b, g3⟩ := g2 hc
      exact ⟨_, (g3.more h1).later⟩
    · intro r hr
      rw [h7] at hr
      obtain ⟨i, b, g1, g2⟩ := hk.done r hr
      exact ⟨i, _, (g1.more h1).later, by simp [g2]⟩
  have conf : (∀ tb a b t, ev ≠ .init tb a b t) → Configured cfg mevs := fun hn => (hk.conf.resolve_left fun h => hcase.2 hn h.1).2
  have ask : ∀ {m : List (MEvent Unit)}, (∀ i qs x, .process i qs x ∉ m) → s'.world.shared.table = s.world.shared.table →
      ∀ i qs x, .process i qs x ∈ mevs ++ m → ∀ q ∈ qs, QueryOk q ∧ q.table = s'.world.shared.table := by
    intro m hm ht i qs x hx
    rw [ht]
    exact hk.asked i qs x ((List.mem_append.mp hx).resolve_right (hm i qs x))
  have nam : (∀ tb a b t, ev ≠ .init tb a b t) → s'.world.shared.table = s.world.shared.table → ∃ a b cs, .init s'.world.shared.table a b cs ∈ evs ++ [ev] := by
    intro hn ht
    rw [ht]
    obtain ⟨a, b, cs, hi⟩ := hk.named.resolve_left (hcase.2 hn)
    exact ⟨a, b, cs, by simp [hi]⟩
  have hl := hk.link
  cases h with
  | @init _ table a b tables h =>
    obtain ⟨he, rfl⟩ := hcase.1 tables ⟨_, _, _, rfl⟩
    have hm : mevs = [] := by
      rcases hk.conf with h | h
      · exact h.2
      · exact absurd he h.1
    obtain ⟨s1, h1, rfl⟩ := init_withCore h
    have hsh := init_shared h1
    have g3 : MStep (txnEnv env data evict) cl (.init tables) { cl with m := s1 } := .init (by rw [hl.same]; exact h1)
    have hl1 : KLink s1 { cl with m := s1 } := ⟨rfl, by rw [hsh]; exact hl.wf, by rw [hsh]; exact fun e he => ⟨(hl.txns e he).opened, (hl.txns e he).commit⟩⟩
    obtain ⟨cl2, g4, g5⟩ := hl1.app (tenv := txnEnv env data evict) (c := s.world.shared.init table a b) (by rw [hsh]; rfl)
    refine keep ((MSteps.single g3).append g4) g5 (by simp [List.filterMap_cons, wireM, wireK]) ?_ ?_ rfl rfl (by simp [emitted]) (by rw [hm]; simp) ⟨a, b, tables, by simp [Manager.withCore, KvCore.init]⟩ (by simp) (by simp)
    · rw [hm]; exact ⟨[.app], rfl, by simp⟩
    · exact ⟨by simp [Manager.withCore, KvCore.init], by simp [Manager.withCore, KvCore.init], hk.allFrom.later.tablets⟩
  | @accept r =>
    obtain ⟨cl1, g1, g2⟩ := hl.app (tenv := txnEnv env data evict) (c := { s.world.shared with pending := s.world.shared.pending ++ [r] }) rfl
    refine keep g1 g2 (by simp [List.filterMap_cons, wireM, wireK]) (Configured.more (conf (by simp)) (by simp)) ⟨fun x hx => ?_, hk.allFrom.later.resolving, hk.allFrom.later.tablets⟩ rfl rfl (by simp [emitted])
      (ask (by simp) rfl) (nam (by simp) rfl) (by simp) (by simp)
    rcases List.mem_append.mp hx with hx | hx
    · exact hk.allFrom.later.pending x hx
    · rw [List.mem_singleton.mp hx]; simp
  | store h => exact storeProgress_man hR h hk (hcase.2 (by simp)) hg
  | progress h =>
    have hcf := conf (by simp)
    have g3 : MStep (txnEnv env data evict) cl .progress { cl with m := s' } := .progress (by rw [hl.same]; exact h)
    have hnew : ∀ {w i vs w' sets r}, Calls (txnEnv env data evict) s s' () w i vs → (txnEnv env data evict).handle () w i vs = .ok (w', sets) →
        ServedBy env (AcceptedIn evs) vs sets r → Served env data evict (AcceptedIn evs) (mevs ++ [.progress]) { cl with m := s' } i r :=
      fun h1 h2 h3 => ⟨_, _, _, _, ⟨mevs, [], cl, s', rfl, hk.hist, by rw [hl.same]; exact h1, .refl⟩, h2, h3⟩
    have hp := makeProgress_called (P := fun w => (TOk cl w ∧ w.table = s.world.shared.table) ∧ w.responses = s.world.shared.responses ∧ AllFrom (AcceptedIn evs) w ∧
        ∀ i t', w.txns.get i = some t' → ∃ t, s.world.shared.txns.get i = some t ∧ t'.commit = t.commit ∧
          ∀ r ∈ t'.responses, r ∈ t.responses ∨ (t.commit = none ∧ Served env data evict (AcceptedIn evs) (mevs ++ [.progress]) { cl with m := s' } i r)) h
      (fun _ w txn vs w' ws hcall hw hh => by
        obtain ⟨k1, k2⟩ := processTablets_tok vs w w' ws hh hw.1.1
        obtain ⟨k3, k4⟩ := processTablets_served hh hw.2.2.1
        refine ⟨⟨k1, (processTablets_table hh).trans hw.1.2⟩, k2.trans hw.2.1, k3, fun i t' ht' => ?_⟩
        obtain ⟨t1, k5, k6, k7⟩ := k4 i t' ht'
        obtain ⟨t, k8, k9, k10⟩ := hw.2.2.2 i t1 k5
        refine ⟨t, k8, k6.trans k9, fun r hr => ?_⟩
        rcases k7 r hr with g | ⟨rfl, g⟩
        · exact k10 r g
        · refine .inr ⟨?_, hnew hcall hh g⟩
          cases hcm : t.commit with
          | none => rfl
          | some k =>
            exfalso
            have l1 := ((hl.txns _ (AMap.mem_of_get k8)).commit k hcm).2
            obtain ⟨_, _, ⟨sent, l3⟩, _⟩ := (history_cinv hk.hist).commits i k l1
            exact (Props.C85_not_after hsane hk.hist hcf (by rw [hl.same]; exact hcall)).2 sent l3)
      ⟨⟨⟨hl.wf, hl.txns⟩, rfl⟩, rfl, hk.allFrom, fun i t' ht' => ⟨t', ht', rfl, fun r hr => .inl hr⟩⟩
    obtain ⟨⟨hp1, hp5⟩, hp2, hp3, hp4⟩ := hp
    have hs1 := MSteps.single g3
    have hfit : ∀ B : KvRequest → Prop, (∀ r, AcceptedIn (evs ++ [.progress]) r → B r) → ∀ x w i vs, Calls (txnEnv env data evict) s s' x w i vs → Fits env B R' x w i vs := by
      intro B hB x w i vs hcall
      obtain ⟨_, u1⟩ := makeProgress_upper (Le := fun w w' => KvLe w w' ∧ (AllFrom B w → AllFrom B w')) (fun w => ⟨.refl w, id⟩)
        (fun a b c h1 h2 => ⟨.trans a b c h1.1 h2.1, fun h => h2.2 (h1.2 h)⟩) (fun _ w i vs w' ws hh => ⟨(processTablets_load hh).1, fun hw => (processTablets_served hh hw).1⟩) h
      obtain ⟨u2, u3⟩ := u1 x w i vs hcall
      refine ⟨u2.2 (hk.allFrom.mono fun r hr => hB r (by simp [hr])), fun w' ws hw x' hx q => ?_⟩
      obtain ⟨⟨u4, u5⟩, _⟩ := u3 w' ws hw
      have u6 := u5 i q
      unfold KvCore.carried at u6
      cases hf : s'.world.shared.txns.get i with
      | none => rw [(u4 i).mpr hf] at hx; cases hx
      | some t =>
        rw [hx, hf] at u6
        simp only [Option.map_some, Option.getD_some] at u6
        exact Nat.le_trans u6 (hR' i t hf q)
    refine ⟨[.progress], _, hk.hist.extend hs1, ⟨rfl, hp1.1, fun e he => ⟨(hp1.2 e he).opened, (hp1.2 e he).commit⟩⟩,
      by simp [hk.wire, List.filterMap_cons, wireM, wireK], .inr ⟨by simp, Configured.more hcf (by simp)⟩, hp3.later, ?_, ask (by simp) hp5, .inr (nam (by simp) hp5), 
      fun B hB => (mhistory_guard_mono (fits_more hR) (hk.guard B fun r hr => hB r (by simp [hr]))).extend (.single (.progress (by rw [hl.same]; exact makeProgress_guard h (hfit B hB)))), commits_keep hR hk.wire hk.guard hk.commits hs1 (.inl (by simp)), ?_, emit_keep rfl hk.emit hs1⟩
    · intro i t' ht' r hr
      obtain ⟨t, q1, q2, q3⟩ := hp4 i t' ht'
      rw [q2]
      rcases q3 r hr with g | ⟨g, g'⟩
      · obtain ⟨g1, g2⟩ := hk.track i t q1 r g
        refine ⟨fun hc => ((g1 hc).more hs1).later, fun hc => ?_⟩
        obtain ⟨b, g3⟩ := g2 hc
        exact ⟨_, (g3.more hs1).later⟩
      · exact ⟨fun _ => g'.later, fun hc => by rw [g] at hc; simp at hc⟩
    · intro r hr
      rw [hp2] at hr
      obtain ⟨i, b, g1, g2⟩ := hk.done r hr
      exact ⟨i, _, (g1.more hs1).later, by simp [g2]⟩
  | @input _ i h =>
    unfold Manager.input at h
    obtain ⟨s1, h1, h2⟩ := Run.bind_eq_ok.mp h
    simp only [Run.ok.injEq] at h2
    subst h2
    have g3 : MStep (txnEnv env data evict) cl (.input i) { cl with m := s1 } := .input (by rw [hl.same]; exact h1)
    have hsh := processIn_shared h1
    have hl1 : KLink s1 { cl with m := s1 } := ⟨rfl, by rw [hsh]; exact hl.wf, by rw [hsh]; exact fun e he => ⟨(hl.txns e he).opened, (hl.txns e he).commit⟩⟩
    have hf : (handleCalls s1.world.shared (s1.world.md.calls.drop s.world.md.calls.length)).responses = s1.world.shared.responses ∧
        (handleCalls s1.world.shared (s1.world.md.calls.drop s.world.md.calls.length)).txns = s1.world.shared.txns := handleCalls_frame _ _
    have htb : (handleCalls s1.world.shared (s1.world.md.calls.drop s.world.md.calls.length)).table = s.world.shared.table := by rw [handleCalls_table, hsh]
    obtain ⟨cl2, g4, g5⟩ := hl1.app (tenv := txnEnv env data evict) hf.2
    exact keep ((MSteps.single g3).append g4) g5 (by simp [List.filterMap_cons, wireM, wireK]) (Configured.more (conf (by simp)) (by simp))
      (handleCalls_from _ (by rw [hsh]; exact hk.allFrom.later)) (by simp only [Manager.withCore]; rw [hf.2, hsh]) (by simp only [Manager.withCore]; rw [hf.1, hsh]) (by simp [emitted])
      (ask (by simp) htb) (nam (by simp) htb) (by simp) (by simp)
  | @take _ outs h =>
    have g3 : MStep (txnEnv env data evict) cl (.take outs) { cl with m := s' } := .take (by rw [hl.same]; exact h)
    have hsh := takeOut_shared h
    exact keep (.single g3) ⟨rfl, by rw [hsh]; exact hl.wf, by rw [hsh]; exact fun e he => ⟨(hl.txns e he).opened, (hl.txns e he).commit⟩⟩
      (by simp [List.filterMap_cons, wireM, wireK]) (Configured.more (conf (by simp)) (by simp)) (by rw [hsh]; exact hk.allFrom.later) (by rw [hsh]) (by rw [hsh]) (by simp [emitted]) (ask (by simp) (by rw [hsh])) (nam (by simp) (by rw [hsh])) (by simp) (by simp)
  | responses =>
    obtain ⟨cl1, g1, g2⟩ := hl.app (tenv := txnEnv env data evict) (c := { s.world.shared with responses := [] }) rfl
    refine ⟨[.app], cl1, hk.hist.extend g1, g2, by simp [hk.wire, List.filterMap_cons, wireM, wireK], .inr ⟨by simp, Configured.more (conf (by simp)) (by simp)⟩, ⟨hk.allFrom.later.pending, hk.allFrom.later.resolving, hk.allFrom.later.tablets⟩, ?_,
      ask (by simp) rfl, .inr (nam (by simp) rfl), fun B hB => (mhistory_guard_mono (fits_more hR) (hk.guard B fun r hr => hB r (by simp [hr]))).extend (msteps_guard g1 (by simp)),
      commits_keep hR hk.wire hk.guard hk.commits g1 (.inl (by simp)), by simp [Manager.takeResponses, Manager.withCore], ?_⟩
    · intro i t ht r hr
      obtain ⟨q1, q2⟩ := hk.track i t ht r hr
      refine ⟨fun hc => ((q1 hc).more g1).later, fun hc => ?_⟩
      obtain ⟨b, q3⟩ := q2 hc
      exact ⟨_, (q3.more g1).later⟩
    · intro k1 rs k2 he r hr
      rcases List.eq_nil_or_concat k2 with rfl | ⟨k2', e, rfl⟩
      · obtain ⟨rfl, h2⟩ := List.append_inj' he rfl
        simp only [List.cons.injEq, KEvent.responses.injEq, and_true] at h2
        rw [← h2] at hr
        obtain ⟨i, b, q1, q2⟩ := hk.done r hr
        exact ⟨mevs, [.app], cl, i, b, rfl, g1, hk.wire, q1, q2⟩
      · have h2 : evs = k1 ++ .responses rs :: k2' := by
          have : evs ++ [.responses (s.takeResponses).2] = (k1 ++ .responses rs :: k2') ++ [e] := by simpa using he
          exact (List.append_inj' this rfl).1
        obtain ⟨m1, m2, cl1', i, b, l1, l2, l3⟩ := hk.emit k1 rs k2' h2 r hr
        exact ⟨m1, m2 ++ [.app], cl1', i, b, by rw [l1]; simp, l2.append g1, l3⟩

/-- All steps. -/
theorem ksteps_man (hsane : Sane (txnEnv env data evict)) {co md d : Nat} {cfg : List (String × UInt32)} {evs : List KEvent} {s : Sys}
    (h : KSteps env (txnEnv env data evict) (.create co md d .new) evs s) :
    (evs = [] ∨ KConfigured cfg evs) →
    (∀ a b s', evs = a ++ b → KHistory env data evict a s' → KSteps env (txnEnv env data evict) s' b s → good s'.world.md) →
    ∃ R mevs cl, Counted R evs s ∧ KMan env data evict good R cfg evs s mevs cl := by
  induction h with
  | refl =>
    intro _ _
    exact ⟨fun _ _ => 0, [], ⟨_, [], []⟩, counted_new, ⟨co, md, d, _, .refl⟩, ⟨rfl, AMap.WF.nil, by simp [Manager.create, KvCore.new]⟩, rfl, .inl ⟨rfl, rfl⟩,
      ⟨by simp [Manager.create, KvCore.new], by simp [Manager.create, KvCore.new], by simp [Manager.create, KvCore.new]⟩,
      by simp [Manager.create, KvCore.new], by simp, .inl rfl, fun _ _ => ⟨co, md, d, _, .refl⟩, by simp, by simp [Manager.create, KvCore.new], by simp⟩
  | @step evs s1 ev s2 h hs ih =>
    intro hc hg
    have hc' : KConfigured cfg (evs ++ [ev]) := hc.resolve_left (by simp)
    have hc1 : evs = [] ∨ KConfigured cfg evs := by
      obtain ⟨tb, a, b, rest, he, hno⟩ := hc'
      cases evs with
      | nil => exact .inl rfl
      | cons e evs =>
        simp only [List.cons_append, List.cons.injEq] at he
        obtain ⟨rfl, rfl⟩ := he
        exact .inr ⟨tb, a, b, evs, rfl, fun tb' a' b' cs hm => hno tb' a' b' cs (by simp [hm])⟩
    obtain ⟨R, mevs, cl, hcn, hk⟩ := ih hc1 fun a b s' he h1 h2 => hg a (b ++ [ev]) s' (by simp [he]) h1 (.step h2 hs)
    obtain ⟨R', hR, hcn'⟩ := kstep_counted hcn hk.link.wf hs
    obtain ⟨m, cl', hk'⟩ := kstep_man hsane hR (fun i t ht q => by rw [hcn'.live i t ht q]; exact Nat.le_refl _) hk hs hc' (hg (evs ++ [ev]) [] s2 (by simp) ⟨co, md, d, .step h hs⟩ .refl)
    exact ⟨R', _, _, hcn', hk'⟩

end

end TCP.Cache
