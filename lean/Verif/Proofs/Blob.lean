import Verif.Spec.Blob
import Verif.Proofs.CacheTxn

/-!
# Proofs about blob uris and about writing tablets
-/

namespace TCP.Cache

open TCP TCP.TabletStore TCP.Cache.Spec

variable {α : Type}

/-! ## The uri format -/

theorem base64Char_inj {m n : Nat} (hm : m < 64) (hn : n < 64) (h : base64Char m = base64Char n) : m = n := by
  have key : ∀ i j : Fin 64, base64Char i.val = base64Char j.val → i = j := by decide +kernel
  have := key ⟨m, hm⟩ ⟨n, hn⟩ h
  simpa using this

theorem base64Url_inj : ∀ (x y : Bytes), base64Url x = base64Url y → x = y := by
  intro x
  induction x using base64Url.induct with
  | case1 =>
    intro y h
    match y with
    | [] => rfl
    | [_] => simp [base64Url] at h
    | [_, _] => simp [base64Url] at h
    | _ :: _ :: _ :: _ => simp [base64Url] at h
  | case2 a =>
    intro y h
    match y with
    | [] => simp [base64Url] at h
    | [a'] =>
      simp only [base64Url, List.cons.injEq, and_true] at h
      have l1 := a.toNat_lt; have l2 := a'.toNat_lt
      have h1 := base64Char_inj (by omega) (by omega) h.1
      have h2 := base64Char_inj (by omega) (by omega) h.2
      have : a = a' := UInt8.toNat_inj.mp (by omega)
      rw [this]
    | [_, _] => simp [base64Url] at h
    | _ :: _ :: _ :: _ => simp [base64Url] at h
  | case3 a b =>
    intro y h
    match y with
    | [] => simp [base64Url] at h
    | [_] => simp [base64Url] at h
    | [a', b'] =>
      simp only [base64Url, List.cons.injEq, and_true] at h
      have l1 := a.toNat_lt; have l2 := a'.toNat_lt; have l3 := b.toNat_lt; have l4 := b'.toNat_lt
      have h1 := base64Char_inj (by omega) (by omega) h.1
      have h2 := base64Char_inj (by omega) (by omega) h.2.1
      have h3 := base64Char_inj (by omega) (by omega) h.2.2
      have e1 : a = a' := UInt8.toNat_inj.mp (by omega)
      have e2 : b = b' := UInt8.toNat_inj.mp (by omega)
      rw [e1, e2]
    | _ :: _ :: _ :: _ => simp [base64Url] at h
  | case4 a b c rest ih =>
    intro y h
    match y with
    | [] => simp [base64Url] at h
    | [_] => simp [base64Url] at h
    | [_, _] => simp [base64Url] at h
    | a' :: b' :: c' :: rest' =>
      simp only [base64Url, List.cons.injEq] at h
      have l1 := a.toNat_lt; have l2 := a'.toNat_lt; have l3 := b.toNat_lt; have l4 := b'.toNat_lt
      have l5 := c.toNat_lt; have l6 := c'.toNat_lt
      have h1 := base64Char_inj (by omega) (by omega) h.1
      have h2 := base64Char_inj (by omega) (by omega) h.2.1
      have h3 := base64Char_inj (by omega) (by omega) h.2.2.1
      have h4 := base64Char_inj (by omega) (by omega) h.2.2.2.1
      have e1 : a = a' := UInt8.toNat_inj.mp (by omega)
      have e2 : b = b' := UInt8.toNat_inj.mp (by omega)
      have e3 : c = c' := UInt8.toNat_inj.mp (by omega)
      rw [e1, e2, e3, ih _ h.2.2.2.2]

/-- The first occurrence of a separator splits a list. -/
theorem split_sep {s : Char} : ∀ {a b c d : List Char}, s ∉ a → s ∉ b → a ++ s :: c = b ++ s :: d → a = b ∧ c = d
  | [], [], _, _, _, _, h => by simpa using h
  | [], y :: b, _, _, _, hb, h => by
    simp only [List.nil_append, List.cons_append, List.cons.injEq] at h
    exact absurd (by simp [h.1]) hb
  | x :: a, [], _, _, ha, _, h => by
    simp only [List.nil_append, List.cons_append, List.cons.injEq] at h
    exact absurd (by simp [← h.1]) ha
  | x :: a, y :: b, _, _, ha, hb, h => by
    simp only [List.cons_append, List.cons.injEq] at h
    obtain ⟨h1, h2⟩ := split_sep (fun hm => ha (by simp [hm])) (fun hm => hb (by simp [hm])) h.2
    exact ⟨by rw [h.1, h1], h2⟩

theorem toDigits_inj {m n : Nat} (h : Nat.toDigits 10 m = Nat.toDigits 10 n) : m = n := by
  have := congrArg (fun l => Nat.ofDigitChars 10 l 0) h
  simpa [Nat.ofDigitChars_ten_toDigits] using this

theorem formatBlobUri_inj {i j v w : UInt32} {x y : Bytes} (h : formatBlobUri i v x = formatBlobUri j w y) : i = j ∧ v = w ∧ x = y := by
  have h1 := congrArg String.toList h
  simp only [formatBlobUri, String.toList_append, Nat.toList_repr, String.toList_ofList, List.append_assoc] at h1
  have u : "_".toList = ['_'] := by decide
  rw [u] at h1
  simp only [List.cons_append, List.nil_append] at h1
  obtain ⟨h2, h3⟩ := split_sep Nat.underscore_not_in_toDigits Nat.underscore_not_in_toDigits h1
  obtain ⟨h4, h5⟩ := split_sep Nat.underscore_not_in_toDigits Nat.underscore_not_in_toDigits h3
  exact ⟨UInt32.toNat_inj.mp (toDigits_inj h2), UInt32.toNat_inj.mp (toDigits_inj h4), base64Url_inj _ _ h5⟩

/-! ## What is written -/

theorem registerAll_bare (id : Nat) : ∀ (ks : List String) {es es' : AMap String (Entry α)} {b b' : Batch α} {cells cells' : Cells α},
    registerAll id es b cells ks = .ok (es', b', cells') → ∀ k, bare es' k = bare es k
  | [], es, es', b, b', cells, cells', h, k => by
    simp only [registerAll, Run.ok.injEq, Prod.mk.injEq] at h
    rw [h.1]
  | k0 :: ks, es, es', b, b', cells, cells', h, k => by
    unfold registerAll at h
    cases hg : es.get k0 with
    | none => simp only [hg] at h; exact registerAll_bare id ks h k
    | some e =>
      simp only [hg] at h
      obtain ⟨x, h1, h2⟩ := Run.bind_eq_ok.mp h
      rw [registerAll_bare id ks h2 k]
      unfold addPending at h1
      have : ∃ w, x.2.1 = { e with waiting := w } := by
        cases hst : e.state with
        | load => simp only [hst, Run.ok.injEq] at h1; rw [← h1]; exact ⟨_, rfl⟩
        | store v => simp only [hst, Run.ok.injEq] at h1; rw [← h1]; exact ⟨_, rfl⟩
        | cache v =>
          simp only [hst] at h1
          obtain ⟨y, _, h4⟩ := Run.bind_eq_ok.mp h1
          simp only [Run.ok.injEq] at h4
          refine ⟨e.waiting, ?_⟩; rw [← h4, ← hst]
        | error =>
          simp only [hst] at h1
          obtain ⟨y, _, h4⟩ := Run.bind_eq_ok.mp h1
          simp only [Run.ok.injEq] at h4
          refine ⟨e.waiting, ?_⟩; rw [← h4, ← hst]
      obtain ⟨w, hw⟩ := this
      rw [hw]
      exact bare_set hg w k

theorem batch_bare {c c' : DataCache α} {s : BatchState α} {ks : List String} (h : c.batch s ks = .ok c') :
    (∀ k, bare c'.entries k = bare c.entries k) ∧ c'.ops = c.ops ∧ c'.out = c.out := by
  unfold DataCache.batch at h
  obtain ⟨x, h1, h2⟩ := Run.bind_eq_ok.mp h
  simp only [Run.ok.injEq] at h2
  rw [← h2]
  exact ⟨registerAll_bare _ ks h1, rfl, rfl⟩

/-- The state of an entry. -/
def stateOf (c : DataCache α) (k : String) : Option (EntryState α) := (c.entries.get k).map Entry.state

theorem stateOf_bare {c c' : DataCache α} {k : String} (h : bare c'.entries k = bare c.entries k) : stateOf c' k = stateOf c k := by
  unfold bare at h
  unfold stateOf
  cases h1 : c.entries.get k <;> cases h2 : c'.entries.get k <;> simp_all

/-- What one `load` or `store` adds: entries, ops and requests, for uris that had no entry. -/
structure More (P : DataOut → Prop) (c c' : DataCache α) : Prop where
  old : ∀ k s, stateOf c k = some s → stateOf c' k = some s
  ops : ∀ corr k, c.ops.get corr = some k → corr ≤ c.correlation → c'.ops.get corr = some k
  out : ∀ r ∈ c'.out, r ∈ c.out ∨ (P r ∧ c.correlation < r.corr ∧ (stateOf c' r.uri).isSome ∧
    ∀ corr k b, r = .store corr k b → c'.ops.get corr = some k ∧ ∃ v, stateOf c' k = some (.store v))
  keep : ∀ r ∈ c.out, r ∈ c'.out
  new : ∀ k, (stateOf c' k).isSome → (stateOf c k).isSome ∨ ∃ r ∈ c'.out, r.uri = k
  le : c.correlation ≤ c'.correlation

theorem More.refl {P : DataOut → Prop} (c : DataCache α) : More P c c :=
  ⟨fun _ _ h => h, fun _ _ h _ => h, fun _ h => .inl h, fun _ h => h, fun _ h => .inl h, Nat.le_refl _⟩

theorem More.add {P : DataOut → Prop} {c c' : DataCache α} {m : Metadata} {s : EntryState α} {o : DataOut} (hn : c.entries.get m.uri = none)
    (ho : P o) (hc : o.corr = c.correlation + 1) (hu : o.uri = m.uri) (hst : ∀ corr k b, o = .store corr k b → ∃ v, s = .store v)
    (h : More P (addEntry c m s o) c') : More P c c' := by
  have hnew : stateOf (addEntry c m s o) m.uri = some s := by simp [stateOf, addEntry]
  have hold : ∀ k, k ≠ m.uri → stateOf (addEntry c m s o) k = stateOf c k := fun k hk => by
    simp only [stateOf, addEntry]; rw [AMap.get_set_ne _ _ (Ne.symm hk)]
  have hnone : stateOf c m.uri = none := by simp [stateOf, hn]
  refine ⟨fun k x hk => ?_, fun corr k hk hle => ?_, fun r hr => ?_, fun r hr => h.keep r (by simp [addEntry, hr]), fun k hk => ?_, ?_⟩
  · refine h.old k x ?_
    rw [hold k (fun hh => by rw [hh, hnone] at hk; cases hk)]; exact hk
  · refine h.ops corr k ?_ (by simp only [addEntry]; omega)
    simp only [addEntry]
    rw [AMap.get_set_ne _ _ (by omega)]; exact hk
  · rcases h.out r hr with h1 | ⟨h1, h2, h3⟩
    · simp only [addEntry, List.mem_append, List.mem_singleton] at h1
      rcases h1 with h1 | rfl
      · exact .inl h1
      · refine .inr ⟨ho, by omega, by rw [hu, h.old _ _ hnew]; rfl, fun corr k b he => ?_⟩
        obtain ⟨v, rfl⟩ := hst corr k b he
        subst he
        simp only [DataOut.uri] at hu
        simp only [DataOut.corr] at hc
        subst hu hc
        refine ⟨h.ops _ _ (by simp [addEntry]) (by simp [addEntry]), v, h.old _ _ hnew⟩
    · exact .inr ⟨h1, by simp only [addEntry] at h2; omega, h3⟩
  · rcases h.new k hk with h1 | h1
    · by_cases hkm : k = m.uri
      · exact .inr ⟨o, h.keep o (by simp [addEntry]), by rw [hu, hkm]⟩
      · rw [hold k hkm] at h1; exact .inl h1
    · exact .inr h1
  · have := h.le
    simp only [addEntry] at this
    omega

theorem loadEntries_more : ∀ (ms : List Metadata) (c : DataCache α), More (fun r => ∃ corr k, r = .load corr k) c (c.loadEntries ms)
  | [], c => by unfold DataCache.loadEntries; exact .refl c
  | m :: rest, c => by
    unfold DataCache.loadEntries
    cases hg : c.entries.get m.uri with
    | some e => simp only; exact loadEntries_more rest c
    | none =>
      simp only
      exact More.add (s := .load) (o := .load (c.correlation + 1) m.uri) hg ⟨_, _, rfl⟩ rfl rfl (by simp) (loadEntries_more rest _)

theorem storeEntries_more {P : DataOut → Prop} : ∀ (xs : List (Metadata × α × Bytes)) {c c' : DataCache α}, c.storeEntries xs = .ok c' →
    (∀ x ∈ xs, ∀ corr, P (.store corr x.1.uri x.2.2)) → More P c c'
  | [], c, c', h, _ => by simp only [DataCache.storeEntries, Run.ok.injEq] at h; subst h; exact .refl c
  | (m, v, b) :: rest, c, c', h, hp => by
    unfold DataCache.storeEntries at h
    cases hg : c.entries.get m.uri with
    | some e => simp [hg] at h
    | none =>
      simp only [hg] at h
      exact More.add (s := .store v) (o := .store (c.correlation + 1) m.uri b) hg (hp (m, v, b) (by simp) _) rfl rfl
        (fun _ _ _ _ => ⟨v, rfl⟩) (storeEntries_more rest h (fun x hx => hp x (by simp [hx])))

theorem More.batch {P : DataOut → Prop} {c c1 c' : DataCache α} (h : More P c c1) {s : BatchState α} {ks : List String}
    (hb : c1.batch s ks = .ok c') : More P c c' := by
  obtain ⟨h1, h2, h3⟩ := batch_bare hb
  have hs : ∀ k, stateOf c' k = stateOf c1 k := fun k => stateOf_bare (h1 k)
  have hc : c'.correlation = c1.correlation := by
    unfold DataCache.batch at hb
    obtain ⟨x, _, hx⟩ := Run.bind_eq_ok.mp hb
    simp only [Run.ok.injEq] at hx
    rw [← hx]
  refine ⟨fun k x hk => by rw [hs]; exact h.old k x hk, fun corr k hk hle => by rw [h2]; exact h.ops corr k hk hle, fun r hr => ?_,
    fun r hr => by rw [h3]; exact h.keep r hr, fun k hk => ?_, by rw [hc]; exact h.le⟩
  · rw [h3] at hr
    rcases h.out r hr with h4 | ⟨h4, h5, h6, h7⟩
    · exact .inl h4
    · exact .inr ⟨h4, h5, by rw [hs]; exact h6, fun corr k b he => by rw [h2, hs]; exact h7 corr k b he⟩
  · rw [hs] at hk
    rw [h3]
    exact h.new k hk

/-- What storing adds. -/
theorem store_more {env : DataEnv α} {c c' : DataCache α} {data : List (Metadata × α)} {ms : List Metadata} {b : Bool}
    (hs : c.store env data = .ok (c', ms, b)) :
    More (fun r => ∃ corr k bs id v, r = .store corr k bs ∧ k = env.uri id v (env.hash bs) ∧ ∃ x, env.ser x = some bs) c c' := by
  unfold DataCache.store at hs
  obtain ⟨⟨ms0, o⟩, h1, h2⟩ := Run.bind_eq_ok.mp hs
  cases o with
  | none =>
    simp only [Run.ok.injEq, Prod.mk.injEq] at h2
    rw [← h2.1]; exact .refl c
  | some bs =>
    simp only at h2
    obtain ⟨c1, h3, h4⟩ := Run.bind_eq_ok.mp h2
    obtain ⟨c2, h5, h6⟩ := Run.bind_eq_ok.mp h4
    simp only [Run.ok.injEq, Prod.mk.injEq] at h6
    obtain ⟨rfl, _⟩ := h6
    refine (storeEntries_more _ h3 (fun x hx corr => ?_)).batch h5
    obtain ⟨x1, x2⟩ := (prepareWrites_ok h1).2.2 x hx
    have hlen := (prepareWrites_ok h1).1
    have : ∃ p ∈ data.zip ms0, p.2 = x.1 ∧ p.1.2 = x.2.1 := by
      obtain ⟨n, hn⟩ := List.getElem?_of_mem x2
      simp only [List.getElem?_zip_eq_some, List.getElem?_map, Option.map_eq_some_iff] at hn
      obtain ⟨h7, d, h8, h9⟩ := hn
      exact ⟨(d, x.1), List.mem_of_getElem? (i := n) (by rw [List.getElem?_zip_eq_some]; exact ⟨h8, h7⟩), rfl, h9⟩
    obtain ⟨p, hp, hp2, hp1⟩ := this
    obtain ⟨b', y1, y2⟩ := prepareWrites_meta h1 p hp
    rw [hp1, x1] at y1
    cases y1
    rw [← hp2, y2]
    exact ⟨_, _, _, _, _, rfl, rfl, _, x1⟩

/-! ## Every write is named after what is written -/

theorem history_blob {env : DataEnv α} {evs : List (Event α)} {c : DataCache α} (h : History env evs c) :
    (∀ corr k b, .store corr k b ∈ requests evs c → ∃ id v, k = env.uri id v (env.hash b) ∧ ∃ x, env.ser x = some b) ∧
    ∀ k, (stateOf c k).isSome → ∃ r ∈ requests evs c, r.uri = k := by
  have step : ∀ {evs : List (Event α)} {c c' : DataCache α} {ev : Event α} {P : DataOut → Prop},
      (∀ corr k b, .store corr k b ∈ requests evs c → ∃ id v, k = env.uri id v (env.hash b) ∧ ∃ x, env.ser x = some b) →
      (∀ k, (stateOf c k).isSome → ∃ r ∈ requests evs c, r.uri = k) → (∀ outs, ev ≠ .take outs) → More P c c' →
      (∀ corr k b, P (.store corr k b) → ∃ id v, k = env.uri id v (env.hash b) ∧ ∃ x, env.ser x = some b) →
      (∀ corr k b, .store corr k b ∈ requests (evs ++ [ev]) c' → ∃ id v, k = env.uri id v (env.hash b) ∧ ∃ x, env.ser x = some b) ∧
      ∀ k, (stateOf c' k).isSome → ∃ r ∈ requests (evs ++ [ev]) c', r.uri = k := by
    intro evs c c' ev P h1 h2 hev hm hP
    have hreq : ∀ r, r ∈ requests (evs ++ [ev]) c' ↔ (r ∈ requests evs { c with out := [] } ∨ r ∈ c'.out) := fun r => by
      rw [requests_event evs c' hev]; simp only [requests, List.mem_append, List.append_nil]
    have hreq0 : ∀ r, r ∈ requests evs c ↔ (r ∈ requests evs { c with out := [] } ∨ r ∈ c.out) := fun r => by
      simp only [requests, List.mem_append, List.append_nil]
    refine ⟨fun corr k b hr => ?_, fun k hk => ?_⟩
    · rcases (hreq _).mp hr with hr | hr
      · exact h1 corr k b ((hreq0 _).mpr (.inl hr))
      · rcases hm.out _ hr with h3 | h3
        · exact h1 corr k b ((hreq0 _).mpr (.inr h3))
        · exact hP _ _ _ h3.1
    · rcases hm.new k hk with h3 | ⟨r, h3, h4⟩
      · obtain ⟨r, h4, h5⟩ := h2 k h3
        refine ⟨r, (hreq _).mpr ?_, h5⟩
        rcases (hreq0 _).mp h4 with h4 | h4
        · exact .inl h4
        · exact .inr (hm.keep r h4)
      · exact ⟨r, (hreq _).mpr (.inr h3), h4⟩
  induction h with
  | create => simp [requests, DataCache.create, stateOf]
  | @load evs c ms c' h hs ih =>
    refine step ih.1 ih.2 (by simp) ((loadEntries_more ms c).batch hs) (fun corr k b hp => ?_)
    obtain ⟨_, _, hp⟩ := hp
    cases hp
  | @store evs c data c' ms b h hs ih =>
    refine step ih.1 ih.2 (by simp) (store_more hs) (fun corr k b hp => ?_)
    obtain ⟨_, _, _, id, v, hp, hk⟩ := hp
    cases hp
    exact ⟨id, v, hk⟩
  | @response evs c r c' h hs ih =>
    obtain ⟨_, _, _, _, _, h6⟩ := processIn_ok (history_inv h).base hs
    have hreq : requests (evs ++ [.response r]) c' = requests evs c := by
      rw [requests_event evs c' (by simp)]; simp [requests, h6]
    rw [hreq]
    refine ⟨ih.1, fun k hk => ih.2 k ?_⟩
    have key : ∀ k0 e', (c.entries.get k0).isSome → c'.entries = c.entries.set k0 e' → (stateOf c k).isSome := fun k0 e' h1 h2 => by
      simp only [stateOf, h2, AMap.get_set, Option.isSome_map] at hk ⊢
      split at hk
      · rename_i hh; subst hh; exact h1
      · exact hk
    cases r with
    | load corr st b =>
      unfold DataCache.processIn at hs
      cases ho : c.ops.get corr with
      | none => simp only [ho, Run.ok.injEq] at hs; rw [hs]; exact hk
      | some k0 =>
        simp only [ho] at hs
        obtain ⟨e, h1, h2⟩ := Run.bind_eq_ok.mp hs
        obtain ⟨e', _, h3⟩ := Run.bind_eq_ok.mp h2
        simp only [Run.ok.injEq] at h3
        refine key k0 e' ?_ (by rw [← h3])
        cases hg : c.entries.get k0 with
        | none => rw [hg] at h1; cases h1
        | some _ => rfl
    | store corr st =>
      unfold DataCache.processIn at hs
      cases ho : c.ops.get corr with
      | none => simp only [ho, Run.ok.injEq] at hs; rw [hs]; exact hk
      | some k0 =>
        simp only [ho] at hs
        obtain ⟨e, h1, h2⟩ := Run.bind_eq_ok.mp hs
        obtain ⟨e', _, h3⟩ := Run.bind_eq_ok.mp h2
        simp only [Run.ok.injEq] at h3
        refine key k0 e' ?_ (by rw [← h3])
        cases hg : c.entries.get k0 with
        | none => rw [hg] at h1; cases h1
        | some _ => rfl
  | @progress evs c policy c' h hp hs ih =>
    unfold DataCache.makeProgress at hs
    obtain ⟨⟨es, bs, cells⟩, h1, h2⟩ := Run.bind_eq_ok.mp hs
    simp only [Run.ok.injEq] at h2
    obtain ⟨_, h3, _, _, _⟩ := notifyEntries_ok (X := []) (by simpa using (history_inv h).base.core) h1
    have hreq : requests (evs ++ [.progress]) c' = requests evs c := by
      rw [requests_event evs c' (by simp), ← h2]; simp [requests]
    rw [hreq]
    refine ⟨ih.1, fun k hk => ih.2 k ?_⟩
    have hkeys : k ∈ AMap.keys c'.entries := by
      rw [← AMap.get_isSome_iff]; simpa [stateOf] using hk
    rw [← h2] at hkeys
    have sub : ∀ (l : List String) (m : AMap String (Entry α)), k ∈ AMap.keys (l.foldl AMap.erase m) → k ∈ AMap.keys m := by
      intro l
      induction l with
      | nil => intro m h; exact h
      | cons x rest ih => intro m h; exact ((AMap.mem_keys_erase _ _ _).mp (ih _ h)).2
    have h4 := sub _ _ hkeys
    have h5 : k ∈ AMap.keys es := by
      simp only [AMap.keys, List.mem_map, List.mem_filter] at h4 ⊢
      obtain ⟨e, ⟨h5, _⟩, h6⟩ := h4
      exact ⟨e, h5, h6⟩
    rw [h3, AMap.keys_mapVals, ← AMap.get_isSome_iff] at h5
    simpa [stateOf] using h5
  | @take evs c h ih =>
    have hreq : requests (evs ++ [.take c.out]) c.takeOut.1 = requests evs c := by simp [requests, DataCache.takeOut]
    rw [hreq]
    exact ih

/-- What was written has been asked of the storage. -/
theorem written_requested {env : DataEnv α} {evs : List (Event α)} {c : DataCache α} (h : History env evs c) {data : List (Metadata × α)}
    {ms : List Metadata} {id : Nat} (hm : .store data ms (some id) ∈ evs) {p : Metadata × α} (hp : p ∈ data) {b : Bytes} (hb : env.ser p.2 = some b) :
    ∃ corr, .store corr (env.uri p.1.tabletId (p.1.version + 1) (env.hash b)) b ∈ requests evs c := by
  have keep : ∀ {evs : List (Event α)} {c c' : DataCache α} {ev : Event α}, (∀ outs, ev ≠ .take outs) → (∀ r ∈ c.out, r ∈ c'.out) →
      ∀ r ∈ requests evs c, r ∈ requests (evs ++ [ev]) c' := by
    intro evs c c' ev hev ho r hr
    rw [requests_event evs c' hev]
    simp only [requests, List.mem_append] at hr ⊢
    exact hr.imp (fun h => h) (ho r)
  induction h with
  | create => simp at hm
  | @load evs c ms0 c' h hs ih =>
    obtain ⟨corr, hc⟩ := ih (by simpa using hm)
    exact ⟨corr, keep (by simp) ((loadEntries_more ms0 c).batch hs).keep _ hc⟩
  | @store evs c data0 c' ms0 b0 h hs ih =>
    rcases List.mem_append.mp hm with hm | hm
    · obtain ⟨corr, hc⟩ := ih hm
      exact ⟨corr, keep (by simp) (store_more hs).keep _ hc⟩
    · simp only [List.mem_singleton, Event.store.injEq] at hm
      obtain ⟨rfl, rfl, hid⟩ := hm
      cases b0 with
      | false => simp at hid
      | true =>
        unfold DataCache.store at hs
        obtain ⟨⟨ms1, o⟩, h1, h2⟩ := Run.bind_eq_ok.mp hs
        cases o with
        | none => simp at h2
        | some bs =>
          simp only at h2
          obtain ⟨c1, h3, h4⟩ := Run.bind_eq_ok.mp h2
          obtain ⟨c2, h5, h6⟩ := Run.bind_eq_ok.mp h4
          simp only [Run.ok.injEq, Prod.mk.injEq] at h6
          obtain ⟨rfl, rfl, _⟩ := h6
          obtain ⟨y, hy⟩ := mem_zip_left (l' := ms1) hp (by rw [(prepareWrites_ok h1).1])
          obtain ⟨b', x1, x2, x3⟩ := prepareWrites_shape h1 _ hy
          simp only at x1 x2 x3
          rw [hb] at x1
          cases x1
          obtain ⟨corr, hc⟩ := (storeEntries_out _ h3).2 _ x3
          refine ⟨corr, ?_⟩
          rw [requests_event _ _ (by simp)]
          simp only [requests, List.mem_append]
          right
          rw [batch_out h5]
          rw [x2] at hc
          exact hc
  | @response evs c r c' h hs ih =>
    obtain ⟨corr, hc⟩ := ih (by simpa using hm)
    obtain ⟨_, _, _, _, _, h6⟩ := processIn_ok (history_inv h).base hs
    exact ⟨corr, keep (by simp) (fun r hr => by rw [h6]; exact hr) _ hc⟩
  | @progress evs c policy c' h hp0 hs ih =>
    obtain ⟨corr, hc⟩ := ih (by simpa using hm)
    unfold DataCache.makeProgress at hs
    obtain ⟨x, _, h2⟩ := Run.bind_eq_ok.mp hs
    simp only [Run.ok.injEq] at h2
    exact ⟨corr, keep (by simp) (fun r hr => by rw [← h2]; exact hr) _ hc⟩
  | @take evs c h ih =>
    obtain ⟨corr, hc⟩ := ih (by simpa using hm)
    have hreq : requests (evs ++ [.take c.out]) c.takeOut.1 = requests evs c := by simp [requests, DataCache.takeOut]
    exact ⟨corr, by rw [hreq]; exact hc⟩

/-! ## The default policy keeps what was written -/

/-- What was written under the uri by the request is in the cache, or still being stored. -/
def Kept (c : DataCache α) (corr : Nat) (k : String) : Prop :=
  (∃ v, stateOf c k = some (.cache v)) ∨ (∃ v, stateOf c k = some (.store v) ∧ c.ops.get corr = some k)

theorem default_keeps {env : DataEnv α} {evs : List (Event α)} {c : DataCache α} (h : DHistory env evs c) {corr : Nat} {k : String} {b : Bytes}
    (hr : .store corr k b ∈ requests evs c) (hf : .response (.store corr .failed) ∉ evs) : Kept c corr k := by
  have step : ∀ {evs : List (Event α)} {c c' : DataCache α} {ev : Event α} {P : DataOut → Prop},
      (∀ corr k b, .store corr k b ∈ requests evs c → .response (.store corr .failed) ∉ evs → Kept c corr k) → DHistory env evs c →
      (∀ outs, ev ≠ .take outs) → More P c c' →
      ∀ corr k b, .store corr k b ∈ requests (evs ++ [ev]) c' → .response (.store corr .failed) ∉ evs ++ [ev] → Kept c' corr k := by
    intro evs c c' ev P ih h hev hm corr k b hr hf
    have old : .store corr k b ∈ requests evs c → Kept c' corr k := by
      intro hr
      rcases ih corr k b hr (fun hh => hf (by simp [hh])) with ⟨v, h1⟩ | ⟨v, h1, h2⟩
      · exact .inl ⟨v, hm.old k _ h1⟩
      · exact .inr ⟨v, hm.old k _ h1, hm.ops corr k h2 ((history_inv h.history).reqs.bound _ hr)⟩
    rw [requests_event evs c' hev] at hr
    simp only [requests, List.mem_append] at hr
    rcases hr with hr | hr
    · exact old (by simp only [requests, List.mem_append]; exact .inl hr)
    · rcases hm.out _ hr with h1 | ⟨_, _, _, h4⟩
      · exact old (by simp only [requests, List.mem_append]; exact .inr h1)
      · obtain ⟨h5, v, h6⟩ := h4 corr k b rfl
        exact .inr ⟨v, h6, h5⟩
  have got : ∀ {c : DataCache α} {k : String} {e : Entry α}, Run.unwrap (c.entries.get k) = .ok e → c.entries.get k = some e := by
    intro c k e h1
    cases hg : c.entries.get k with
    | none => rw [hg] at h1; cases h1
    | some x => rw [hg] at h1; simp only [Run.unwrap, Run.ok.injEq] at h1; rw [h1]
  induction h generalizing corr k b with
  | create => simp [requests, DataCache.create] at hr
  | @load evs c ms c' h hs ih => exact step (fun _ _ _ => ih) h (by simp) ((loadEntries_more ms c).batch hs) corr k b hr hf
  | @store evs c data c' ms b' h hs ih => exact step (fun _ _ _ => ih) h (by simp) (store_more hs) corr k b hr hf
  | @response evs c r c' h hs ih =>
    have hbase := (history_inv h.history).base
    obtain ⟨_, _, _, _, _, h6⟩ := processIn_ok hbase hs
    have hreq : requests (evs ++ [.response r]) c' = requests evs c := by
      rw [requests_event evs c' (by simp)]; simp [requests, h6]
    rw [hreq] at hr
    have hi := ih hr (fun hh => hf (by simp [hh]))
    have other : ∀ {k0 : String} {e' : Entry α} {corr' : Nat}, c.ops.get corr' = some k0 →
        { c with ops := c.ops.erase corr', entries := c.entries.set k0 e' } = c' → (k = k0 → Kept c' corr k) → Kept c' corr k := by
      intro k0 e' corr' ho hc' hk
      by_cases hkk : k = k0
      · exact hk hkk
      · subst hc'
        have hst : stateOf { c with ops := c.ops.erase corr', entries := c.entries.set k0 e' } k = stateOf c k := by
          simp only [stateOf]; rw [AMap.get_set_ne _ _ (Ne.symm hkk)]
        rcases hi with ⟨v, h1⟩ | ⟨v, h1, h2⟩
        · exact .inl ⟨v, by rw [hst]; exact h1⟩
        · refine .inr ⟨v, by rw [hst]; exact h1, ?_⟩
          simp only
          rw [AMap.get_erase_ne _ (fun hh => by subst hh; rw [h2] at ho; cases ho; exact hkk rfl)]
          exact h2
    cases r with
    | load corr' st b' =>
      unfold DataCache.processIn at hs
      cases ho : c.ops.get corr' with
      | none => simp only [ho, Run.ok.injEq] at hs; subst hs; exact hi
      | some k0 =>
        simp only [ho] at hs
        obtain ⟨e, h1, h2⟩ := Run.bind_eq_ok.mp hs
        obtain ⟨e', h4, h3⟩ := Run.bind_eq_ok.mp h2
        simp only [Run.ok.injEq] at h3
        refine other ho h3 (fun hkk => ?_)
        subst hkk
        have hg := got h1
        unfold Entry.loadResponse at h4
        rcases hi with ⟨v, h5⟩ | ⟨v, h5, _⟩
        · have hst : e.state = .cache v := by simpa [stateOf, hg] using h5
          simp [hst] at h4
        · have hst : e.state = .store v := by simpa [stateOf, hg] using h5
          simp [hst] at h4
    | store corr' st =>
      unfold DataCache.processIn at hs
      cases ho : c.ops.get corr' with
      | none => simp only [ho, Run.ok.injEq] at hs; subst hs; exact hi
      | some k0 =>
        simp only [ho] at hs
        obtain ⟨e, h1, h2⟩ := Run.bind_eq_ok.mp hs
        obtain ⟨e', h4, h3⟩ := Run.bind_eq_ok.mp h2
        simp only [Run.ok.injEq] at h3
        refine other ho h3 (fun hkk => ?_)
        subst hkk
        have hg := got h1
        unfold Entry.storeResponse at h4
        rcases hi with ⟨v, h5⟩ | ⟨v, h5, h7⟩
        · have hst : e.state = .cache v := by simpa [stateOf, hg] using h5
          simp [hst] at h4
        · have hst : e.state = .store v := by simpa [stateOf, hg] using h5
          have hcc := hbase.opsU corr' corr k ho h7
          subst hcc
          cases st with
          | succeeded =>
            simp only [hst, Run.ok.injEq] at h4
            subst h3
            exact .inl ⟨v, by simp [stateOf, ← h4]⟩
          | failed => exact absurd (by simp) hf
          | other => simp [hst] at h4
  | @progress evs c c' h hs ih =>
    have hbase := (history_inv h.history).base
    unfold DataCache.makeProgress at hs
    obtain ⟨⟨es, bs, cells⟩, h1, h2⟩ := Run.bind_eq_ok.mp hs
    simp only [Run.ok.injEq, List.foldl_nil] at h2
    obtain ⟨_, h3, _, _, _⟩ := notifyEntries_ok (X := []) (by simpa using hbase.core) h1
    have hreq : requests (evs ++ [.progress]) c' = requests evs c := by
      rw [requests_event evs c' (by simp), ← h2]; simp [requests]
    rw [hreq] at hr
    have hi := ih hr (fun hh => hf (by simp [hh]))
    have hwf : es.WF := by rw [h3]; exact hbase.wfE.mapVals _
    have hstate : ∀ {s : EntryState α}, stateOf c k = some s → s ≠ .error → stateOf c' k = some s := by
      intro s hs0 hne
      cases hg : c.entries.get k with
      | none => simp [stateOf, hg] at hs0
      | some e =>
        have hes : e.state = s := by simpa [stateOf, hg] using hs0
        have h5 : es.get k = some (settled e) := by rw [h3, AMap.get_mapVals, hg]; rfl
        have h6 : (settled e).state = s := by unfold settled; split <;> exact hes
        have h7 : (settled e).failed = false := by
          unfold Entry.failed; rw [h6]; cases s <;> simp_all
        subst h2
        have hg' : AMap.get (List.filter (fun e => !e.2.failed) es) k = some (settled e) := by
          rw [AMap.get_filter hwf, h5]; simp [Option.filter, h7]
        simp only [stateOf]
        rw [hg']; simp [h6]
    have hops : c'.ops = c.ops := by rw [← h2]
    rcases hi with ⟨v, h5⟩ | ⟨v, h5, h6⟩
    · exact .inl ⟨v, hstate h5 (by simp)⟩
    · exact .inr ⟨v, hstate h5 (by simp), by rw [hops]; exact h6⟩
  | @take evs c h ih =>
    have hreq : requests (evs ++ [.take c.out]) c.takeOut.1 = requests evs c := by simp [requests, DataCache.takeOut]
    rw [hreq] at hr
    exact ih hr (fun hh => hf (by simp [hh]))

/-! ## Storing -/

/-- Preparing writes succeeds if everything can be serialized and no version overflows. -/
theorem prepareWrites_some {env : DataEnv α} : ∀ {data : List (Metadata × α)}, (∀ p ∈ data, (env.ser p.2).isSome ∧ p.1.version ≠ 0xffffffff) →
    ∃ ms bs, prepareWrites env data = .ok (ms, some bs) ∧ ms.map (fun m => some m.uri) = data.map (newUri env)
  | [], _ => ⟨[], [], rfl, rfl⟩
  | (m, v) :: rest, h => by
    obtain ⟨h1, h2⟩ := h (m, v) (by simp)
    simp only at h1 h2
    obtain ⟨b, hb⟩ := Option.isSome_iff_exists.mp h1
    obtain ⟨ms, bs, h3, h4⟩ := prepareWrites_some (data := rest) (fun p hp => h p (by simp [hp]))
    refine ⟨{ m with version := m.version + 1, size := UInt32.ofNat b.length, hash := env.hash b,
                     uri := env.uri m.tabletId (m.version + 1) (env.hash b) } :: ms, b :: bs, ?_, ?_⟩
    · simp only [prepareWrites, prepareWrite, hb, h2, if_false, Run.bind_ok, h3, Option.map_some]
    · simp [newUri, hb, h4]

theorem storeEntries_some : ∀ (xs : List (Metadata × α × Bytes)) {c : DataCache α}, (xs.map fun x => x.1.uri).Nodup →
    (∀ x ∈ xs, c.entries.get x.1.uri = none) → ∃ c', c.storeEntries xs = .ok c' ∧ ∀ x ∈ xs, ∃ v, stateOf c' x.1.uri = some (.store v)
  | [], c, _, _ => ⟨c, rfl, by simp⟩
  | (m, v, b) :: rest, c, hn, h => by
    simp only [List.map_cons, List.nodup_cons] at hn
    have hg := h (m, v, b) (by simp)
    simp only at hg
    unfold DataCache.storeEntries
    simp only [hg]
    obtain ⟨c', h1, h2⟩ := storeEntries_some rest (c := addEntry c m (.store v) (.store (c.correlation + 1) m.uri b)) hn.2 (fun x hx => by
      have : m.uri ≠ x.1.uri := fun hh => hn.1 (by rw [hh]; exact List.mem_map.mpr ⟨x, hx, rfl⟩)
      simp only [addEntry]
      rw [AMap.get_set_ne _ _ this]
      exact h x (by simp [hx]))
    refine ⟨c', h1, fun x hx => ?_⟩
    rcases List.mem_cons.mp hx with rfl | hx
    · have hm := storeEntries_more (P := fun _ => True) rest h1 (by simp)
      exact ⟨v, hm.old _ _ (by simp [stateOf, addEntry])⟩
    · exact h2 x hx

theorem registerAll_some (id : Nat) : ∀ (ks : List String) (es : AMap String (Entry α)) (b : Batch α) (cells : Cells α),
    (∀ k ∈ ks, ∃ m v, bare es k = some (m, .store v)) → ∃ x, registerAll id es b cells ks = .ok x
  | [], es, b, cells, _ => ⟨_, rfl⟩
  | k :: ks, es, b, cells, h => by
    obtain ⟨m, v, hk⟩ := h k (by simp)
    unfold registerAll
    cases hg : es.get k with
    | none => simp [bare, hg] at hk
    | some e =>
      have hst : e.state = .store v := by
        simp only [bare, hg, Option.map_some, Option.some.injEq, Prod.mk.injEq] at hk; exact hk.2
      simp only [addPending, hst, Run.bind_ok]
      refine registerAll_some id ks _ _ _ (fun j hj => ?_)
      obtain ⟨m', v', hj'⟩ := h j (by simp [hj])
      refine ⟨m', v', ?_⟩
      rw [← hst]
      rw [bare_set hg]; exact hj'

theorem store_new {env : DataEnv α} {c : DataCache α} {data : List (Metadata × α)}
    (h1 : ∀ p ∈ data, (env.ser p.2).isSome ∧ p.1.version ≠ 0xffffffff) (h2 : (data.map (newUri env)).Nodup)
    (h3 : ∀ p ∈ data, ∀ k, newUri env p = some k → c.entries.get k = none) : ∃ c' ms, c.store env data = .ok (c', ms, true) := by
  obtain ⟨ms, bs, h4, h5⟩ := prepareWrites_some h1
  obtain ⟨l1, l2, _⟩ := prepareWrites_ok h4
  have hz : (ms.zip ((data.map Prod.snd).zip bs)).map (fun x => x.1.uri) = ms.map Metadata.uri := by
    have : (ms.zip ((data.map Prod.snd).zip bs)).map Prod.fst = ms := by
      rw [List.map_fst_zip]; simp; omega
    conv => rhs; rw [← this, List.map_map]
    rfl
  have hnd : (ms.map Metadata.uri).Nodup := by
    have : (ms.map (fun m => some m.uri)).Nodup := by rw [h5]; exact h2
    have h6 : ms.map (fun m => some m.uri) = (ms.map Metadata.uri).map some := by rw [List.map_map]; rfl
    rw [h6] at this
    exact (List.pairwise_map.mp this).imp (fun h hh => h (by rw [hh]))
  have hnone : ∀ m ∈ ms, c.entries.get m.uri = none := fun m hm => by
    have : some m.uri ∈ data.map (newUri env) := by rw [← h5]; exact List.mem_map.mpr ⟨m, hm, rfl⟩
    obtain ⟨p, hp, hk⟩ := List.mem_map.mp this
    exact h3 p hp _ hk
  obtain ⟨c1, h6, h7⟩ := storeEntries_some (ms.zip ((data.map Prod.snd).zip bs)) (c := c) (by rw [hz]; exact hnd)
    (fun x hx => hnone _ (List.of_mem_zip hx).1)
  obtain ⟨x, h8⟩ := registerAll_some (c1.batchCounter + 1) (ms.map Metadata.uri) c1.entries ⟨.store, 0⟩ c1.cells (fun k hk => by
    rw [← hz] at hk
    obtain ⟨x, hx, rfl⟩ := List.mem_map.mp hk
    obtain ⟨v, hv⟩ := h7 x hx
    simp only [stateOf] at hv
    cases hg : c1.entries.get x.1.uri with
    | none => simp [hg] at hv
    | some e => exact ⟨e.metadata, v, by simp [bare, hg] at hv ⊢; exact hv⟩)
  simp only [DataCache.store, h4, Run.bind_ok, h6, DataCache.batch, h8]
  exact ⟨_, ms, rfl⟩

/-- A write whose uri has an entry panics. -/
theorem store_again {env : DataEnv α} {c : DataCache α} {data : List (Metadata × α)} (h1 : ∀ p ∈ data, (env.ser p.2).isSome)
    {p : Metadata × α} (hp : p ∈ data) {k : String} (hk : newUri env p = some k) (he : (c.entries.get k).isSome) :
    c.store env data = .panic := by
  cases hs : c.store env data with
  | panic => rfl
  | ok x =>
    exfalso
    obtain ⟨c', ms, b⟩ := x
    unfold DataCache.store at hs
    obtain ⟨⟨ms0, o⟩, h2, h3⟩ := Run.bind_eq_ok.mp hs
    have hv : ∀ q ∈ data, q.1.version ≠ 0xffffffff := by
      clear hs h3 hp hk he
      induction data generalizing ms0 o with
      | nil => simp
      | cons d rest ih =>
        obtain ⟨m, v⟩ := d
        obtain ⟨bb, hb⟩ := Option.isSome_iff_exists.mp (h1 (m, v) (by simp))
        unfold prepareWrites at h2
        obtain ⟨y, h4, h5⟩ := Run.bind_eq_ok.mp h2
        simp only at hb
        simp only [prepareWrite, hb] at h4
        by_cases hver : m.version = 0xffffffff
        · simp [hver] at h4
        · simp only [hver, if_false, Run.ok.injEq] at h4
          subst h4
          simp only at h5
          obtain ⟨z, h6, _⟩ := Run.bind_eq_ok.mp h5
          intro q hq
          rcases List.mem_cons.mp hq with rfl | hq
          · exact hver
          · exact ih (fun p hp => h1 p (by simp [hp])) _ _ h6 q hq
    obtain ⟨ms', bs', h4, h5⟩ := prepareWrites_some (env := env) (data := data) (fun q hq => ⟨h1 q hq, hv q hq⟩)
    rw [h4] at h2
    simp only [Run.ok.injEq, Prod.mk.injEq] at h2
    obtain ⟨rfl, rfl⟩ := h2
    simp only at h3
    obtain ⟨c1, h6, _⟩ := Run.bind_eq_ok.mp h3
    obtain ⟨_, h7⟩ := storeEntries_nodup _ h6
    obtain ⟨l1, l2, _⟩ := prepareWrites_ok h4
    have : some k ∈ ms'.map (fun m => some m.uri) := by rw [h5, ← hk]; exact List.mem_map.mpr ⟨p, hp, rfl⟩
    obtain ⟨m, hm, hmk⟩ := List.mem_map.mp this
    obtain ⟨y, hy⟩ := mem_zip_left (l' := (data.map Prod.snd).zip bs') hm (by simp [l1, l2])
    have := h7 _ hy
    simp only [Option.some.injEq] at hmk
    rw [hmk] at this
    rw [this] at he
    cases he

end TCP.Cache
