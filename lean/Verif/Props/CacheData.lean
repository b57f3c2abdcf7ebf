import Verif.Proofs.CacheDataLive

/-!
# C50, C51: tablet data

`c.cells.loads.get id` is what the result handle `id` of a load shows: `none` while pending, `some (some res)` when it completed with
`res`, `some none` when it failed.  Likewise `c.cells.stores.get id` for stores.
-/

namespace TCP.Cache.Props

open TCP TCP.TabletStore TCP.Cache.Spec

variable {α : Type}

/-! ## A small history used as example -/

/-- Contents are bytes, stored as they are. -/
def exEnv : DataEnv Bytes := ⟨some, fun b => if b = [255] then none else some b, fun b => b, fun i v _ => toString i ++ "/" ++ toString v⟩

def exMeta (i : UInt32) (u : String) : Metadata := ⟨i, 0, false, [], 0, [], u⟩

/-- Keep everything. -/
def exPolicy (_ : AMap String (Entry Bytes)) : List String := []

/-- A cache that stored tablet 5 and loaded tablets 1 and 2 (the latter failed), with its history. -/
def exEvents : List (Event Bytes) :=
  [.store [(exMeta 5 "x", [8])] [⟨5, 1, false, [], 1, [8], "5/1"⟩] (some 1), .load [exMeta 1 "a"] 2 false, .load [exMeta 2 "b", exMeta 1 "a"] 3 false,
   .take [.store 1 "5/1" [8], .load 2 "a", .load 3 "b"], .response (.load 2 .succeeded [3]), .response (.store 1 .succeeded),
   .response (.load 3 .succeeded [255])]

def exCache : DataCache Bytes :=
  ⟨3, 3, [("5/1", ⟨⟨5, 1, false, [], 1, [8], "5/1"⟩, .cache [8], [1]⟩), ("a", ⟨exMeta 1 "a", .cache [3], [2, 3]⟩), ("b", ⟨exMeta 2 "b", .error, [3]⟩)],
   [(1, ⟨.store, 1⟩), (2, ⟨.load [], 1⟩), (3, ⟨.load [], 2⟩)], [], [], ⟨[], []⟩⟩

def exDone : DataCache Bytes :=
  ⟨3, 3, [("5/1", ⟨⟨5, 1, false, [], 1, [8], "5/1"⟩, .cache [8], []⟩), ("a", ⟨exMeta 1 "a", .cache [3], []⟩)], [], [], [],
   ⟨[(2, some [(exMeta 1 "a", [3])]), (3, none)], [(1, some ())]⟩⟩

theorem ex_history : History exEnv exEvents exCache := by
  have h0 : History exEnv [] (DataCache.create 0) := .create
  have h1 := h0.store (data := [(exMeta 5 "x", [8])]) (ms := [⟨5, 1, false, [], 1, [8], "5/1"⟩]) (b := true) (c' := ⟨1, 1,
    [("5/1", ⟨⟨5, 1, false, [], 1, [8], "5/1"⟩, .store [8], [1]⟩)], [(1, ⟨.store, 1⟩)], [(1, "5/1")], [.store 1 "5/1" [8]], ⟨[], []⟩⟩) (by decide +kernel)
  have h2 := h1.load (ms := [exMeta 1 "a"]) (c' := ⟨2, 2,
    [("5/1", ⟨⟨5, 1, false, [], 1, [8], "5/1"⟩, .store [8], [1]⟩), ("a", ⟨exMeta 1 "a", .load, [2]⟩)], [(1, ⟨.store, 1⟩), (2, ⟨.load [], 1⟩)],
    [(1, "5/1"), (2, "a")], [.store 1 "5/1" [8], .load 2 "a"], ⟨[], []⟩⟩) (by decide +kernel)
  have h3 := h2.load (ms := [exMeta 2 "b", exMeta 1 "a"]) (c' := ⟨3, 3,
    [("5/1", ⟨⟨5, 1, false, [], 1, [8], "5/1"⟩, .store [8], [1]⟩), ("a", ⟨exMeta 1 "a", .load, [2, 3]⟩), ("b", ⟨exMeta 2 "b", .load, [3]⟩)],
    [(1, ⟨.store, 1⟩), (2, ⟨.load [], 1⟩), (3, ⟨.load [], 2⟩)],
    [(1, "5/1"), (2, "a"), (3, "b")], [.store 1 "5/1" [8], .load 2 "a", .load 3 "b"], ⟨[], []⟩⟩) (by decide +kernel)
  have h4 := h3.take
  have h5 := h4.response (r := .load 2 .succeeded [3]) (c' := ⟨3, 3,
    [("5/1", ⟨⟨5, 1, false, [], 1, [8], "5/1"⟩, .store [8], [1]⟩), ("a", ⟨exMeta 1 "a", .cache [3], [2, 3]⟩), ("b", ⟨exMeta 2 "b", .load, [3]⟩)],
    [(1, ⟨.store, 1⟩), (2, ⟨.load [], 1⟩), (3, ⟨.load [], 2⟩)],
    [(1, "5/1"), (3, "b")], [], ⟨[], []⟩⟩) (by decide +kernel)
  have h6 := h5.response (r := .store 1 .succeeded) (c' := ⟨3, 3,
    [("5/1", ⟨⟨5, 1, false, [], 1, [8], "5/1"⟩, .cache [8], [1]⟩), ("a", ⟨exMeta 1 "a", .cache [3], [2, 3]⟩), ("b", ⟨exMeta 2 "b", .load, [3]⟩)],
    [(1, ⟨.store, 1⟩), (2, ⟨.load [], 1⟩), (3, ⟨.load [], 2⟩)],
    [(3, "b")], [], ⟨[], []⟩⟩) (by decide +kernel)
  have h7 := h6.response (r := .load 3 .succeeded [255]) (c' := exCache) (by decide +kernel)
  have e1 : firstReady (⟨1, 1, [("5/1", ⟨⟨5, 1, false, [], 1, [8], "5/1"⟩, .store [8], [1]⟩)], [(1, ⟨.store, 1⟩)], [(1, "5/1")],
    [.store 1 "5/1" [8]], ⟨[], []⟩⟩ : DataCache Bytes) [exMeta 1 "a"] = false := by decide +kernel
  have e2 : firstReady (⟨2, 2, [("5/1", ⟨⟨5, 1, false, [], 1, [8], "5/1"⟩, .store [8], [1]⟩), ("a", ⟨exMeta 1 "a", .load, [2]⟩)],
    [(1, ⟨.store, 1⟩), (2, ⟨.load [], 1⟩)], [(1, "5/1"), (2, "a")], [.store 1 "5/1" [8], .load 2 "a"], ⟨[], []⟩⟩ : DataCache Bytes)
    [exMeta 2 "b", exMeta 1 "a"] = false := by decide +kernel
  rw [e1, e2] at h7
  exact h7

theorem ex_progress : exCache.makeProgress exPolicy = .ok exDone := by decide +kernel

/-- The same after progress was made: one load completed, one failed, the store completed. -/
theorem ex_history_done : History exEnv (exEvents ++ [.progress]) exDone := ex_history.progress (by simp [exPolicy]) ex_progress

/-- The hypotheses of the theorems below are met by this history. -/
example : .load [exMeta 1 "a"] 2 false ∈ exEvents ∧ exDone.cells.loads.get 2 = some (some [(exMeta 1 "a", [3])]) ∧
    .load [exMeta 2 "b", exMeta 1 "a"] 3 false ∈ exEvents ∧ exDone.cells.loads.get 3 = some none ∧
    .store [(exMeta 5 "x", [8])] [⟨5, 1, false, [], 1, [8], "5/1"⟩] (some 1) ∈ exEvents ∧ exDone.cells.stores.get 1 = some (some ()) := by
  refine ⟨by simp [exEvents], by decide +kernel, by simp [exEvents], by decide +kernel, by simp [exEvents], by decide +kernel⟩

/-- C50 (contents): whatever a completed load yields belongs to a requested tablet and is what the storage returned for its uri, or what
was stored under that uri and confirmed. -/
theorem C50_contents {env : DataEnv α} {evs : List (Event α)} {c : DataCache α} (h : History env evs c) {ms : List Metadata} {id : Nat}
    {now : Bool} (hl : .load ms id now ∈ evs) {res : List (Metadata × α)} (hr : c.cells.loads.get id = some (some res)) :
    ∀ p ∈ res, (∃ m ∈ ms, m.uri = p.1.uri) ∧ Came env evs c p.1.uri p.2 := by
  have hinv := history_inv h
  obtain ⟨ks, now', ⟨ms', h1, rfl⟩, h2, _⟩ := hinv.base.core.cells.loadOk id res hr
  cases handle_unique hinv.ids.nodup hl h1 rfl rfl
  intro p hp
  obtain ⟨h3, h4⟩ := h2 p hp
  obtain ⟨m, hm, hu⟩ := List.mem_map.mp h3
  exact ⟨⟨m, hm, hu⟩, h4⟩

/-- C50 (completeness), partial: a load completes with exactly the requested tablets if the first one was not ready when it was called.
Missing: the case that it was, see `C50_premature_fails`. -/
theorem C50_complete_partial {env : DataEnv α} {evs : List (Event α)} {c : DataCache α} (h : History env evs c) {ms : List Metadata}
    {id : Nat} (hl : .load ms id false ∈ evs) {res : List (Metadata × α)} (hr : c.cells.loads.get id = some (some res)) :
    (res.map fun p => p.1.uri).Perm (ms.map Metadata.uri) := by
  have hinv := history_inv h
  obtain ⟨ks, now', ⟨ms', h1, rfl⟩, _, h3⟩ := hinv.base.core.cells.loadOk id res hr
  cases handle_unique hinv.ids.nodup hl h1 rfl rfl
  exact h3 rfl

/-- C50 (completeness) does not hold: if the first requested tablet is in the cache, the load completes at once with that tablet alone,
whatever else was requested. -/
theorem C50_premature_fails {env : DataEnv α} {evs : List (Event α)} {c : DataCache α} (h : History env evs c) {m : Metadata}
    {rest : List Metadata} {e : Entry α} {v : α} (he : c.entries.get m.uri = some e) (hv : e.state = .cache v) :
    ∃ c', c.load (m :: rest) = .ok c' ∧ c'.cells.loads.get c'.batchCounter = some (some [(e.metadata, v)]) := by
  obtain ⟨c', hc⟩ := load_total h (m :: rest)
  refine ⟨c', hc, ?_⟩
  have hinv := history_inv h
  obtain ⟨_, _, l3, _, _⟩ := loadEntries_ok (m :: rest) hinv.base hinv.reqs
  have hg := l3.old _ _ he
  have hn := (fresh_cells hinv.base hinv.ids).1
  rw [← l3.counter, ← l3.cells] at hn
  unfold DataCache.load DataCache.batch at hc
  obtain ⟨⟨es', b', cells'⟩, h1, h2⟩ := Run.bind_eq_ok.mp hc
  simp only [Run.ok.injEq] at h2
  subst h2
  rw [List.map_cons] at h1
  unfold registerAll at h1
  simp only [hg, addPending, hv, resolveEntry, Cells.setLoad, hn] at h1
  simp [Run.bind] at h1
  exact (register_live h1).1.1 _ _ (AMap.get_set_self _ _ _)

/-- The same in a history: two tablets are asked for, the load completes with one. -/
theorem C50_premature_history_fails : ∃ (evs : List (Event Bytes)) (c : DataCache Bytes) (m m' : Metadata) (id : Nat) (res : List (Metadata × Bytes)),
    History exEnv evs c ∧ .load [m, m'] id true ∈ evs ∧ m.uri ≠ m'.uri ∧ c.cells.loads.get id = some (some res) ∧
    ∀ p ∈ res, p.1.uri ≠ m'.uri := by
  have h0 : History exEnv [] (DataCache.create 0) := .create
  have h1 := h0.load (ms := [exMeta 1 "a"]) (c' := ⟨1, 1, [("a", ⟨exMeta 1 "a", .load, [1]⟩)], [(1, ⟨.load [], 1⟩)], [(1, "a")],
    [.load 1 "a"], ⟨[], []⟩⟩) (by decide +kernel)
  have h2 := h1.response (r := .load 1 .succeeded [3]) (c' := ⟨1, 1, [("a", ⟨exMeta 1 "a", .cache [3], [1]⟩)], [(1, ⟨.load [], 1⟩)], [],
    [.load 1 "a"], ⟨[], []⟩⟩) (by decide +kernel)
  have h3 := h2.progress (policy := exPolicy) (c' := ⟨1, 1, [("a", ⟨exMeta 1 "a", .cache [3], []⟩)], [], [],
    [.load 1 "a"], ⟨[(1, some [(exMeta 1 "a", [3])])], []⟩⟩) (by simp [exPolicy]) (by decide +kernel)
  have h4 := h3.load (ms := [exMeta 1 "a", exMeta 2 "b"]) (c' := ⟨2, 2, [("a", ⟨exMeta 1 "a", .cache [3], []⟩), ("b", ⟨exMeta 2 "b", .load, [2]⟩)],
    [(2, ⟨.completed, 1⟩)], [(2, "b")], [.load 1 "a", .load 2 "b"],
    ⟨[(1, some [(exMeta 1 "a", [3])]), (2, some [(exMeta 1 "a", [3])])], []⟩⟩) (by decide +kernel)
  exact ⟨_, _, exMeta 1 "a", exMeta 2 "b", 2, [(exMeta 1 "a", [3])], h4, by simp; decide +kernel, by decide, by decide +kernel, by decide⟩

/-- C50 (contents) does not hold per tablet: tablets with the same uri (all new tablets have the empty one) share an entry, and the
load yields one of them twice and the other not at all. -/
theorem C50_shared_uri_fails : ∃ (evs : List (Event Bytes)) (c : DataCache Bytes) (m m' : Metadata) (id : Nat) (res : List (Metadata × Bytes)),
    History exEnv evs c ∧ .load [m, m'] id false ∈ evs ∧ m.tabletId ≠ m'.tabletId ∧ c.cells.loads.get id = some (some res) ∧
    ∀ p ∈ res, p.1.tabletId ≠ m'.tabletId := by
  have h0 : History exEnv [] (DataCache.create 0) := .create
  have h1 := h0.load (ms := [exMeta 1 "", exMeta 2 ""]) (c' := ⟨1, 1, [("", ⟨exMeta 1 "", .load, [1, 1]⟩)], [(1, ⟨.load [], 2⟩)], [(1, "")],
    [.load 1 ""], ⟨[], []⟩⟩) (by decide +kernel)
  have h2 := h1.response (r := .load 1 .succeeded [3]) (c' := ⟨1, 1, [("", ⟨exMeta 1 "", .cache [3], [1, 1]⟩)], [(1, ⟨.load [], 2⟩)], [],
    [.load 1 ""], ⟨[], []⟩⟩) (by decide +kernel)
  have h3 := h2.progress (policy := exPolicy) (c' := ⟨1, 1, [("", ⟨exMeta 1 "", .cache [3], []⟩)], [], [],
    [.load 1 ""], ⟨[(1, some [(exMeta 1 "", [3]), (exMeta 1 "", [3])])], []⟩⟩) (by simp [exPolicy]) (by decide +kernel)
  exact ⟨_, _, exMeta 1 "", exMeta 2 "", 1, [(exMeta 1 "", [3]), (exMeta 1 "", [3])], h3, by simp; decide +kernel, by decide, by decide +kernel, by decide⟩

/-- C50 (failures): a load that failed asked for a tablet whose load or store failed. -/
theorem C50_failure {env : DataEnv α} {evs : List (Event α)} {c : DataCache α} (h : History env evs c) {ms : List Metadata} {id : Nat}
    {now : Bool} (hl : .load ms id now ∈ evs) (hr : c.cells.loads.get id = some none) : ∃ m ∈ ms, Failed env evs c m.uri := by
  have hinv := history_inv h
  obtain ⟨ks, now', ⟨ms', h1, rfl⟩, k, h2, h3⟩ := hinv.base.core.cells.loadErr id hr
  cases handle_unique hinv.ids.nodup hl h1 rfl rfl
  obtain ⟨m, hm, rfl⟩ := List.mem_map.mp h2
  exact ⟨m, hm, h3⟩

/-- C50 (stores): a store completes only when the storage has confirmed, for every tablet, the bytes of the contents to be stored, under
the uri in the tablet's new metadata. -/
theorem C50_store {env : DataEnv α} {evs : List (Event α)} {c : DataCache α} (h : History env evs c) {data : List (Metadata × α)}
    {ms : List Metadata} {id : Nat} (hl : .store data ms (some id) ∈ evs) (hr : c.cells.stores.get id = some (some ())) :
    ms.length = data.length ∧ ∀ p ∈ ms.zip (data.map Prod.snd), ∃ b, env.ser p.2 = some b ∧ Stored evs c p.1.uri b :=
  ⟨(history_writes h _ _ _ hl).2.1, fun _ hp => store_confirmed h hl hr hp⟩

/-- A store can fail. -/
example : ∃ evs c, History exEnv evs c ∧ .store [(exMeta 5 "x", [8])] [⟨5, 1, false, [], 1, [8], "5/1"⟩] (some 1) ∈ evs ∧
    c.cells.stores.get 1 = some none := by
  have h0 : History exEnv [] (DataCache.create 0) := .create
  have h1 := h0.store (data := [(exMeta 5 "x", [8])]) (ms := [⟨5, 1, false, [], 1, [8], "5/1"⟩]) (b := true) (c' := ⟨1, 1,
    [("5/1", ⟨⟨5, 1, false, [], 1, [8], "5/1"⟩, .store [8], [1]⟩)], [(1, ⟨.store, 1⟩)], [(1, "5/1")], [.store 1 "5/1" [8]], ⟨[], []⟩⟩) (by decide +kernel)
  have h2 := h1.response (r := .store 1 .failed) (c' := ⟨1, 1,
    [("5/1", ⟨⟨5, 1, false, [], 1, [8], "5/1"⟩, .error, [1]⟩)], [(1, ⟨.store, 1⟩)], [], [.store 1 "5/1" [8]], ⟨[], []⟩⟩) (by decide +kernel)
  have h3 := h2.progress (policy := exPolicy) (c' := ⟨1, 1, [], [], [], [.store 1 "5/1" [8]], ⟨[], [(1, none)]⟩⟩) (by simp [exPolicy]) (by decide +kernel)
  exact ⟨_, _, h3, by simp, by decide +kernel⟩

/-- C50 (failed stores): a store that failed has a tablet the storage failed to store or load. -/
theorem C50_store_failure {env : DataEnv α} {evs : List (Event α)} {c : DataCache α} (h : History env evs c) {data : List (Metadata × α)}
    {ms : List Metadata} {id : Nat} (hl : .store data ms (some id) ∈ evs) (hr : c.cells.stores.get id = some none) :
    ∃ m ∈ ms, Failed env evs c m.uri := by
  have hinv := history_inv h
  obtain ⟨ks, ⟨data', ms', h1, rfl⟩, k, h2, h3⟩ := hinv.base.core.cells.storeErr id hr
  cases handle_unique hinv.ids.nodup hl h1 rfl rfl
  obtain ⟨m, hm, rfl⟩ := List.mem_map.mp h2
  exact ⟨m, hm, h3⟩

/-- C50 (delivered once): a result never changes, and neither loading nor making progress ever sets a result twice (which would
panic). -/
theorem C50_once {env : DataEnv α} {evs : List (Event α)} {c : DataCache α} (h : History env evs c) :
    (∀ ms, ∃ c', c.load ms = .ok c') ∧
    (∀ policy, ∃ c', c.makeProgress policy = .ok c') ∧
    ∀ c', ((∃ ms, c.load ms = .ok c') ∨ (∃ data ms b, c.store env data = .ok (c', ms, b)) ∨ (∃ r, c.processIn env r = .ok c') ∨
        (∃ policy : AMap String (Entry α) → List String, (∀ es, ∀ k ∈ policy es, ∀ e, AMap.get es k = some e → e.ready = true) ∧
          c.makeProgress policy = .ok c')) →
      (∀ id x, c.cells.loads.get id = some x → c'.cells.loads.get id = some x) ∧
      (∀ id x, c.cells.stores.get id = some x → c'.cells.stores.get id = some x) := by
  have hinv := history_inv h
  refine ⟨load_total h, makeProgress_total h, ?_⟩
  rintro c' (⟨ms, hs⟩ | ⟨data, ms, b, hs⟩ | ⟨r, hs⟩ | ⟨policy, hp, hs⟩)
  · exact (load_ok hinv hs).2.1
  · exact (store_ok hinv hs).2.1
  · rw [(processIn_ok hinv.base hs).2.1]; exact Keeps.refl _
  · exact (makeProgress_ok hinv.base hp hs).2.1

/-- C50 (answered): once progress was made, every load of something has its result, or the storage has not answered the request for one of
its tablets. -/
theorem C50_answered {env : DataEnv α} {evs : List (Event α)} {c c' : DataCache α} {policy : AMap String (Entry α) → List String}
    (h : History env evs c) (hp : ∀ es, ∀ k ∈ policy es, ∀ e, AMap.get es k = some e → e.ready = true)
    (hs : c.makeProgress policy = .ok c') {ms : List Metadata} {id : Nat} {now : Bool} (hl : .load ms id now ∈ evs) (hne : ms ≠ []) :
    (∃ x, c'.cells.loads.get id = some x) ∨ ∃ m ∈ ms, ∃ r, Outstanding (evs ++ [.progress]) c' r ∧ r.uri = m.uri := by
  have hinv := history_inv (History.progress h hp hs)
  have hl' : Event.load ms id now ∈ evs ++ [.progress] := by simp [hl]
  rcases (history_live (History.progress h hp hs)).loads ms id now hl' hne with h1 | ⟨b, l, h1, h2, h3⟩
  · exact .inl (Option.isSome_iff_exists.mp h1)
  · right
    have hB := hinv.base.core.batches id b h1
    obtain ⟨_, ks, now', ⟨ms', x1, rfl⟩, x3, _⟩ := hB.load l h2
    cases handle_unique hinv.ids.nodup hl' x1 rfl rfl
    rw [hB.rem] at h3
    obtain ⟨k, hk⟩ := List.exists_mem_of_length_pos h3
    obtain ⟨r, y1, y2⟩ := progress_answered h hp hs hk
    obtain ⟨m, hm, hu⟩ := List.mem_map.mp (x3.mem_iff.mp (List.mem_append_right _ hk))
    exact ⟨m, hm, r, y1, by rw [y2, hu]⟩

/-- C50 (stores answered): likewise for stores of something. -/
theorem C50_store_answered {env : DataEnv α} {evs : List (Event α)} {c c' : DataCache α} {policy : AMap String (Entry α) → List String}
    (h : History env evs c) (hp : ∀ es, ∀ k ∈ policy es, ∀ e, AMap.get es k = some e → e.ready = true)
    (hs : c.makeProgress policy = .ok c') {data : List (Metadata × α)} {ms : List Metadata} {id : Nat}
    (hl : .store data ms (some id) ∈ evs) (hne : ms ≠ []) :
    (∃ x, c'.cells.stores.get id = some x) ∨ ∃ m ∈ ms, ∃ r, Outstanding (evs ++ [.progress]) c' r ∧ r.uri = m.uri := by
  have hinv := history_inv (History.progress h hp hs)
  have hl' : Event.store data ms (some id) ∈ evs ++ [.progress] := by simp [hl]
  rcases (history_live (History.progress h hp hs)).stores data ms id hl' hne with h1 | ⟨b, h1, h2, h3⟩
  · exact .inl (Option.isSome_iff_exists.mp h1)
  · right
    have hB := hinv.base.core.batches id b h1
    obtain ⟨_, ks, ⟨data', ms', x1, rfl⟩, _, x3⟩ := hB.store h2
    cases handle_unique hinv.ids.nodup hl' x1 rfl rfl
    rw [hB.rem] at h3
    obtain ⟨k, hk⟩ := List.exists_mem_of_length_pos h3
    obtain ⟨r, y1, y2⟩ := progress_answered h hp hs hk
    obtain ⟨m, hm, hu⟩ := List.mem_map.mp (x3 k hk)
    exact ⟨m, hm, r, y1, by rw [y2, hu]⟩

/-- C50 (requests): no two requests to the storage carry the same correlation id, so a response belongs to one request. -/
theorem C50_requests {env : DataEnv α} {evs : List (Event α)} {c : DataCache α} (h : History env evs c) :
    ((requests evs c).map DataOut.corr).Nodup := (history_inv h).reqs.nodup

/-- C51 does not hold: whatever decodable bytes the storage returns for a tablet are handed out with the tablet's metadata; neither hash nor
size are compared. -/
theorem C51_fails (env : DataEnv α) (m : Metadata) (b : Bytes) (v : α) (hd : env.deser b = some v) (corr : Nat) :
    ∃ evs c, History env evs c ∧ evs = [.load [m] 1 false, .response (.load (corr + 1) .succeeded b), .progress] ∧
      c.cells.loads.get 1 = some (some [(m, v)]) := by
  have h0 : History env [] (DataCache.create corr) := .create
  have h1 := h0.load (ms := [m]) (c' := ⟨corr + 1, 1, [(m.uri, ⟨m, .load, [1]⟩)], [(1, ⟨.load [], 1⟩)], [(corr + 1, m.uri)],
    [.load (corr + 1) m.uri], ⟨[], []⟩⟩) (by
      simp [DataCache.load, DataCache.create, DataCache.loadEntries, DataCache.batch, registerAll, addPending, AMap.set, Run.bind])
  have h2 := h1.response (r := .load (corr + 1) .succeeded b) (c' := ⟨corr + 1, 1, [(m.uri, ⟨m, .cache v, [1]⟩)], [(1, ⟨.load [], 1⟩)], [],
    [.load (corr + 1) m.uri], ⟨[], []⟩⟩) (by
      simp [DataCache.processIn, Entry.loadResponse, hd, AMap.set, Run.bind, Run.unwrap, AMap.erase])
  have h3 := h2.progress (policy := fun _ => []) (c' := ⟨corr + 1, 1, [(m.uri, ⟨m, .cache v, []⟩)], [], [],
    [.load (corr + 1) m.uri], ⟨[(1, some [(m, v)])], []⟩⟩) (by simp) (by
      simp [DataCache.makeProgress, notifyEntries, notifyBatches, Entry.ready, resolveEntry, Cells.setLoad, AMap.set, Run.bind, Run.unwrap,
        Entry.failed])
  refine ⟨_, _, h3, ?_, by simp⟩
  simp [firstReady, DataCache.create]

/-- C51, partial: the hash and the size put into the metadata of a tablet are those of the bytes sent to the storage for it, under a uri
formed from the id, the new version and the hash.  Missing: comparing them on loading, see `C51_fails`. -/
theorem C51_written_partial {env : DataEnv α} {c c' : DataCache α} {data : List (Metadata × α)} {ms : List Metadata}
    (hs : c.store env data = .ok (c', ms, true)) : ms.length = data.length ∧ ∀ p ∈ data.zip ms, ∃ b corr,
      env.ser p.1.2 = some b ∧
      p.2 = { p.1.1 with version := p.1.1.version + 1, size := UInt32.ofNat b.length, hash := env.hash b,
                         uri := env.uri p.1.1.tabletId (p.1.1.version + 1) (env.hash b) } ∧
      .store corr p.2.uri b ∈ c'.out := by
  unfold DataCache.store at hs
  obtain ⟨⟨ms0, o⟩, h1, h2⟩ := Run.bind_eq_ok.mp hs
  cases o with
  | none => simp at h2
  | some bs =>
    simp only at h2
    obtain ⟨c1, h3, h4⟩ := Run.bind_eq_ok.mp h2
    obtain ⟨c2, h5, h6⟩ := Run.bind_eq_ok.mp h4
    simp only [Run.ok.injEq, Prod.mk.injEq] at h6
    obtain ⟨rfl, rfl, _⟩ := h6
    refine ⟨(prepareWrites_ok h1).1, fun p hp => ?_⟩
    obtain ⟨b, x1, x2, x3⟩ := prepareWrites_shape h1 p hp
    obtain ⟨corr, hc⟩ := (storeEntries_out _ h3).2 _ x3
    exact ⟨b, corr, x1, x2, by rw [batch_out h5]; exact hc⟩

end TCP.Cache.Props
