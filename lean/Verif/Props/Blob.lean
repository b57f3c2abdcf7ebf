import Verif.Proofs.Blob
import Verif.Props.CacheSerial

/-!
# C86, C87: stored blobs, and writing the same contents again
-/

namespace TCP.Cache.Props
open TCP TCP.TabletStore TCP.Cache.Spec

variable {α η ω : Type}

/-! ## C86 -/

/-- The uri of a blob determines the tablet id, the version and the hash it was formed from. -/
theorem C86_uri {i j v w : UInt32} {x y : Bytes} (h : formatBlobUri i v x = formatBlobUri j w y) : i = j ∧ v = w ∧ x = y := formatBlobUri_inj h

example : formatBlobUri 10 3 [1, 2, 3, 255] = "10_3_AQID_w" := by decide +kernel

/-- Every write names the hash of what it writes: for any managers whatever, with the uris of the code and one hash function, and any
histories of them, two requests to store something under the same uri store contents with the same hash – so, unless the hash function
collides, the same contents. -/
theorem C86_immutable {β θ ψ : Type} {env : TxnEnv α η ω} {env' : TxnEnv β θ ψ} (hu : env.data.uri = formatBlobUri) (hu' : env'.data.uri = formatBlobUri)
    (hh : env'.data.hash = env.data.hash) (hsane : Sane env) (hsane' : Sane env') {evs : List (MEvent η)} {evs' : List (MEvent θ)} {c : Client α η ω}
    {c' : Client β θ ψ} (h : MHistory env evs c) (h' : MHistory env' evs' c') {corr corr' : Nat} {uri : String} {b b' : Bytes}
    (hr : .store corr uri b ∈ mrequests evs c.m) (hr' : .store corr' uri b' ∈ mrequests evs' c'.m) : env.data.hash b = env.data.hash b' := by
  obtain ⟨devs, w⟩ := history_winv hsane h
  obtain ⟨devs', w'⟩ := history_winv hsane' h'
  rw [← requests_lift w.io] at hr
  rw [← requests_lift w'.io] at hr'
  obtain ⟨i, v, h1, _⟩ := (history_blob w.hist).1 _ _ _ hr
  obtain ⟨i', v', h2, _⟩ := (history_blob w'.hist).1 _ _ _ hr'
  rw [hu] at h1
  rw [hu', hh] at h2
  exact (formatBlobUri_inj (h1.symm.trans h2)).2.2

theorem formatBlobUri_ne {i v : UInt32} {x : Bytes} : formatBlobUri i v x ≠ "" := by
  intro h
  have := congrArg String.toList h
  simp [formatBlobUri] at this

/-- With the uris of the code, uris tell the tablets of a manager apart (as C83 and C85 require) if the tablets it was told about were
written by such managers, except for new ones, which have no uri, of which there may be one. -/
theorem C86_differ {env : DataEnv α} (hu : env.uri = formatBlobUri) {md : MetaCache} {id0 v0 : UInt32}
    (h : ∀ id res, md.cells.get id = some res → ∀ m ∈ res.map Prod.snd, Named env m ∨ (m.uri = "" ∧ m.tabletId = id0 ∧ m.version = v0)) :
    UrisDiffer env md := by
  have key : ∀ m, KnownMeta env md m → Named env m ∨ (m.uri = "" ∧ m.tabletId = id0 ∧ m.version = v0) := by
    rintro m (⟨id, res, h1, h2⟩ | h1)
    · exact h id res h1 m h2
    · exact .inl h1
  intro m m' hm hm' he
  rcases key m hm with h1 | ⟨h1, h2, h3⟩ <;> rcases key m' hm' with k1 | ⟨k1, k2, k3⟩
  · unfold Named at h1 k1
    rw [hu] at h1 k1
    have := formatBlobUri_inj (h1.symm.trans (he.trans k1))
    exact ⟨this.1, this.2.1⟩
  · unfold Named at h1
    rw [he, k1, hu] at h1
    exact absurd h1.symm formatBlobUri_ne
  · unfold Named at k1
    rw [← he, h1, hu] at k1
    exact absurd k1.symm formatBlobUri_ne
  · exact ⟨h2.trans k2.symm, h3.trans k3.symm⟩

/-! ### A concrete manager with the uris of the code -/

/-- As `exTxn`, with the uris of the code; the hash is the identity. -/
def exTxnB : TxnEnv Bytes Nat Unit := { exTxn with data := codeEnv some some id }

theorem exTxnB_sane : Sane exTxnB := by intro es k hk; simp [exTxnB, exTxn, exPolicy] at hk

def holdsB (cmds : List (Cmd Nat)) (p : Client Bytes Nat Unit → List (MEvent Nat) → Bool) : Bool :=
  match execAll exTxnB exManager cmds with
  | .ok (c, evs) => p c evs
  | .panic => false

theorem holdsB_history {cmds : List (Cmd Nat)} {p : Client Bytes Nat Unit → List (MEvent Nat) → Bool} (h : holdsB cmds p = true) :
    ∃ evs c, MHistory exTxnB evs c ∧ p c evs = true := by
  unfold holdsB at h
  split at h
  · rename_i c evs he
    exact ⟨evs, c, ⟨_, _, _, _, execAll_sound he⟩, h⟩
  · cases h

/-- One transaction runs handler 7 on tablet 10, which writes it. -/
def exWrite : List (Cmd Nat) := [.init [("t", 0x40000000)], .start, .process 2 [exQuery [5]] 7, .progress, .progress, .take,
  .input (.response 201 ⟨true, [exList [exMeta 10 "x", exMeta 20 "y"]]⟩), .progress, .take, .input (.data (.load 301 .succeeded [1])), .progress, .take]

/-- Non-vacuity of C86: two managers write the same uri. -/
example : ∃ evs c, MHistory exTxnB evs c ∧ .store 302 "10_1_Bw" [7] ∈ mrequests evs c.m := by
  have h : holdsB exWrite (fun c evs => decide (.store 302 "10_1_Bw" [7] ∈ mrequests evs c.m)) = true := by decide +kernel
  obtain ⟨evs, c, h1, h2⟩ := holdsB_history h
  exact ⟨evs, c, h1, of_decide_eq_true h2⟩

/-- Nobody gives up, and nothing fails. -/
def calmB : MEvent Nat → Bool
  | .abort _ => false
  | .input (.error _) => false
  | .input (.data (.store _ .failed)) => false
  | _ => true

theorem calmB_sound {e : MEvent Nat} (h : calmB e = true) (i j : Nat) :
    e ≠ .abort i ∧ e ≠ .abort j ∧ ∀ corr, e ≠ .input (.error corr) ∧ e ≠ .input (.data (.store corr .failed)) := by
  refine ⟨fun he => ?_, fun he => ?_, fun corr => ⟨fun he => ?_, fun he => ?_⟩⟩ <;> subst he <;> simp [calmB] at h

def panics (c : Client Bytes Nat Unit) : Bool := match c.m.makeProgress exTxnB with
  | .panic => true
  | .ok _ => false

theorem panics_sound {c : Client Bytes Nat Unit} (h : panics c = true) : c.m.makeProgress exTxnB = .panic := by
  unfold panics at h
  cases hp : c.m.makeProgress exTxnB with
  | panic => rfl
  | ok _ => rw [hp] at h; cases h

/-! ## C87 -/

/-- C87 fails as stated, in every history: with the default eviction policy, once contents have been written for a tablet, and no write has
failed, writing the same contents for the same tablet and version again – alone or together with other tablets – crashes the cache. -/
theorem C87_again_fails {env : DataEnv α} {evs : List (Event α)} {c : DataCache α} (h : DHistory env evs c)
    (hf : ∀ corr, .response (.store corr .failed) ∉ evs) {data : List (Metadata × α)} {ms : List Metadata} {id : Nat}
    (hm : .store data ms (some id) ∈ evs) {p : Metadata × α} (hp : p ∈ data) {data' : List (Metadata × α)} (hp' : p ∈ data')
    (hs : ∀ q ∈ data', (env.ser q.2).isSome) : c.store env data' = .panic := by
  obtain ⟨bs, hb⟩ := Option.isSome_iff_exists.mp (hs p hp')
  have hk : newUri env p = some (env.uri p.1.tabletId (p.1.version + 1) (env.hash bs)) := by simp [newUri, hb]
  have hreq := written_requested h.history hm hp hb
  obtain ⟨corr, hr⟩ := hreq
  refine store_again hs hp' hk ?_
  rcases default_keeps h hr (hf corr) with ⟨v, h1⟩ | ⟨v, h1, _⟩ <;>
  · unfold stateOf at h1
    cases hg : c.entries.get (env.uri p.1.tabletId (p.1.version + 1) (env.hash bs)) with
    | none => simp [hg] at h1
    | some _ => rfl

/-- A cache that has written tablet 10 and heard from the storage, as C87_again_fails requires. -/
def exAgain : DataCache Bytes := match (DataCache.create 300).store (codeEnv some some id) [(exMeta 10 "x", [7])] with
  | .ok (c, _, _) => c
  | .panic => .create 0

example : ∃ ms c, DHistory (codeEnv some some id) [.store [(exMeta 10 "x", [7])] ms (some 1), .response (.store 301 .succeeded)] c := by
  have h1 : (DataCache.create 300).store (codeEnv some some id) [(exMeta 10 "x", [7])] = .ok (exAgain, [⟨10, 1, false, [], 1, [7], "10_1_Bw"⟩], true) := by
    decide +kernel
  have h2 : (match exAgain.processIn (codeEnv some some id) (.store 301 .succeeded) with | .ok _ => true | .panic => false) = true := by decide +kernel
  have h3 : exAgain.batchCounter = 1 := by decide +kernel
  cases h4 : exAgain.processIn (codeEnv some some id) (.store 301 .succeeded) with
  | panic => rw [h4] at h2; cases h2
  | ok c =>
    have := (DHistory.create (env := codeEnv some some id)).store h1
    simp only [if_true, h3, List.nil_append] at this
    exact ⟨_, c, this.response h4⟩

/-- C87 fails as stated for clients: two transactions in progress that write the same contents to the same tablet crash the manager, though
the storage and the tablet store have answered everything as they should. -/
theorem C87_concurrent_fails : ∃ evs c, MHistory exTxnB evs c ∧ .process 2 [exQuery [5]] 7 ∈ evs ∧ .process 3 [exQuery [5]] 7 ∈ evs ∧
    (∀ e ∈ evs, e ≠ .abort 2 ∧ e ≠ .abort 3 ∧ ∀ corr, e ≠ .input (.error corr) ∧ e ≠ .input (.data (.store corr .failed))) ∧ c.m.makeProgress exTxnB = .panic := by
  have h : holdsB [.init [("t", 0x40000000)], .start, .start, .process 2 [exQuery [5]] 7, .process 3 [exQuery [5]] 7, .progress, .progress, .take,
      .input (.response 201 ⟨true, [exList [exMeta 10 "x", exMeta 20 "y"]]⟩), .progress, .take, .input (.data (.load 301 .succeeded [1]))]
      (fun c evs => decide (.process 2 [exQuery [5]] 7 ∈ evs) && decide (.process 3 [exQuery [5]] 7 ∈ evs) && evs.all calmB && panics c) = true := by decide +kernel
  obtain ⟨evs, c, h1, h2⟩ := holdsB_history h
  simp only [Bool.and_eq_true] at h2
  obtain ⟨⟨⟨h3, h4⟩, h5⟩, h6⟩ := h2
  exact ⟨evs, c, h1, of_decide_eq_true h3, of_decide_eq_true h4, fun e he => calmB_sound (List.all_eq_true.mp h5 e he) 2 3, panics_sound h6⟩

/-- A transaction that writes tablets 10 and 20 is refused, because another client has written 20.  It is run again as number 3, and as 4. -/
def exRetry : List (Cmd Nat) := [.init [("t", 0x40000000)], .start, .process 2 [exQuery [5, 12, 14]] 7, .progress, .progress, .take,
  .input (.response 201 ⟨true, [exList [exOther 10 1 "x", exOther 20 1 "y"]]⟩), .progress, .take,
  .input (.data (.load 301 .succeeded [1])), .input (.data (.load 302 .succeeded [2])), .progress, .take, .input (.data (.store 303 .succeeded)),
  .input (.data (.store 304 .succeeded)), .progress, .commit 2, .take,
  .input (.response 101 ⟨false, [⟨"t", .succeeded, some (.update (some (exOther 10 1 "x")))⟩, ⟨"t", .failed, some (.update (some (exOther 20 2 "z")))⟩]⟩), .check 2,
  .start, .process 3 [exQuery [5, 12, 14]] 7, .progress, .progress, .take,
  .input (.response 202 ⟨true, [exList [exOther 10 1 "x", exOther 20 2 "z"]]⟩), .progress, .take,
  .input (.data (.load 305 .succeeded [3])), .progress, .take, .input (.data (.store 306 .succeeded)), .input (.data (.store 307 .succeeded)), .progress, .commit 3, .take,
  .input (.response 102 ⟨false, [⟨"t", .failed, some (.update (some (exOther 10 1 "x")))⟩, ⟨"t", .succeeded, some (.update (some (exOther 20 2 "z")))⟩]⟩), .check 3,
  .start, .process 4 [exQuery [5, 12, 14]] 7, .progress, .progress, .take,
  .input (.response 203 ⟨true, [exList [exOther 10 1 "x", exOther 20 2 "z"]]⟩), .progress, .take]

/-- Metadata of what handler 7 writes. -/
def exSeven (i v : UInt32) (u : String) : TabletOp := ⟨"t", some (.update (some ⟨i, v, false, [], 1, [7], u⟩))⟩

def exRetryOps2 : List TabletOp := [exSeven 10 2 "10_2_Bw", exSeven 20 2 "20_2_Bw"]
def exRetryOps3 : List TabletOp := [exSeven 10 3 "10_3_Bw", exSeven 20 3 "20_3_Bw"]
def exRetryReqs : List (List TabletOp) := [[exOtherUpd 10 1 "x", exOtherUpd 20 1 "y"], exListOps, [exOtherUpd 20 2 "z"], exRetryOps2]
def exRetryMore : List (List TabletOp) := [exListOps, exRetryOps3, exListOps]

/-- C87 fails as stated for retries.  A transaction is refused by the tablet store because another client was faster.  Nobody else writes
anything from then on, and the storage confirms every write; yet the transaction is refused again when it is repeated, and when it is
repeated once more the manager crashes.  (The manager goes on with the versions of the refused transaction, see C85.) -/
theorem C87_retry_fails : ∃ evs c log more t t', MHistory exTxnB evs c ∧
    Log TabletStore.Spec.exEnv TabletStore.exS1.tables log t ∧ Log TabletStore.Spec.exEnv t more t' ∧ FromLog evs (log ++ more) ∧
    log.getLast?.map Prod.fst = some exRetryOps2 ∧ .commit 2 [(101, exRetryOps2)] ∈ evs ∧ .check 2 (some .failed) ∈ evs ∧
    more.map Prod.fst = [exListOps, exRetryOps3, exListOps] ∧ .commit 3 [(102, exRetryOps3)] ∈ evs ∧ .check 3 (some .failed) ∈ evs ∧
    .process 4 [exQuery [5, 12, 14]] 7 ∈ evs ∧ c.m.makeProgress exTxnB = .panic := by
  have hl : (match runLog TabletStore.Spec.exEnv TabletStore.exS1.tables exRetryReqs with
      | .ok (log, t) => match runLog TabletStore.Spec.exEnv t exRetryMore with
        | .ok (more, t') => holdsB exRetry (fun c evs => fromLogB evs (log ++ more) && decide (.commit 2 [(101, exRetryOps2)] ∈ evs ∧ .check 2 (some .failed) ∈ evs ∧
            .commit 3 [(102, exRetryOps3)] ∈ evs ∧ .check 3 (some .failed) ∈ evs ∧ .process 4 [exQuery [5, 12, 14]] 7 ∈ evs) && panics c) &&
            decide (log.getLast?.map Prod.fst = some exRetryOps2 ∧ more.map Prod.fst = [exListOps, exRetryOps3, exListOps])
        | .panic => false
      | .panic => false) = true := by decide +kernel
  split at hl
  · rename_i log t h1
    split at hl
    · rename_i more t' h2
      rw [Bool.and_eq_true] at hl
      obtain ⟨evs, c, h3, h4⟩ := holdsB_history hl.1
      simp only [Bool.and_eq_true, decide_eq_true_eq] at h4
      obtain ⟨⟨h5, h6, h7, h8, h9, h10⟩, h11⟩ := h4
      obtain ⟨h12, h13⟩ := of_decide_eq_true hl.2
      exact ⟨evs, c, log, more, t, t', h3, by simpa using runLog_sound .nil h1, by simpa using runLog_sound .nil h2, fromLogB_sound h5, h12, h6, h7, h13, h8, h9, h10,
        panics_sound h11⟩
    · cases hl
  · cases hl

/-- What holds of C87: contents whose uris the cache has never asked for are written without a crash, whatever happened before. -/
theorem C87_new_partial {env : DataEnv α} {evs : List (Event α)} {c : DataCache α} (h : History env evs c) {data : List (Metadata × α)}
    (hs : ∀ p ∈ data, (env.ser p.2).isSome ∧ p.1.version ≠ 0xffffffff) (hn : (data.map (newUri env)).Nodup)
    (hr : ∀ r ∈ requests evs c, ∀ p ∈ data, newUri env p ≠ some r.uri) : ∃ c' ms, c.store env data = .ok (c', ms, true) := by
  refine store_new hs hn (fun p hp k hk => ?_)
  cases hg : c.entries.get k with
  | none => rfl
  | some e =>
    obtain ⟨r, h1, h2⟩ := (history_blob h).2 k (by simp [stateOf, hg])
    exact absurd (by rw [h2]; exact hk) (hr r h1 p hp)

end TCP.Cache.Props
