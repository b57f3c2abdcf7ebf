import Verif.Props.CacheCluster

/-!
# Two managers on a replicated tablet store

Shows that the hypotheses of C90 can be met.
-/

namespace TCP.Cache.Props

open TCP TCP.Cache TCP.Cache.Spec TCP.TabletStore TCP.TabletStore.Spec Drv DrvSpec DrvExample AppExample

/-- A 32-bit number in four bytes. -/
def u32C : Codec UInt32 := (Codec.byte.pair (Codec.byte.pair (Codec.byte.pair Codec.byte))).map
  (fun x => UInt32.ofNat (x.1.toNat + 256 * (x.2.1.toNat + 256 * (x.2.2.1.toNat + 256 * x.2.2.2.toNat))))
  (fun n => (UInt8.ofNat n.toNat, UInt8.ofNat (n.toNat / 256), UInt8.ofNat (n.toNat / 65536), UInt8.ofNat (n.toNat / 16777216)))
  (fun n => by
    have := n.toNat_lt
    apply UInt32.toNat_inj.mp
    simp only [UInt32.toNat_ofNat', UInt8.toNat_ofNat']
    omega)

def metadataC : Codec Metadata := (u32C.pair (u32C.pair (Codec.bool.pair (Codec.bytes.pair (u32C.pair (Codec.bytes.pair Codec.string)))))).map
  (fun x => ⟨x.1, x.2.1, x.2.2.1, x.2.2.2.1, x.2.2.2.2.1, x.2.2.2.2.2.1, x.2.2.2.2.2.2⟩)
  (fun m => (m.tabletId, m.version, m.deleted, m.key, m.size, m.hash, m.uri)) (fun _ => rfl)

def opC : Codec Op := (((u32C.pair u32C).sum (u32C.pair u32C)).sum ((metadataC.option.sum metadataC.option).sum (u32C.pair u32C))).map
  (fun | .inl (.inl (a, b)) => .list a b | .inl (.inr (a, b)) => .check a b | .inr (.inl (.inl m)) => .add m
       | .inr (.inl (.inr m)) => .update m | .inr (.inr (a, b)) => .remove a b)
  (fun | .list a b => .inl (.inl (a, b)) | .check a b => .inl (.inr (a, b)) | .add m => .inr (.inl (.inl m))
       | .update m => .inr (.inl (.inr m)) | .remove a b => .inr (.inr (a, b)))
  (fun o => by cases o <;> rfl)

def requestC : Codec (List TabletOp) :=
  ((Codec.string.pair opC.option).map (fun x => (⟨x.1, x.2⟩ : TabletOp)) (fun o => (o.table, o.op)) (fun _ => rfl)).list

def statusC : Codec OpStatus := Codec.bool.option.map (fun | none => .invalid | some true => .succeeded | some false => .failed)
  (fun | .invalid => none | .succeeded => some true | .failed => some false) (fun o => by cases o <;> rfl)

def resultC : Codec OpResult := ((u32C.pair (u32C.pair metadataC.list)).sum (metadataC.option.sum metadataC.option)).map
  (fun | .inl (a, b, l) => .list a b l | .inr (.inl m) => .check m | .inr (.inr m) => .update m)
  (fun | .list a b l => .inl (a, b, l) | .check m => .inr (.inl m) | .update m => .inr (.inr m)) (fun o => by cases o <;> rfl)

def responseC : Codec Response := (Codec.bool.pair ((Codec.string.pair (statusC.pair resultC.option)).map
  (fun x => (⟨x.1, x.2.1, x.2.2⟩ : TabletOpResult)) (fun r => (r.table, r.status, r.result)) (fun _ => rfl)).list).map
  (fun x => ⟨x.1, x.2⟩) (fun r => (r.succeeded, r.results)) (fun _ => rfl)

def snapshotC : Codec (List (String × List Metadata)) := (Codec.string.pair metadataC.list).list

/-- The environment of the tablet store. -/
def exFull : TabletStore.Env := { TabletStore.Spec.exEnv with
  encReq := requestC.enc, decReq := requestC.decode, encResp := responseC.enc, encSnap := snapshotC.enc, decSnap := snapshotC.decode }

theorem exFull_encodings : Encodings exFull where
  lawful := ⟨fun r => Codec.decode_enc _ r, fun l => Codec.decode_enc _ l⟩
  response r r' h := by
    have := Codec.decode_enc responseC r
    rw [show responseC.enc r = responseC.enc r' from h, Codec.decode_enc] at this
    exact (Option.some.inj this).symm
  error st := by cases st <;> decide

def exTag (p : Bool) (corr : Nat) : Nat := 2 * corr + if p then 1 else 0

def exSecond : List TabletOp := [⟨"t", some (.update (some ⟨10, 2, false, [], 1, [8], "10_2_CA"⟩))⟩]

/-- What the managers ask for, and what they get. -/
def exTalk : List (Nat × List TabletOp × Response) :=
  [(402, exListOps, ⟨true, [exList [Metadata.new 10, Metadata.new 20]]⟩), (202, [exSeven 10 1 "10_1_Bw"], ⟨true, [⟨"t", .succeeded, some (.update (some (Metadata.new 10)))⟩]⟩),
   (403, exListOps, ⟨true, [exList [exFirst, Metadata.new 20]]⟩), (203, exSecond, ⟨true, [⟨"t", .succeeded, some (.update (some exFirst))⟩]⟩)]

def exAsked : List ActorCommand := exTalk.map fun x => ⟨x.1, [1], exFull.encReq x.2.1⟩
def exAnswered : List ActorCommand := exTalk.map fun x => ⟨x.1, [1], exFull.encResp x.2.2⟩
def exEntries2 : List LogEntry := exTalk.map fun x => ⟨some (1, x.1), exFull.encReq x.2.1⟩

/-- After `n` requests. -/
def served (n : Nat) (a b : AppDrv State) : Bool :=
  decide (a.applied = n + 1 ∧ b.applied ≤ n + 1 ∧ a.trace.filterMap handed = exAsked.take n ∧ b.trace.filterMap handed = [] ∧
    appMessages (outMessages a.trace) = exAnswered.take n ∧ appMessages (outMessages b.trace) = [] ∧
    a.trace.filterMap proposal = (List.range n).map fun i => (logOf exEntries2 (i + 2)).data)

def exAsk (x : Nat × List TabletOp × Response) : Bool × Nat × Option (Option (InMsg Nat)) := (false, 2, request x.1 [1] (exFull.encReq x.2.1))

/-- Two replicas at two moments: the first manager is done; the second one, too, and the second replica has joined. -/
def exMoments (p q : AppDrv State → AppDrv State → Bool) : Bool :=
  match deploy (actor exFull) (logOf exEntries2) [2] (idle ⟨[], 0⟩ []) (idle ⟨[], 0⟩ [], idle ⟨[], 0⟩ [snapBatch (exFull.encSnap [("t", [exFirst, Metadata.new 20])]),
      batch [logOf exEntries2 4, logOf exEntries2 5]]) ((false, 1, start true 1 [2]) :: (exTalk.take 2).map exAsk) with
  | some x => p x.1 x.2 && match deploy (actor exFull) (logOf exEntries2) [2] (idle ⟨[], 0⟩ []) x
      ((exTalk.drop 2).map exAsk ++ [(true, 1, start false 2 [2]), (true, 2, some (some .checkCluster)), (true, 3, none), (true, 4, none)]) with
    | some y => q y.1 y.2
    | none => false
  | none => false

theorem deploy_extends {σ : Type} {A : Actor σ} {log : Nat → Drv.Entry} {cfg : Bytes} {d0 : AppDrv σ} {cs} {ab ab' : AppDrv σ × AppDrv σ}
    (h : deploy A log cfg d0 ab cs = some ab') : ab.1.trace <+: ab'.1.trace ∧ ab.2.trace <+: ab'.2.trace := by
  induction cs generalizing ab with
  | nil => cases h; exact ⟨List.prefix_refl _, List.prefix_refl _⟩
  | cons c cs ih =>
    obtain ⟨second, i, m⟩ := c
    simp only [deploy] at h
    rcases hx : receive (appSys A) i m (two d0 ab (if second then 1 else 0)) with ⟨d, r⟩ | _ <;> rw [hx] at h
    · simp only [] at h
      split at h
      · obtain ⟨h1, h2⟩ := ih h
        obtain ⟨new, hnew, _⟩ := receive_actorInstants hx
        cases second with
        | false =>
          refine ⟨List.IsPrefix.trans ⟨new, ?_⟩ h1, h2⟩
          rw [show (setTwo ab false d).1 = d from rfl, hnew]; rfl
        | true =>
          refine ⟨h1, List.IsPrefix.trans ⟨new, ?_⟩ h2⟩
          rw [show (setTwo ab true d).2 = d from rfl, hnew]; rfl
      · cases h
    · cases h

theorem served_causal {n : Nat} {x : AppDrv State × AppDrv State} {d0 : AppDrv State} (hd : d0.applied = 0) (h : served n x.1 x.2 = true) :
    Causal codecs.decEntry (logOf exEntries2) (two d0 x) := by
  obtain ⟨h1, h2, _, _, _, _, h3⟩ := of_decide_eq_true h
  intro p i ev hi hle _
  have hle : i ≤ n + 1 := by
    unfold two at hle
    split at hle
    · omega
    · split at hle <;> omega
  have hm : (logOf exEntries2 i).data ∈ x.1.trace.filterMap proposal := by
    rw [h3]
    exact List.mem_map.mpr ⟨i - 2, List.mem_range.mpr (by omega), by rw [show i - 2 + 2 = i by omega]⟩
  obtain ⟨e, he, hb⟩ := List.mem_filterMap.1 hm
  match e, he, hb with
  | .propose b, he, hb => cases hb; exact ⟨0, he⟩

theorem exMoments_sound {p q : AppDrv State → AppDrv State → Bool} (h : exMoments p q = true) :
    ∃ d0 x y, d0 = idle ⟨[], 0⟩ [] ∧ Deployed (appSys (actor exFull)) (logOf exEntries2) 0 (·.tables = []) [2] (two d0 x) ∧
      Deployed (appSys (actor exFull)) (logOf exEntries2) 0 (·.tables = []) [2] (two d0 y) ∧ (∀ q, (two d0 x q).trace <+: (two d0 y q).trace) ∧
      p x.1 x.2 = true ∧ q y.1 y.2 = true := by
  unfold exMoments at h
  split at h
  · rename_i x hx
    rw [Bool.and_eq_true] at h
    obtain ⟨h0, h⟩ := h
    split at h
    · rename_i y hy
      have hd : Deployed (appSys (actor exFull)) (logOf exEntries2) 0 (·.tables = []) [2] (two (idle ⟨[], 0⟩ []) x) := deploy_sound hx (.init fun p => by
        unfold two
        split
        · exact ⟨_, _, _, rfl, rfl⟩
        · split <;> exact ⟨_, _, _, rfl, rfl⟩)
      obtain ⟨e1, e2⟩ := deploy_extends hy
      refine ⟨_, x, y, rfl, hd, deploy_sound hy hd, fun q => ?_, h0, h⟩
      unfold two
      split
      · exact e1
      · split
        · exact e2
        · exact List.prefix_refl _
    · cases h
  · cases h

/-- What each manager commits. -/
def exPart (p : Bool) : List TabletOp := if p then exSecond else [exSeven 10 1 "10_1_Bw"]

/-- Each response the manager gets is one of the conversation. -/
def heardB (p : Bool) (l : List (Nat × List TabletOp × Response)) : MEvent Nat → Bool
  | .input (.response corr r) => l.any fun x => decide (x.1 = exTag p corr ∧ x.2.2 = r)
  | _ => true

def saidB (p : Bool) : MEvent Nat → Bool
  | .commit _ sent => decide (sent = [(101, exPart p)])
  | _ => true

theorem heardB_sound {p : Bool} {l : List (Nat × List TabletOp × Response)} {evs : List (MEvent Nat)} (h : evs.all (heardB p l) = true) {corr : Nat} {r : Response}
    (hr : .input (.response corr r) ∈ evs) : ∃ x ∈ l, x.1 = exTag p corr ∧ x.2.2 = r := by
  have := List.all_eq_true.mp h _ hr
  simp only [heardB] at this
  obtain ⟨x, h1, h2⟩ := List.any_eq_true.mp this
  exact ⟨x, h1, of_decide_eq_true h2⟩

theorem saidB_sound {p : Bool} {evs : List (MEvent Nat)} (h : evs.all (saidB p) = true) {i corr : Nat} {ops : List TabletOp}
    (hc : .commit i [(corr, ops)] ∈ evs) : corr = 101 ∧ ops = exPart p := by
  have := of_decide_eq_true (List.all_eq_true.mp h _ hc)
  simpa using this

/-- What C90 asks of one manager. -/
def managerB (p : Bool) (evs : List (MEvent Nat)) (c : Client Bytes Nat Unit) (all : List DataOut) : Bool :=
  rejectedB evs && onceB evs && initOnce evs && (mrequests evs c.m).all (storageB evs all) && evs.all (saidB p) && evs.all (heardB p (if p then exTalk else exTalk.take 2))

/-- Non-vacuity of C90: two managers on two replicas; the first writes tablet 10, which was new; after that the second reads what it wrote, and
writes the tablet again.  The second replica joins by a snapshot. -/
example : Sane exTxnB ∧ exFull.overflowChecks = true ∧ Encodings exFull ∧ (∀ x, codecs.decEntry (codecs.encEntry x) = some x) ∧
    (∀ i, (logOf exEntries2 i).index = i) ∧ ∃ ds0 ds : Nat → AppDrv State, ∃ evs0 evs : Bool → List (MEvent Nat), ∃ c : Bool → Client Bytes Nat Unit,
    Deployed (appSys (actor exFull)) (logOf exEntries2) 0 (·.tables = []) [2] ds ∧ Causal codecs.decEntry (logOf exEntries2) ds ∧
    (ds 0).applied = 5 ∧ Network exFull ds exTag evs ∧ Managers exTxnB [] (fun _ => [("t", 0x40000000)]) evs c ∧ (∀ p, TablesConfigured exFull [2] (evs p)) ∧
    (∃ corr ops a b c1 corr' ops' a' b' c1', Succeeded exTxnB [("t", 0x40000000)] (evs false) (c false) 2 corr ops a b c1 ∧
      Succeeded exTxnB [("t", 0x40000000)] (evs true) (c true) 2 corr' ops' a' b' c1' ∧
      Wrote exTxnB a c1 2 "t" 10 [7] ∧ Read exTxnB a' c1' 2 "t" 10 [7] ∧ exTag false corr ≠ exTag true corr' ∧ Unsent ds0 exTag true corr') ∧
    Deployed (appSys (actor exFull)) (logOf exEntries2) 0 (·.tables = []) [2] ds0 ∧ Causal codecs.decEntry (logOf exEntries2) ds0 ∧
    EarlierMoment exFull ds0 ds exTag evs0 evs ∧ .check 2 (some .succeeded) ∈ evs0 false := by
  have h : serialRunC exTxnB (exMany1 8 [exFirst, Metadata.new 20] [7]) exMany2 (exMany3 exFirst) 8 2 [(.create 7 "t" [5], 10, some [7])] (fun a c1 b corr ops c =>
      serialRunC exTxnB (exMany1 7 [Metadata.new 10, Metadata.new 20] []) exMany2 (exMany3 (Metadata.new 10)) 7 2 [(.create 7 "t" [5], 10, some [])] fun a' c1' b' corr' ops' c' =>
        let evs := a ++ .commit 2 [(corr, ops)] :: b
        let evs' := a' ++ .commit 2 [(corr', ops')] :: b'
        let all := mrequests evs c.m ++ mrequests evs' c'.m
        (managerB true evs c all && managerB false evs' c' all) &&
        (decide (.check 2 (some .succeeded) ∈ b) && decide (ops ≠ []) && differB c1.m.world.md && oneNewB c1.m.world.md) &&
        (decide (.check 2 (some .succeeded) ∈ b') && decide (ops' ≠ []) && differB c1'.m.world.md && oneNewB c1'.m.world.md)) = true := by decide +kernel
  have hm : exMoments (served 2) (fun a b => served 4 a b && decide (b.applied = 5)) = true := by decide +kernel
  obtain ⟨d0, x, y, hd0, hx, hy, hxy, s2, s4⟩ := exMoments_sound hm
  rw [Bool.and_eq_true] at s4
  have s4 := s4.1
  have ca2 := served_causal (d0 := d0) (by rw [hd0]; rfl) s2
  have ca4 := served_causal (d0 := d0) (by rw [hd0]; rfl) s4
  obtain ⟨_, _, t1, t2, t3, _⟩ := of_decide_eq_true s2
  obtain ⟨u0, _, u1, u2, u3, _⟩ := of_decide_eq_true s4
  have hand : ∀ {q m}, m ∈ (two d0 y q).trace.filterMap handed → ∃ z ∈ exTalk, m = ⟨z.1, [1], exFull.encReq z.2.1⟩ := by
    intro q m hm
    unfold two at hm
    split at hm
    · rw [u1] at hm
      obtain ⟨z, h1, h2⟩ := List.mem_map.mp (List.mem_of_mem_take hm)
      exact ⟨z, h1, h2.symm⟩
    · split at hm
      · rw [u2] at hm; cases hm
      · rw [hd0] at hm; cases hm
  have hand0 : ∀ {q m}, m ∈ (two d0 x q).trace.filterMap handed → ∃ z ∈ exTalk.take 2, m = ⟨z.1, [1], exFull.encReq z.2.1⟩ := by
    intro q m hm
    unfold two at hm
    split at hm
    · rw [t1, show exAsked.take 2 = (exTalk.take 2).map fun x => ⟨x.1, [1], exFull.encReq x.2.1⟩ by unfold exAsked; rw [List.map_take]] at hm
      obtain ⟨z, h1, h2⟩ := List.mem_map.mp hm
      exact ⟨z, h1, h2.symm⟩
    · split at hm
      · rw [t2] at hm; cases hm
      · rw [hd0] at hm; cases hm
  have dec : ∀ ops, exFull.decReq (exFull.encReq ops) = some ops := fun ops => Codec.decode_enc _ ops
  obtain ⟨a, c1, b, c, corr, ops, h1, h2, h3, h4⟩ := serialRunC_sound h
  obtain ⟨a', c1', b', c', corr', ops', k1, k2, k3, k4⟩ := serialRunC_sound h4
  simp only [Bool.and_eq_true, managerB] at k4
  obtain ⟨⟨⟨⟨⟨⟨⟨⟨x3, x4⟩, x5⟩, x6⟩, x7⟩, x8⟩, ⟨⟨⟨⟨y3, y4⟩, y5⟩, y6⟩, y7⟩, y8⟩, ⟨⟨m1, m2⟩, m3⟩, m4⟩, ⟨⟨n1, n2⟩, n3⟩, n4⟩ := k4
  have hist : MHistory exTxnB (a ++ .commit 2 [(corr, ops)] :: b) c := by
    obtain ⟨z1, z2, z3, z4, z5⟩ := h1
    exact ⟨z1, z2, z3, z4, z5.append h3⟩
  have hist' : MHistory exTxnB (a' ++ .commit 2 [(corr', ops')] :: b') c' := by
    obtain ⟨z1, z2, z3, z4, z5⟩ := k1
    exact ⟨z1, z2, z3, z4, z5.append k3⟩
  let evs : Bool → List (MEvent Nat) := fun p => if p then a ++ .commit 2 [(corr, ops)] :: b else a' ++ .commit 2 [(corr', ops')] :: b'
  let cs : Bool → Client Bytes Nat Unit := fun p => if p then c else c'
  let evs0 : Bool → List (MEvent Nat) := fun p => if p then [] else a' ++ .commit 2 [(corr', ops')] :: b'
  have all : ∀ {P : Bool → Prop}, P true → P false → ∀ p, P p := fun h1 h2 p => by cases p <;> assumption
  have said : ∀ p, (evs p).all (saidB p) = true := all x7 y7
  obtain ⟨rfl, e1⟩ := saidB_sound x7 (i := 2) (corr := corr) (ops := ops) (by simp)
  obtain ⟨rfl, e2⟩ := saidB_sound y7 (i := 2) (corr := corr') (ops := ops') (by simp)
  have hst : ∀ p corr k b, .load corr k ∈ mrequests (evs p) (cs p).m → .input (.data (.load corr .succeeded b)) ∈ evs p →
      if k = "" then b = [] else ∃ q corr', .store corr' k b ∈ mrequests (evs q) (cs q).m := by
    intro p corr k b g1 g2
    have g3 : storageB (evs p) (mrequests (evs true) (cs true).m ++ mrequests (evs false) (cs false).m) (.load corr k) = true := by
      cases p
      · exact List.all_eq_true.mp y6 _ g1
      · exact List.all_eq_true.mp x6 _ g1
    have g4 := List.all_eq_true.mp g3 _ g2
    simp only [isLoaded, ne_eq, not_true_eq_false, decide_false, Bool.false_or] at g4
    split at g4
    · rename_i he; rw [if_pos he]; exact of_decide_eq_true g4
    · rename_i he
      rw [if_neg he]
      obtain ⟨o, g5, g6⟩ := List.any_eq_true.mp g4
      cases o with
      | load _ _ => simp [isStored] at g6
      | store corr' k' b' =>
        simp only [isStored, decide_eq_true_eq] at g6
        obtain ⟨rfl, rfl⟩ := g6
        rcases List.mem_append.mp g5 with g5 | g5
        · exact ⟨true, corr', g5⟩
        · exact ⟨false, corr', g5⟩
  have heard : ∀ p corr r, .input (.response corr r) ∈ evs p → ∃ q, (⟨exTag p corr, exFull.encOut .response, exFull.encResp r⟩ : ActorCommand) ∈ appMessages (outMessages (two d0 y q).trace) := by
    intro p corr r hr
    obtain ⟨z, h1, h2, h3⟩ : ∃ z ∈ exTalk, z.1 = exTag p corr ∧ z.2.2 = r := by
      cases p
      · obtain ⟨z, h1, h2⟩ := heardB_sound y8 hr
        exact ⟨z, List.mem_of_mem_take h1, h2⟩
      · exact heardB_sound x8 hr
    refine ⟨0, ?_⟩
    rw [show (two d0 y 0) = y.1 from rfl, u3, show exAnswered.take 4 = exTalk.map fun x => ⟨x.1, [1], exFull.encResp x.2.2⟩ from rfl]
    exact List.mem_map.mpr ⟨z, h1, by rw [h2, h3]; rfl⟩
  have net : Network exFull (two d0 y) exTag evs := by
    refine ⟨heard, fun q m hm p i corr ops hc he => ?_, fun q m hm ops ho table u hu => ?_⟩
    · obtain ⟨rfl, rfl⟩ := saidB_sound (said p) hc
      obtain ⟨z, h1, rfl⟩ := hand hm
      have key : ∀ z ∈ exTalk, ∀ p : Bool, z.1 = exTag p 101 → z.2.1 = exPart p := by decide
      rw [dec, key z h1 p he]
    · obtain ⟨z, h1, rfl⟩ := hand hm
      rw [dec] at ho
      have key : ∀ z ∈ exTalk, z.2.1.filterMap updOf = [] ∨ z.2.1 = exPart true ∨ z.2.1 = exPart false := by decide
      cases ho
      rcases key z h1 with g | g | g
      · have : (table, u) ∈ z.2.1.filterMap updOf := List.mem_filterMap.mpr ⟨_, hu, rfl⟩
        rw [g] at this; cases this
      · exact ⟨true, 2, 101, by rw [g, ← e1]; simp [evs]⟩
      · exact ⟨false, 2, 101, by rw [g, ← e2]; simp [evs]⟩
  refine ⟨exTxnB_sane, rfl, exFull_encodings, entryC_lawful, logOf_index _, two d0 x, two d0 y, evs0, evs, cs, hy, ca4, u0, net,
    ⟨rfl, all hist hist', all (initOnce_configured x5) (initOnce_configured y5), all (rejectedB_sound x3) (rejectedB_sound y3), all (onceB_sound x4) (onceB_sound y4), hst,
      fun _ _ _ _ _ _ _ _ _ _ h => h, fun v b h => by cases (show some v = some b from h); rfl⟩, fun p i corr ops hc o ho => ?_,
    ⟨101, ops', a', b', c1', 101, ops, a, b, c1, ⟨rfl, k1, k3, of_decide_eq_true n1, of_decide_eq_true n2, differB_sound n3 _ _, oneNewB_sound n4⟩,
      ⟨rfl, h1, h3, of_decide_eq_true m1, of_decide_eq_true m2, differB_sound m3 _ _, oneNewB_sound m4⟩, ⟨7, (), _, (), [some [7]], 0, _, _, k2, rfl, rfl, rfl, rfl⟩,
      ⟨8, (), _, (), [some [8]], 0, _, h2, rfl, rfl, rfl⟩, by decide, fun q m hm => ?_⟩, hx, ca2, ⟨hxy, all List.nil_prefix (List.prefix_refl _), fun p corr r hr => ?_⟩, ?_⟩
  · obtain ⟨rfl, rfl⟩ := saidB_sound (said p) hc
    refine ⟨_, 2, rfl, ?_⟩
    have key : ∀ p : Bool, ∀ o ∈ exPart p, o.table = "t" := by decide
    rw [key p o ho]
    decide
  · obtain ⟨z, h1, rfl⟩ := hand0 hm
    have key : ∀ z ∈ exTalk.take 2, z.1 ≠ exTag true 101 := by decide
    exact key z h1
  · cases p
    · obtain ⟨z, h1, h2, h3⟩ := heardB_sound y8 hr
      refine ⟨0, ?_⟩
      rw [show (two d0 x 0) = x.1 from rfl, t3, show exAnswered.take 2 = (exTalk.take 2).map fun x => ⟨x.1, [1], exFull.encResp x.2.2⟩ by unfold exAnswered; rw [List.map_take]]
      exact List.mem_map.mpr ⟨z, h1, by rw [h2, h3]; rfl⟩
    · cases hr
  · show _ ∈ a' ++ _ :: b'
    simp [of_decide_eq_true n1]

end TCP.Cache.Props
