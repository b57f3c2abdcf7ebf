import Verif.Props.CacheNumbers
import Verif.Props.CacheClusterExample

/-!
# Two key-value stores on a replicated tablet store

Shows that the hypotheses of C103 and `C105_network` can be met.
-/

namespace TCP.Cache.Props

open TCP TCP.Cache TCP.Cache.Spec TCP.TabletStore TCP.TabletStore.Spec Drv DrvSpec DrvExample AppExample

/-- A hash that tells the contents of this example apart. -/
def kvData : DataEnv Bytes := codeEnv some some fun b => [UInt8.ofNat b.length]

def kvFirst : Metadata := ⟨10, 1, false, [], 8, [8], "10_1_CA"⟩
def kvSecond : Metadata := ⟨10, 2, false, [], 16, [16], "10_2_EA"⟩

def kvCmds1 : List KCmd := mapCmds [.put 7 "a" [9]] [Metadata.new 10, Metadata.new 20] [] (Metadata.new 10)
def kvCmds2 : List KCmd := mapCmds [.get 8 "a", .put 9 "b" [3]] [kvFirst, Metadata.new 20] [1, 0, 0, 97, 0, 1, 9, 0] kvFirst

def kvLog : List (List TabletOp) := [exListOps, [⟨"t", some (.update (some kvFirst))⟩], exListOps, [⟨"t", some (.update (some kvSecond))⟩]]

def kvRun (cmds : List KCmd) : Run (Sys × List KEvent) := kexecAll mapKv (txnEnv mapKv kvData exPolicy) mapSys cmds

/-- The hash does not collide on what was stored. -/
def kvHashB (l : List DataOut) : Bool := l.all fun x => l.all fun y => match x, y with
  | .store _ _ b, .store _ _ b' => decide (kvData.hash b = kvData.hash b' → b = b')
  | _, _ => true

theorem kvHashB_sound {l : List DataOut} (h : kvHashB l = true) {corr corr' : Nat} {k k' : String} {b b' : Bytes} (h1 : .store corr k b ∈ l) (h2 : .store corr' k' b' ∈ l)
    (he : kvData.hash b = kvData.hash b') : b = b' :=
  of_decide_eq_true (List.all_eq_true.mp (List.all_eq_true.mp h _ h1) _ h2) he

/-- The requests of each store. -/
def kvReqs (p : Bool) : List (Nat × List TabletOp) := [(201, exListOps), (101, [⟨"t", some (.update (some (if p then kvSecond else kvFirst)))⟩])]

/-- What the stores ask for, and what they get. -/
def kvTalk : List (Nat × List TabletOp × Response) :=
  [(402, exListOps, ⟨true, [exList [Metadata.new 10, Metadata.new 20]]⟩),
   (202, [⟨"t", some (.update (some kvFirst))⟩], ⟨true, [⟨"t", .succeeded, some (.update (some (Metadata.new 10)))⟩]⟩),
   (403, exListOps, ⟨true, [exList [kvFirst, Metadata.new 20]]⟩),
   (203, [⟨"t", some (.update (some kvSecond))⟩], ⟨true, [⟨"t", .succeeded, some (.update (some kvFirst))⟩]⟩)]

def kvAsked : List ActorCommand := kvTalk.map fun x => ⟨x.1, [1], exFull.encReq x.2.1⟩
def kvAnswered : List ActorCommand := kvTalk.map fun x => ⟨x.1, [1], exFull.encResp x.2.2⟩
def kvEntries : List LogEntry := kvTalk.map fun x => ⟨some (1, x.1), exFull.encReq x.2.1⟩

/-- After `n` requests. -/
def kvServed (n : Nat) (a b : AppDrv State) : Bool :=
  decide (a.applied = n + 1 ∧ b.applied ≤ n + 1 ∧ a.trace.filterMap handed = kvAsked.take n ∧ b.trace.filterMap handed = [] ∧
    appMessages (outMessages a.trace) = kvAnswered.take n ∧ appMessages (outMessages b.trace) = [] ∧
    a.trace.filterMap proposal = (List.range n).map fun i => (logOf kvEntries (i + 2)).data)

/-- Two replicas at two moments: the first store is done; the second one, too, and the second replica has joined. -/
def kvMoments (p q : AppDrv State → AppDrv State → Bool) : Bool :=
  match deploy (actor exFull) (logOf kvEntries) [2] (idle ⟨[], 0⟩ []) (idle ⟨[], 0⟩ [], idle ⟨[], 0⟩ [snapBatch (exFull.encSnap [("t", [kvFirst, Metadata.new 20])]),
      batch [logOf kvEntries 4, logOf kvEntries 5]]) ((false, 1, start true 1 [2]) :: (kvTalk.take 2).map exAsk) with
  | some x => p x.1 x.2 && match deploy (actor exFull) (logOf kvEntries) [2] (idle ⟨[], 0⟩ []) x
      ((kvTalk.drop 2).map exAsk ++ [(true, 1, start false 2 [2]), (true, 2, some (some .checkCluster)), (true, 3, none), (true, 4, none)]) with
    | some y => q y.1 y.2
    | none => false
  | none => false

theorem kvServed_causal {n : Nat} {x : AppDrv State × AppDrv State} {d0 : AppDrv State} (hd : d0.applied = 0) (h : kvServed n x.1 x.2 = true) :
    Causal codecs.decEntry (logOf kvEntries) (two d0 x) := by
  obtain ⟨h1, h2, _, _, _, _, h3⟩ := of_decide_eq_true h
  intro p i ev hi hle _
  have hle : i ≤ n + 1 := by
    unfold two at hle
    split at hle
    · omega
    · split at hle <;> omega
  have hm : (logOf kvEntries i).data ∈ x.1.trace.filterMap proposal := by
    rw [h3]
    exact List.mem_map.mpr ⟨i - 2, List.mem_range.mpr (by omega), by rw [show i - 2 + 2 = i by omega]⟩
  obtain ⟨e, he, hb⟩ := List.mem_filterMap.1 hm
  match e, he, hb with
  | .propose b, he, hb => cases hb; exact ⟨0, he⟩

theorem kvMoments_sound {p q : AppDrv State → AppDrv State → Bool} (h : kvMoments p q = true) :
    ∃ d0 x y, d0 = idle ⟨[], 0⟩ [] ∧ Deployed (appSys (actor exFull)) (logOf kvEntries) 0 (·.tables = []) [2] (two d0 x) ∧
      Deployed (appSys (actor exFull)) (logOf kvEntries) 0 (·.tables = []) [2] (two d0 y) ∧ (∀ q, (two d0 x q).trace <+: (two d0 y q).trace) ∧
      p x.1 x.2 = true ∧ q y.1 y.2 = true := by
  unfold kvMoments at h
  split at h
  · rename_i x hx
    rw [Bool.and_eq_true] at h
    obtain ⟨h0, h⟩ := h
    split at h
    · rename_i y hy
      have hd : Deployed (appSys (actor exFull)) (logOf kvEntries) 0 (·.tables = []) [2] (two (idle ⟨[], 0⟩ []) x) := deploy_sound hx (.init fun p => by
        unfold two
        split
        · exact ⟨_, _, _, rfl, rfl⟩
        · split <;> exact ⟨_, _, _, rfl, rfl⟩)
      obtain ⟨e1, e2⟩ := deploy_extends hy
      refine ⟨_, x, y, rfl, hd, deploy_sound hy hd, fun q => ?_, h0, h⟩
      unfold two
      split
      · exact e1
      · split
        · exact e2
        · exact List.prefix_refl _
    · cases h
  · cases h

/-- Each response the store gets is one of the conversation. -/
def kvHeardB (p : Bool) (l : List (Nat × List TabletOp × Response)) : KEvent → Bool
  | .input (.response corr r) => l.any fun x => decide (x.1 = exTag p corr ∧ x.2.2 = r)
  | _ => true

theorem kvHeardB_sound {p : Bool} {l : List (Nat × List TabletOp × Response)} {evs : List KEvent} (h : evs.all (kvHeardB p l) = true) {corr : Nat} {r : Response}
    (hr : .input (.response corr r) ∈ evs) : ∃ x ∈ l, x.1 = exTag p corr ∧ x.2.2 = r := by
  have := List.all_eq_true.mp h _ hr
  simp only [kvHeardB] at this
  obtain ⟨x, h1, h2⟩ := List.any_eq_true.mp this
  exact ⟨x, h1, of_decide_eq_true h2⟩

/-- The requests of the store are these, and all have been sent. -/
def kvSaidB (p : Bool) (evs : List KEvent) (s : Sys) : Bool := decide (krequests evs s = kvReqs p ∧ s.coord.out ++ s.world.md.out = [])

theorem kvSaidB_sound {p : Bool} {evs : List KEvent} {s : Sys} (h : kvSaidB p evs s = true) :
    krequests evs s = kvReqs p ∧ ∀ corr ops, (corr, ops) ∈ kvReqs p → Sent evs corr ops := by
  obtain ⟨h1, h2⟩ := of_decide_eq_true h
  refine ⟨h1, fun corr ops hm => ?_⟩
  rw [← h1] at hm
  unfold krequests at hm
  rw [h2, List.append_nil] at hm
  obtain ⟨e, h3, h4⟩ := List.mem_flatMap.mp hm
  cases e <;> simp only [List.not_mem_nil] at h4
  rename_i outs
  obtain ⟨o, h5, h6⟩ := List.mem_filterMap.mp h4
  cases o <;> simp only [Option.some.injEq, Prod.mk.injEq, reduceCtorEq] at h6
  obtain ⟨rfl, rfl⟩ := h6
  exact ⟨outs, h3, h5⟩

theorem kvTalk_asked {z : Nat × List TabletOp × Response} (h : z ∈ kvTalk) {p : Bool} {corr : Nat} (he : z.1 = exTag p corr) : (corr, z.2.1) ∈ kvReqs p := by
  simp only [kvTalk, List.mem_cons, List.not_mem_nil, or_false] at h
  rcases h with rfl | rfl | rfl | rfl <;> cases p <;> simp only [exTag] at he <;> first
    | omega
    | (have : corr = 201 := by simp at he; omega
       subst this; simp [kvReqs]; done)
    | (have : corr = 101 := by simp at he; omega
       subst this; simp [kvReqs]; done)
    | (simp at he; omega)

theorem kvTxn_sane : Sane (txnEnv mapKv kvData exPolicy) := by intro es k hk; simp [txnEnv, exPolicy] at hk

/-- Non-vacuity of C103: two stores on two replicas; the first puts key `a`; after that the second gets what the first put, and puts key `b`.  The second
replica joins by a snapshot. -/
example : Sane (txnEnv mapKv kvData exPolicy) ∧ exFull.overflowChecks = true ∧ Encodings exFull ∧ (∀ x, codecs.decEntry (codecs.encEntry x) = some x) ∧
    (∀ i, (logOf kvEntries i).index = i) ∧ ∃ ds0 ds : Nat → AppDrv State, ∃ evs0 evs : Bool → List KEvent, ∃ s : Bool → Sys,
    Deployed (appSys (actor exFull)) (logOf kvEntries) 0 (·.tables = []) [2] ds ∧ Causal codecs.decEntry (logOf kvEntries) ds ∧
    (ds 0).applied = 5 ∧ (∀ p, RoomFor mapKv kvData exPolicy (evs p) (s p)) ∧ KvWire exFull ds exTag evs ∧ KvNetwork exFull ds exTag evs s ∧ KvStores mapKv kvData exPolicy [] (fun _ => [("t", 0x40000000)]) evs s ∧ KvSpared evs s ∧
    (∀ p, KvTables exFull [2] (krequests (evs p) (s p))) ∧
    Deployed (appSys (actor exFull)) (logOf kvEntries) 0 (·.tables = []) [2] ds0 ∧ Causal codecs.decEntry (logOf kvEntries) ds0 ∧ KvEarlier exFull ds0 ds exTag evs0 evs ∧
    ∃ k1 k1', Responds (evs false) k1 (.put 7 false) ∧ Responds (evs true) k1' (.get 8 true [9]) ∧ k1.length < (evs0 false).length ∧
      ∀ q, reqSig q = (false, 8) → .accept q ∉ evs0 true := by
  have h : (match runLog TabletStore.Spec.exEnv TabletStore.exS1.tables kvLog with
    | .ok (log, _) => match kvRun kvCmds1 with
      | .ok (s1, evs1) => match kvRun kvCmds2 with
        | .ok (s2, evs2) =>
          let all := kblobs evs1 s1 ++ kblobs evs2 s2
          kLocalB TabletStore.exS1.tables log evs1 s1 all && kLocalB TabletStore.exS1.tables log evs2 s2 all && (evs1 ++ evs2).all kAckedB && kvHashB all &&
          (kvSaidB false evs1 s1 && kvSaidB true evs2 s2 && evs1.all (kvHeardB false (kvTalk.take 2)) && evs2.all (kvHeardB true kvTalk)) &&
          (decide ((kvRequestIds evs1 s1).length ≤ 100 ∧ (kvRequestIds evs2 s2).length ≤ 100) && decide (evs1 = evs1.dropLast ++ .responses [.put 7 false] :: []) && decide (evs2 = evs2.dropLast ++ .responses [.get 8 true [9], .put 9 false] :: []))
        | .panic => false
      | .panic => false
    | .panic => false) = true := by decide +kernel
  have hm : kvMoments (kvServed 2) (fun a b => kvServed 4 a b && decide (b.applied = 5)) = true := by decide +kernel
  obtain ⟨d0, x, y, hd0, hx, hy, hxy, s2, s4⟩ := kvMoments_sound hm
  rw [Bool.and_eq_true] at s4
  have s4 := s4.1
  have ca2 := kvServed_causal (d0 := d0) (by rw [hd0]; rfl) s2
  have ca4 := kvServed_causal (d0 := d0) (by rw [hd0]; rfl) s4
  obtain ⟨_, _, t1, t2, t3, _⟩ := of_decide_eq_true s2
  obtain ⟨u0, _, u1, u2, u3, _⟩ := of_decide_eq_true s4
  have hand : ∀ {q m}, m ∈ (two d0 y q).trace.filterMap handed → ∃ z ∈ kvTalk, m = ⟨z.1, [1], exFull.encReq z.2.1⟩ := by
    intro q m hm
    unfold two at hm
    split at hm
    · rw [u1] at hm
      obtain ⟨z, h1, h2⟩ := List.mem_map.mp (List.mem_of_mem_take hm)
      exact ⟨z, h1, h2.symm⟩
    · split at hm
      · rw [u2] at hm; cases hm
      · rw [hd0] at hm; cases hm
  have hand0 : ∀ {q m}, m ∈ (two d0 x q).trace.filterMap handed → ∃ z ∈ kvTalk.take 2, m = ⟨z.1, [1], exFull.encReq z.2.1⟩ := by
    intro q m hm
    unfold two at hm
    split at hm
    · rw [t1, show kvAsked.take 2 = (kvTalk.take 2).map fun x => ⟨x.1, [1], exFull.encReq x.2.1⟩ by unfold kvAsked; rw [List.map_take]] at hm
      obtain ⟨z, h1, h2⟩ := List.mem_map.mp hm
      exact ⟨z, h1, h2.symm⟩
    · split at hm
      · rw [t2] at hm; cases hm
      · rw [hd0] at hm; cases hm
  have dec : ∀ ops, exFull.decReq (exFull.encReq ops) = some ops := fun ops => Codec.decode_enc _ ops
  split at h
  · rename_i log t _
    split at h
    · rename_i sys1 evs1 he1
      split at h
      · rename_i sys2 evs2 he2
        simp only [Bool.and_eq_true] at h
        obtain ⟨⟨⟨⟨⟨l1, l2⟩, l0⟩, l7⟩, ⟨⟨b1, b2⟩, b3⟩, b4⟩, ⟨l8, l5⟩, l6⟩ := h
        have l1 := kLocalB_sound l1
        have l2 := kLocalB_sound l2
        have l5 := of_decide_eq_true l5
        have l6 := of_decide_eq_true l6
        let evs : Bool → List KEvent := fun p => if p then evs2 else evs1
        let ss : Bool → Sys := fun p => if p then sys2 else sys1
        let evs0 : Bool → List KEvent := fun p => if p then [] else evs1
        have all : ∀ {P : Bool → Prop}, P true → P false → ∀ p, P p := fun h1 h2 p => by cases p <;> assumption
        have hloc : ∀ p, KLocal TabletStore.exS1.tables log (evs p) (ss p) (kblobs evs1 sys1 ++ kblobs evs2 sys2) := all l2 l1
        have hack : ∀ p corr r, .input (.response corr r) ∈ evs p → r.succeeded = true := fun p corr r h =>
          List.all_eq_true.mp l0 (.input (.response corr r)) (by
            cases p
            · exact List.mem_append_left _ h
            · exact List.mem_append_right _ h)
        have hblob : ∀ p, ∀ o ∈ kblobs (evs p) (ss p), o ∈ kblobs evs1 sys1 ++ kblobs evs2 sys2 := fun p o h => by
          cases p
          · exact List.mem_append_left _ h
          · exact List.mem_append_right _ h
        have said : ∀ p, krequests (evs p) (ss p) = kvReqs p ∧ ∀ corr ops, (corr, ops) ∈ kvReqs p → Sent (evs p) corr ops := all (kvSaidB_sound b2) (kvSaidB_sound b1)
        have heard : ∀ p corr r, .input (.response corr r) ∈ evs p →
            ∃ q, (⟨exTag p corr, exFull.encOut .response, exFull.encResp r⟩ : ActorCommand) ∈ appMessages (outMessages (two d0 y q).trace) := by
          intro p corr r hr
          obtain ⟨z, h1, h2, h3⟩ : ∃ z ∈ kvTalk, z.1 = exTag p corr ∧ z.2.2 = r := by
            cases p
            · obtain ⟨z, h1, h2⟩ := kvHeardB_sound b3 hr
              exact ⟨z, List.mem_of_mem_take h1, h2⟩
            · exact kvHeardB_sound b4 hr
          refine ⟨0, ?_⟩
          rw [show (two d0 y 0) = y.1 from rfl, u3, show kvAnswered.take 4 = kvTalk.map fun x => ⟨x.1, [1], exFull.encResp x.2.2⟩ from rfl]
          exact List.mem_map.mpr ⟨z, h1, by rw [h2, h3]; rfl⟩
        have l8 := of_decide_eq_true l8
        have room : ∀ p, RoomFor mapKv kvData exPolicy (evs p) (ss p) := by
          have apart : Apart 100 100 200 ∧ Apart 100 100 300 ∧ Apart 100 200 300 := by unfold Apart; omega
          exact all ⟨100, 100, 200, 300, apart.1, apart.2.1, apart.2.2, kexecAll_sound he2, l8.2⟩ ⟨100, 100, 200, 300, apart.1, apart.2.1, apart.2.2, kexecAll_sound he1, l8.1⟩
        have wire : KvWire exFull (two d0 y) exTag evs := by
          refine ⟨heard, fun q m hm p corr he => ?_, fun q m hm ops ho table u hu => ?_⟩
          · obtain ⟨z, h1, rfl⟩ := hand hm
            exact ⟨z.2.1, (said p).2 _ _ (kvTalk_asked h1 he), dec _⟩
          · obtain ⟨z, h1, rfl⟩ := hand hm
            rw [dec] at ho
            cases ho
            have key : ∀ z ∈ kvTalk, ∃ p, ∃ x ∈ kvReqs p, x.2 = z.2.1 := by decide
            obtain ⟨p, w, g1, g2⟩ := key z h1
            exact ⟨p, w.1, (said p).2 _ _ (by rw [← g2]; exact g1)⟩
        refine ⟨kvTxn_sane, rfl, exFull_encodings, entryC_lawful, logOf_index _, two d0 x, two d0 y, evs0, evs, ss, hy, ca4, u0, room, wire, C105_network room wire,
          ⟨rfl, all ⟨100, 200, 300, kexecAll_sound he2⟩ ⟨100, 200, 300, kexecAll_sound he1⟩, fun p => (hloc p).configured, fun p => (hloc p).once, ?_,
            fun p q corr corr' k k' b b' h1 h2 he => kvHashB_sound l7 (hblob p _ h1) (hblob q _ h2) he, fun v b h => (by cases (show some v = some b from h); rfl), mapKv_dicts⟩,
          ⟨fun p corr ops r h1 h2 h3 => (by rw [hack p corr r h2] at h3; cases h3), fun p => (hloc p).orderly⟩, fun p corr ops hc o ho => ?_, hx, ca2,
          ⟨hxy, all List.nil_prefix (List.prefix_refl _), fun p corr r hr => ?_, fun q m hm p corr he => ?_⟩,
          _, _, ⟨_, _, l5, by simp⟩, ⟨_, _, l6, by simp⟩, ?_, fun q _ => List.not_mem_nil⟩
        · intro p corr k b h1 h2
          have := (hloc p).storage corr k b h1 h2
          split at this
          · rw [if_pos ‹_›]; exact this
          · rw [if_neg ‹_›]
            obtain ⟨corr', g⟩ := this
            rcases List.mem_append.mp g with g | g
            · exact ⟨false, corr', g⟩
            · exact ⟨true, corr', g⟩
        · rw [(said p).1] at hc
          refine ⟨_, 2, rfl, ?_⟩
          have key : ∀ p, ∀ x ∈ kvReqs p, ∀ o ∈ x.2, o.table = "t" := by decide
          rw [key p _ hc o ho]
          decide
        · cases p
          · obtain ⟨z, h1, h2, h3⟩ := kvHeardB_sound b3 hr
            refine ⟨0, ?_⟩
            rw [show (two d0 x 0) = x.1 from rfl, t3, show kvAnswered.take 2 = (kvTalk.take 2).map fun x => ⟨x.1, [1], exFull.encResp x.2.2⟩ by unfold kvAnswered; rw [List.map_take]]
            exact List.mem_map.mpr ⟨z, h1, by rw [h2, h3]; rfl⟩
          · cases hr
        · obtain ⟨z, h1, rfl⟩ := hand0 hm
          cases p
          · exact ⟨z.2.1, (said false).2 _ _ (kvTalk_asked (List.mem_of_mem_take h1) he)⟩
          · exfalso
            simp only [kvTalk, List.take_succ_cons, List.take_zero, List.mem_cons, List.not_mem_nil, or_false] at h1
            rcases h1 with rfl | rfl <;> simp [exTag] at he <;> omega
        · show _ < evs1.length
          have := congrArg List.length l5
          simp at this
          simp
          omega
      · cases h
    · cases h
  · cases h

end TCP.Cache.Props
