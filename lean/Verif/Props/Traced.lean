import Verif.Spec.Traced
import Verif.Props.Handed
import Verif.Props.DriverLog
import Verif.Props.Apps

/-! # C114: replicated data changes only as clients ask -/

namespace TCP.TracedProps

open TCP TCP.Drv TCP.DrvSpec

variable {σ ρ κ H : Type} {S : Sys σ ρ κ H}

theorem led_sublist {leads} {cs cs' : List ActorCommand} {evs} (h : Led leads cs evs) (hs : cs.Sublist cs') : Led leads cs' evs := by
  induction hs generalizing evs with
  | slnil => exact h
  | cons a _ ih => exact .without (ih h)
  | cons_cons a _ ih =>
    cases h with
    | without h => exact .without (ih h)
    | event hc h => exact .event hc (ih h)

theorem led_mem {leads} {cs : List ActorCommand} {evs} (h : Led leads cs evs) {ev} (he : ev ∈ evs) : ∃ c ∈ cs, leads c ev := by
  induction h with
  | nil => cases he
  | without _ ih => obtain ⟨c, hc, hl⟩ := ih he; exact ⟨c, .tail _ hc, hl⟩
  | event hc _ ih =>
    rcases List.mem_cons.1 he with rfl | he
    · exact ⟨_, .head _, hc⟩
    · obtain ⟨c, hc, hl⟩ := ih he; exact ⟨c, .tail _ hc, hl⟩

theorem led_trace {leads} (hA : EventsFrom S.A leads) (t : List (Ev H)) (ht : ∀ c, .actor c ∈ t → ∃ s1 s2, ActorSpec.Step S.A s1 c s2) :
    Led leads (t.filterMap handed) (t.filterMap requested) := by
  induction t with
  | nil => exact .nil
  | cons e t ih =>
    have ih := ih fun c hc => ht c (.tail _ hc)
    match e, ht with
    | .actor (.command ctx c (.ok o)), ht =>
      obtain ⟨s1, s2, hs⟩ := ht _ (.head _)
      cases hs with
      | command hs =>
        rcases ho : o.event with _ | ev
        · rw [List.filterMap_cons_none (f := requested) (by simpa [requested] using ho)]
          cases c with
          | none => exact ih
          | some c => exact .without ih
        · rw [List.filterMap_cons_some (f := requested) (by simpa [requested] using ho)]
          obtain ⟨q, rfl, hq⟩ := hA hs ho
          exact .event hq ih
    | .actor (.command ctx (some c) (.error er)), _ => exact .without ih
    | .actor (.command ctx none (.error er)), _ => exact ih
    | .actor (.apply ..), _ | .actor (.save ..), _ | .actor (.load ..), _ => exact ih
    | .actorInit .., _ | .actorShutdown .., _ | .raftInit .., _ | .tick .., _ | .step .., _ | .propose .., _ | .proposeChange .., _
    | .applyChange .., _ | .ready .., _ | .light .., _ | .advanceApply, _ | .report .., _ | .storeHardState .., _ | .storeAppend .., _
    | .storeApply .., _ | .storeCreate .., _ | .commOut .., _ | .commIn .., _ | .commTick, _ | .commCluster .., _ | .out .., _ => exact ih

theorem asked_calls {d0 d : Driver σ ρ κ H} {ms} (h : Asked S d0 ms d) : ∃ rs, Calls S d0 rs d := by
  induction h with
  | nil => exact ⟨_, .nil⟩
  | snoc _ hs ih => obtain ⟨rs, ih⟩ := ih; exact ⟨_, ih.snoc hs⟩

theorem served_asked {d0 d : Driver σ ρ κ H} {ms} (h : Served S d0 ms d) : Asked S d0 ms d := by
  induction h with
  | nil => exact .nil
  | snoc _ hs ih => exact ih.snoc hs

theorem served_runs {d0 d : Driver σ ρ κ H} {ms} (h : Served S d0 ms d) : ∃ outs, Runs S d0 outs d := by
  induction h with
  | nil => exact ⟨_, .nil⟩
  | snoc _ hs ih => obtain ⟨outs, ih⟩ := ih; exact ⟨_, ih.snoc hs⟩

/-- C114: the events the application of a replica asks to replicate stem from commands the host passed, in their order, at most one for each. -/
theorem C114_events {leads} (hA : EventsFrom S.A leads) {d0 d : Driver σ ρ κ H} {ms} (h0 : Fresh d0) (h : Asked S d0 ms d) :
    Led leads (ms.filterMap askedCommand) (d.trace.filterMap requested) := by
  obtain ⟨rs, hc⟩ := asked_calls h
  exact led_sublist (led_trace hA _ fun c hm => calls_mem h0 hc hm) (HandedProps.C113_never_more h0 h)

/-- C114: so do the proposals of a replica. -/
theorem C114_proposals {leads} (hA : EventsFrom S.A leads) {d0 d : Driver σ ρ κ H} {ms} (h0 : Fresh d0) (h : Served S d0 ms d) (he : d.ephemeral = false) :
    ∃ evs, Led leads (ms.filterMap askedCommand) evs ∧
      d.trace.filterMap proposal = evs.map fun ev => S.E.encEntry ⟨some (d.id, ev.correlationId), ev.contents⟩ := by
  obtain ⟨outs, hr⟩ := served_runs h
  exact ⟨_, C114_events hA h0 (served_asked h), DrvProps.C23_proposals h0 hr he⟩

/-- C114: every event any replica applies stems from a command that the host of some replica passed; it is handed to the application as its
own exactly on replicas with the id of that one. -/
theorem C114_cluster {ι : Type} {leads} (hA : EventsFrom S.A leads) (hcod : ∀ x, S.E.decEntry (S.E.encEntry x) = some x) {log : Nat → Entry}
    (hl : ∀ i, (log i).index = i) {d0 ds : ι → Driver σ ρ κ H} {ms : ι → List (Option (Option (InMsg H)))} (h0 : ∀ p, Fresh (d0 p))
    (h : ∀ p, Served S (d0 p) (ms p) (ds p)) (he : ∀ p, (ds p).ephemeral = false)
    (hf : ∀ p, ∃ y, Trail (Follows log) (ds p).trace (0, 0) y) (hp : EventsProposed log ds)
    {q : ι} {i : Nat} {owned : Bool} {ev : ActorEvent} (ho : .apply i owned ev ∈ observed (ds q).trace) :
    ∃ p, ∃ c ∈ (ms p).filterMap askedCommand, leads c ev ∧ (owned = true ↔ (ds p).id = (ds q).id) := by
  obtain ⟨p, hp⟩ := hp q i owned ev ho
  obtain ⟨outp, rp⟩ := served_runs (h p)
  obtain ⟨outq, rq⟩ := served_runs (h q)
  obtain ⟨y, hy⟩ := hf q
  obtain ⟨hm, hw⟩ := DrvProps.C23_owner hl hcod (h0 p) rp (he p) (h0 q) rq (he q) hy hp ho
  obtain ⟨c, hc, hl⟩ := led_mem (C114_events hA (h0 p) (served_asked (h p))) hm
  exact ⟨p, c, hc, hl, hw⟩

/-- C114: the counters ask for an event only if a command carries a request. -/
theorem C114_counter (ms : Counter.Msgs) : EventsFrom (Counter.actor ms) (counterLeads ms) := by
  intro ctx s c s' o ev h ho
  change Counter.onProcessCommand ms ctx s c = _ at h
  cases c with
  | none =>
    simp only [Counter.onProcessCommand, Run.ok.injEq, Prod.mk.injEq, Except.ok.injEq] at h
    rw [← h.2] at ho; cases ho
  | some c =>
    refine ⟨c, rfl, ?_⟩
    simp only [Counter.onProcessCommand] at h
    split at h
    · cases h; cases ho
    · cases h; cases ho
    · rename_i r hr
      rcases hop : r.op with _ | x
      · rw [hop] at h
        cases hld : ctx.leader <;> simp [hld] at h <;> (rw [← h.2] at ho; cases ho)
      · rw [hop] at h
        cases hld : ctx.leader
        · simp [hld] at h
          rw [← h.2] at ho; cases ho
        · simp [hld] at h
          rw [← h.2] at ho
          cases ho
          exact ⟨r, hr, by rw [hop]; rfl, by rw [hop]⟩

/-- C114: so does the tablet store. -/
theorem C114_tablets (env : TabletStore.Env) : EventsFrom (TabletStore.actor env) (tabletLeads env) := by
  intro ctx s c s' o ev h ho
  change TabletStore.onProcessCommand env ctx s c = _ at h
  cases c with
  | none =>
    simp only [TabletStore.onProcessCommand, Run.ok.injEq, Prod.mk.injEq, Except.ok.injEq] at h
    rw [← h.2] at ho; cases ho
  | some c =>
    refine ⟨c, rfl, ?_⟩
    simp only [TabletStore.onProcessCommand] at h
    split at h
    · simp only [Run.ok.injEq, Prod.mk.injEq, Except.ok.injEq] at h; rw [← h.2] at ho; cases ho
    · split at h
      · rename_i hin
        split at h
        · rename_i hr
          simp only [Run.ok.injEq, Prod.mk.injEq, Except.ok.injEq] at h
          rw [← h.2] at ho
          exact ⟨hin, by rw [hr]; rfl, by cases ho; rfl⟩
        · simp only [Run.ok.injEq, Prod.mk.injEq, Except.ok.injEq] at h; rw [← h.2] at ho; cases ho
      · simp only [Run.ok.injEq, Prod.mk.injEq, Except.ok.injEq] at h; rw [← h.2] at ho; cases ho

/-- C114: and the decryptor. -/
theorem C114_keys (env : Willow.Env) : EventsFrom (Willow.actor env) (willowLeads env) := by
  intro ctx s c s' o ev h ho
  change Willow.onProcessCommand env ctx s c = _ at h
  cases c with
  | none =>
    simp only [Willow.onProcessCommand, Run.ok.injEq, Prod.mk.injEq, Except.ok.injEq] at h
    rw [← h.2] at ho; cases ho
  | some c =>
    refine ⟨c, rfl, ?_⟩
    simp only [Willow.onProcessCommand] at h
    split at h
    · simp at h
    · rename_i r hr
      split at h
      · simp only [Run.ok.injEq, Prod.mk.injEq, Except.ok.injEq] at h; rw [← h.2] at ho; cases ho
      · split at h
        · rename_i k
          simp only [Run.ok.injEq, Prod.mk.injEq, Except.ok.injEq] at h
          rw [← h.2] at ho
          unfold Willow.generateCommand at ho
          split at ho
          · cases ho
          · cases ho; exact .inl ⟨k, _, hr, rfl, rfl⟩
        · rename_i k q
          simp only [Run.bind_eq_ok, Run.ok.injEq, Prod.mk.injEq, Except.ok.injEq] at h
          obtain ⟨⟨s1, o1⟩, h1, h2⟩ := h
          obtain ⟨_, rfl⟩ := h2
          unfold Willow.decryptCommand at h1
          split at h1
          · simp only [Run.ok.injEq, Prod.mk.injEq] at h1; rw [← h1.2] at ho; cases ho
          · split at h1
            · cases h1
            · simp only [Run.ok.injEq, Prod.mk.injEq] at h1
              rw [← h1.2] at ho
              cases ho
              exact .inr ⟨k, q, _, hr, rfl⟩
        · simp only [Run.ok.injEq, Prod.mk.injEq, Except.ok.injEq] at h; rw [← h.2] at ho; cases ho

open Counter Counter.Spec in
/-- C114: every value of a counter is the configured one or one a client wrote: on every replica of a cluster, each counter has the value and
payload it was configured with, or those of a request to swap this counter in a command that was handed to some replica. -/
theorem C114_values {ρ κ H : Type} {R : RaftT ρ} {C : CommT κ H} {E : Codecs} {ms : Msgs} (hm : Lawful ms) (hcod : ∀ x, E.decEntry (E.encEntry x) = some x)
    {log : Nat → Entry} (hl : ∀ i, (log i).index = i) {founder : Nat} {cfg : Bytes} {ds : Nat → Driver State ρ κ H}
    (h : Deployed ⟨actor ms, R, C, E⟩ log founder (· = State.new) cfg ds) (hca : Causal E.decEntry log ds) {p : Nat} (hp : (ds p).state ≠ .created)
    (n : String) : view (ds p).actor n = initial ms cfg n ∨
      ∃ q, ∃ c ∈ (ds q).trace.filterMap handed, ∃ r cas, ms.decIn c.header = some (some r) ∧ r.name = n ∧ r.op = some cas ∧
        view (ds p).actor n = (cas.new, r.payload) := by
  have hev : ∀ ev ∈ eventsUpTo E.decEntry log (ds p).applied, ∃ q, ∃ c ∈ (ds q).trace.filterMap handed, counterLeads ms c ev := by
    intro ev hev
    obtain ⟨e, he, hev⟩ := List.mem_filterMap.1 hev
    obtain ⟨i, hi, rfl⟩ := List.mem_map.1 he
    have hi := List.mem_range.1 hi
    obtain ⟨q, hq⟩ := hca p (1 + 1 + i) ev (by omega) (by omega) hev
    obtain ⟨⟨f, I⟩, _⟩ := app_inv hl (inert ms) h
    obtain ⟨_, s, s', ctx, c, o, ev', _, _, hc, hs, ho, hb⟩ := app_proposals I hq
    obtain ⟨replica, _, hd⟩ := eventOf_some hev
    rw [hb] at hd
    have hd := (hcod _).symm.trans hd
    simp only [Option.some.injEq, LogEntry.mk.injEq, Prod.mk.injEq] at hd
    have : ev' = ev := by cases ev; cases ev'; simp_all
    subst this
    obtain ⟨c', rfl, hl⟩ := C114_counter ms hs ho
    exact ⟨q, c', List.mem_filterMap.2 ⟨_, hc, rfl⟩, hl⟩
  rw [C76_counters hm hl h hp]
  generalize eventsUpTo E.decEntry log (ds p).applied = evs at hev
  suffices hh : ∀ m : Counters, (evs.foldl (after ms) m) n = m n ∨
      ∃ q, ∃ c ∈ (ds q).trace.filterMap handed, ∃ r cas, ms.decIn c.header = some (some r) ∧ r.name = n ∧ r.op = some cas ∧
        (evs.foldl (after ms) m) n = (cas.new, r.payload) from hh _
  induction evs with
  | nil => exact fun _ => .inl rfl
  | cons ev evs ih =>
    intro m
    rw [List.foldl_cons]
    rcases ih (fun ev h => hev ev (.tail _ h)) (after ms m ev) with he | he
    · rw [he]
      obtain ⟨q, c, hc, r, h1, h2, rfl⟩ := hev ev (.head _)
      obtain ⟨name, op, cx, pl⟩ := r
      cases op with
      | none => cases h2
      | some cas =>
        simp only [after, hm.req]
        split
        · by_cases hn : n = name
          · exact .inr ⟨q, c, hc, _, _, h1, hn.symm, rfl, by simp [Counters.update, hn]⟩
          · exact .inl (by simp [Counters.update, hn])
        · exact .inl rfl
    · exact .inr he

open AppExample Counter Counter.Spec in
/-- `C114_values` is not vacuous: a replica at index 3 whose counter `a`, configured to 5, was set to 6. -/
example : Lawful exMsgs ∧ (∀ x, DrvExample.codecs.decEntry (DrvExample.codecs.encEntry x) = some x) ∧
    ∃ ds, Deployed (appSys (actor exMsgs)) (logOf exCluster) 0 (· = State.new) ((Codec.string.pair Codec.int).list.enc [("a", 5)]) ds ∧
      Causal DrvExample.codecs.decEntry (logOf exCluster) ds ∧ (ds 0).state ≠ .created ∧ view (ds 0).actor "a" = (6, []) := by
  obtain ⟨ds, _, h1, h2, h3, _⟩ := moments_sound (A := actor exMsgs) (fresh := (· = State.new)) (a0 := State.new) rfl
    (cfg := (Codec.string.pair Codec.int).list.enc [("a", 5)]) (es := exCluster) (p := fun _ _ => true)
    (snap := exMsgs.encSnap [("a", ⟨6, []⟩)]) (r1 := (7, 1 :: exMsgs.encReq (exCas "a" 5 6), []))
    (r2 := (8, 1 :: exMsgs.encReq (exCas "a" 5 7), [])) (r3 := (9, 1 :: exMsgs.encReq (exCas "b" 0 1), [])) (by decide +kernel)
  have hs : (ds 0).state ≠ .created := by
    intro hc
    obtain ⟨⟨f, I⟩, _⟩ := app_inv (logOf_index _) (inert exMsgs) h1
    obtain ⟨d0, outs, h0, hr⟩ := I.runs 0
    have := ((runs_created h0 hr).inv hc).2.1
    omega
  refine ⟨exMsgs_lawful, DrvExample.entryC_lawful, ds, h1, h2, hs, ?_⟩
  rw [C76_counters (R := DrvExample.raft) (C := DrvExample.comm) (E := DrvExample.codecs) exMsgs_lawful (logOf_index _) h1 hs, h3]
  decide +kernel

open Willow Willow.Spec in
/-- C114: every key a decryptor holds was asked for by a client: on every replica of a cluster, a stored key pair was generated for an id that a
command handed to some replica asked a key for. -/
theorem C114_held {ρ κ H : Type} {R : RaftT ρ} {C : CommT κ H} {E : Codecs} {env : Env} (he : Lawful env) (hcap : 0 < env.capacity)
    (hcod : ∀ x, E.decEntry (E.encEntry x) = some x) {log : Nat → Entry} (hl : ∀ i, (log i).index = i) {founder : Nat} {cfg : Bytes}
    {ds : Nat → Driver State ρ κ H} (h : Deployed ⟨actor env, R, C, E⟩ log founder State.Fresh cfg ds) (hca : Causal E.decEntry log ds) {p : Nat}
    (hp : (ds p).state ≠ .created) {k : Bytes} {kp : KeyPair} (hk : stored (ds p).actor k = some kp) :
    ∃ q, ∃ c ∈ (ds q).trace.filterMap handed, AsksKey env c k ∧ ∃ draw, (kp.publicKey, kp.privateKey) = env.gen k draw := by
  obtain ⟨_, _, hc⟩ := C77_keys he hcap hl h hp
  obtain ⟨g, ⟨a, ev, b, hevs, hg, rfl, _⟩, rfl⟩ := hc k kp hk
  have hev : ev ∈ eventsUpTo E.decEntry log (ds p).applied := by rw [hevs]; simp
  obtain ⟨e, hm, hev⟩ := List.mem_filterMap.1 hev
  obtain ⟨i, hi, rfl⟩ := List.mem_map.1 hm
  have hi := List.mem_range.1 hi
  obtain ⟨q, _, c, _, hc, _, ⟨g', draw, hg', ha, hgen⟩ | ⟨k', y, x, _, _, hd, _⟩⟩ := C77_events he hcod hl h hca (p := p) (i := 1 + 1 + i) (by omega) (by omega) hev
  · have : g' = g := by
      have := hg'.symm.trans hg
      simpa using this
    subst this
    exact ⟨q, c, hc, ha, draw, hgen⟩
  · have := hd.symm.trans hg
    simp at this

open AppExample in
/-- The first moment of the scenario, when the founder has handled two requests and satisfies a predicate. -/
def firstMoment {σ : Type} (A : Actor σ) (a0 : σ) (cfg : Bytes) (es : List LogEntry) (r1 r2 : Nat × Bytes × Bytes) (p : AppDrv σ → Bool) : Bool :=
  match deploy A (logOf es) cfg (idle a0 []) (idle a0 [], idle a0 [])
      ((false, 1, start true 1 cfg) :: [r1, r2].map (fun r => (false, 2, request r.1 r.2.1 r.2.2))) with
  | some x => before es 0 x.1 x.2 && p x.1
  | none => false

open AppExample in
theorem firstMoment_sound {σ : Type} {A : Actor σ} {a0 : σ} {cfg : Bytes} {es : List LogEntry} {r1 r2 : Nat × Bytes × Bytes} {p : AppDrv σ → Bool}
    {fresh : σ → Prop} (hf : fresh a0) (h : firstMoment A a0 cfg es r1 r2 p = true) :
    ∃ ds, Deployed (appSys A) (logOf es) 0 fresh cfg ds ∧ Causal DrvExample.codecs.decEntry (logOf es) ds ∧ p (ds 0) = true := by
  unfold firstMoment at h
  split at h
  · rename_i x hx
    simp only [Bool.and_eq_true] at h
    obtain ⟨h0, h⟩ := h
    obtain ⟨h1, h2, _, _, _, h6⟩ := of_decide_eq_true h0
    refine ⟨two (idle a0 []) x, deploy_sound hx (.init fun p => ?_), ?_, h⟩
    · unfold two
      split
      · exact ⟨_, _, _, hf, rfl⟩
      · split <;> exact ⟨_, _, _, hf, rfl⟩
    · intro p i ev hi hle hev
      by_cases hp : p = 0
      · subst hp
        have hle : i ≤ 3 := h1 ▸ hle
        have hm : (logOf es i).data ∈ x.1.trace.filterMap proposal := by
          rw [h6]
          have : i = 2 ∨ i = 3 := by omega
          rcases this with rfl | rfl <;> simp
        obtain ⟨e, he, hb⟩ := List.mem_filterMap.1 hm
        match e, he, hb with
        | .propose b, he, hb => cases hb; exact ⟨0, he⟩
      · have : (two (idle a0 []) x p).applied = 0 := by
          simp only [two, if_neg hp]
          split
          · exact h2
          · rfl
        omega
  · cases h

open AppExample Willow Willow.Spec in
/-- `C114_held` is not vacuous: a replica that holds keys for `[1]` and `[2]`. -/
example : Lawful exEnv ∧ 0 < exEnv.capacity ∧ (∀ x, DrvExample.codecs.decEntry (DrvExample.codecs.encEntry x) = some x) ∧
    ∃ es ds, Deployed (appSys (actor exEnv)) (logOf es) 0 State.Fresh [] ds ∧ Causal DrvExample.codecs.decEntry (logOf es) ds ∧
      (ds 0).state ≠ .created ∧ stored (ds 0).actor [1] = some ⟨[0, 1], [9, 0, 1], 1⟩ ∧ stored (ds 0).actor [2] = some ⟨[1, 2], [9, 1, 2], 2⟩ := by
  obtain ⟨ds, h1, h2, h3⟩ := firstMoment_sound (A := actor exEnv) (fresh := State.Fresh) (a0 := (⟨[], 0⟩ : State)) rfl (cfg := [])
    (es := [⟨some (1, 7), exEnv.encEv (.generateKey ⟨[0, 1], [9, 0, 1], [1], 1⟩)⟩, ⟨some (1, 8), exEnv.encEv (.generateKey ⟨[1, 2], [9, 1, 2], [2], 2⟩)⟩])
    (p := fun d => decide (d.state ≠ .created ∧ stored d.actor [1] = some ⟨[0, 1], [9, 0, 1], 1⟩ ∧ stored d.actor [2] = some ⟨[1, 2], [9, 1, 2], 2⟩))
    (r1 := (7, [1, 0, 1, 0, 1], [])) (r2 := (8, [1, 0, 1, 0, 2], [])) (by decide +kernel)
  exact ⟨exEnv_lawful, by decide, DrvExample.entryC_lawful, _, ds, h1, h2, of_decide_eq_true h3⟩

open TabletStore TabletStore.Spec in
theorem lastUpdate_mem {n : String} {i : UInt32} : ∀ {ops : List TabletOp} {u : Metadata}, lastUpdate n i ops = some u → ∃ o ∈ ops, Updates o n i u
  | [], u, h => by simp [lastUpdate] at h
  | o :: rest, u, h => by
    unfold lastUpdate at h
    split at h
    · cases h
    · rename_i t v rest' heq
      cases heq
      split at h
      · rename_i x hx
        cases h
        obtain ⟨o, ho, hu⟩ := lastUpdate_mem hx
        exact ⟨o, .tail _ ho, hu⟩
      · split at h
        · rename_i hc
          cases h
          exact ⟨_, .head _, hc.1, rfl, hc.2⟩
        · cases h
    · rename_i heq
      cases heq
      obtain ⟨o, ho, hu⟩ := lastUpdate_mem h
      exact ⟨o, .tail _ ho, hu⟩

open TabletStore TabletStore.Spec in
/-- C114: what the tablet stores of a cluster say about a tablet is what the founder set up for the configuration, or what a client asked to be
written: every tablet of every replica is as at first, or as in an update of it in a request that was handed to some replica. -/
theorem C114_metadata {ρ κ H : Type} {R : RaftT ρ} {C : CommT κ H} {E : Codecs} {env : Env} (he : Lawful env)
    (hcod : ∀ x, E.decEntry (E.encEntry x) = some x) {log : Nat → Entry} (hl : ∀ i, (log i).index = i) {founder : Nat} {cfg : Bytes}
    {ds : Nat → Driver State ρ κ H} (h : Deployed ⟨actor env, R, C, E⟩ log founder (·.tables = []) cfg ds) (hca : Causal E.decEntry log ds) :
    ∃ f : State, ∀ p, 1 ≤ (ds p).applied → (∃ ctx s0, s0.tables = [] ∧ ctx.config = cfg ∧ ActorSpec.Started (actor env) s0 ctx f) ∧
      ∀ n i, at_ (view (ds p).actor) n i = at_ (view f) n i ∨
        ∃ q, ∃ c ∈ (ds q).trace.filterMap handed, env.decIn c.header = some true ∧ ∃ ops, env.decReq c.payload = some ops ∧
          ∃ o ∈ ops, ∃ u, Updates o n i u ∧ at_ (view (ds p).actor) n i = some u := by
  obtain ⟨f, hf, _⟩ := C78_store he hl h
  refine ⟨f, fun p hp => ⟨(hf p hp).2, fun n i => ?_⟩⟩
  have hev : ∀ ev ∈ eventsUpTo E.decEntry log (ds p).applied, ∃ q, ∃ c ∈ (ds q).trace.filterMap handed, tabletLeads env c ev := by
    intro ev hev
    obtain ⟨e, he, hev⟩ := List.mem_filterMap.1 hev
    obtain ⟨i, hi, rfl⟩ := List.mem_map.1 he
    have hi := List.mem_range.1 hi
    obtain ⟨q, hq⟩ := hca p (1 + 1 + i) ev (by omega) (by omega) hev
    obtain ⟨⟨f, I⟩, _⟩ := app_inv hl (inert env) h
    obtain ⟨_, s, s', ctx, c, o, ev', _, _, hc, hs, ho, hb⟩ := app_proposals I hq
    obtain ⟨replica, _, hd⟩ := eventOf_some hev
    rw [hb] at hd
    have hd := (hcod _).symm.trans hd
    simp only [Option.some.injEq, LogEntry.mk.injEq, Prod.mk.injEq] at hd
    have : ev' = ev := by cases ev; cases ev'; simp_all
    subst this
    obtain ⟨c', rfl, hl⟩ := C114_tablets env hs ho
    exact ⟨q, c', List.mem_filterMap.2 ⟨_, hc, rfl⟩, hl⟩
  rw [(hf p hp).1]
  unfold tabletsAt
  generalize eventsUpTo E.decEntry log (ds p).applied = evs at hev
  suffices hh : ∀ st : Store, at_ (evs.foldl (Store.next env) st) n i = at_ st n i ∨
      ∃ q, ∃ c ∈ (ds q).trace.filterMap handed, env.decIn c.header = some true ∧ ∃ ops, env.decReq c.payload = some ops ∧
        ∃ o ∈ ops, ∃ u, Updates o n i u ∧ at_ (evs.foldl (Store.next env) st) n i = some u from hh _
  induction evs with
  | nil => exact fun _ => .inl rfl
  | cons ev evs ih =>
    intro st
    rw [List.foldl_cons]
    rcases ih (fun ev h => hev ev (.tail _ h)) (Store.next env st ev) with he | he
    · rw [he]
      obtain ⟨q, c, hc, h1, h2, rfl⟩ := hev ev (.head _)
      obtain ⟨ops, h2⟩ := Option.isSome_iff_exists.1 h2
      simp only [Store.next, h2]
      split
      · cases hr : st n with
        | none => exact .inl (by simp [at_, Store.after, hr])
        | some r =>
          cases hu : lastUpdate n i ops with
          | none => exact .inl (by simp [at_, Store.after, hr, hu])
          | some u =>
            obtain ⟨o, ho, hou⟩ := lastUpdate_mem hu
            exact .inr ⟨q, c, hc, h1, ops, h2, o, ho, u, hou, by simp [at_, Store.after, hr, hu]⟩
      · exact .inl rfl
    · exact .inr he

open AppExample TabletStore TabletStore.Spec in
/-- `C114_metadata` is not vacuous: a replica on which a client has updated tablet 10 of the two tablets. -/
example : Lawful exEnv ∧ (∀ x, DrvExample.codecs.decEntry (DrvExample.codecs.encEntry x) = some x) ∧
    ∃ es ds, Deployed (appSys (actor exEnv)) (logOf es) 0 (·.tables = []) [2] ds ∧ Causal DrvExample.codecs.decEntry (logOf es) ds ∧
      1 ≤ (ds 0).applied ∧ at_ (view (ds 0).actor) "t" 10 = some (exMeta 10 1) ∧ at_ (view (ds 0).actor) "t" 20 = some (Metadata.new 20) := by
  obtain ⟨ds, h1, h2, h3⟩ := firstMoment_sound (A := actor exEnv) (fresh := (·.tables = [])) (a0 := (⟨[], 0⟩ : State)) rfl (cfg := [2])
    (es := exCluster) (r1 := (7, [1], exEnv.encReq [exUpd 10 1])) (r2 := (8, [1], exEnv.encReq [exChk 20 0, exUpd 10 1]))
    (p := fun d => decide (1 ≤ d.applied ∧ at_ (view d.actor) "t" 10 = some (exMeta 10 1) ∧ at_ (view d.actor) "t" 20 = some (Metadata.new 20)))
    (by decide +kernel)
  exact ⟨exEnv_lawful, DrvExample.entryC_lawful, _, ds, h1, h2, of_decide_eq_true h3⟩

/-! ## A cluster of two -/

open AppExample DrvExample in
/-- Perform calls that all succeed. -/
def serveAll (A : Actor σ) : AppDrv σ → List (Option (Option (InMsg Nat))) → Option (AppDrv σ)
  | d, [] => some d
  | d, m :: rest => match receive (appSys A) 1 m d with
    | .ok (d', .ok _) => serveAll A d' rest
    | _ => none

open AppExample DrvExample in
theorem serveAll_sound {A : Actor σ} {d d' : AppDrv σ} {cs} (h : serveAll A d cs = some d') {d0 ms} (h0 : Served (appSys A) d0 ms d) :
    Served (appSys A) d0 (ms ++ cs) d' := by
  induction cs generalizing d ms with
  | nil => cases h; rw [List.append_nil]; exact h0
  | cons m cs ih =>
    simp only [serveAll] at h
    split at h
    · rename_i d1 out h1
      rw [show ms ++ m :: cs = (ms ++ [m]) ++ cs by simp]
      exact ih h (h0.snoc h1)
    · cases h

open AppExample DrvExample Counter Counter.Spec in
/-- The messages of the hosts of two replicas of the counters. -/
def exMessages (second : Bool) : List (Option (Option (InMsg Nat))) :=
  let cfg := (Codec.string.pair Codec.int).list.enc [("a", 5)]
  if second then [AppExample.start false 2 cfg, some (some .checkCluster), none, none]
  else [AppExample.start true 1 cfg, request 7 (1 :: exMsgs.encReq (Counter.exCas "a" 5 6)) [], request 8 (1 :: exMsgs.encReq (Counter.exCas "a" 5 7)) [], none,
    request 3 [] [], request 9 (1 :: exMsgs.encReq (Counter.exCas "b" 0 1)) []]

open AppExample DrvExample Counter Counter.Spec in
def exBefore (second : Bool) : AppDrv Counter.State :=
  if second then idle State.new [snapBatch (exMsgs.encSnap [("a", ⟨6, []⟩)]), batch [logOf Counter.exCluster 4]] else idle State.new []


open AppExample DrvExample Counter Counter.Spec in
/-- The calls on a replica succeed, it follows the log, everything it applies was proposed by the first replica, and what it applies. -/
def exCheck (second : Bool) (proposed : List Bytes) (applied : List (Nat × Bool)) (d : AppDrv Counter.State) : Bool :=
  !d.ephemeral && (advances (logOf exCluster) d.trace (0, 0)).isSome &&
    (observed d.trace).all (fun o => match o with | .apply i _ _ => decide ((logOf exCluster i).data ∈ proposed) | .load _ => second) &&
    decide (((observed d.trace).filterMap fun o => match o with | .apply i w _ => some (i, w) | .load _ => none) = applied)

open AppExample DrvExample Counter Counter.Spec in
/-- C114 is not vacuous: the first replica is passed four commands, one of them without a request; three become events.  The second replica
joins with a snapshot and applies the last event, which is not its own. -/
example : ∃ ds : Bool → AppDrv Counter.State, (∀ x, codecs.decEntry (codecs.encEntry x) = some x) ∧ (∀ i, (logOf exCluster i).index = i) ∧
    (∀ p, Fresh (exBefore p)) ∧ (∀ p, Served (appSys (actor exMsgs)) (exBefore p) (exMessages p) (ds p)) ∧ (∀ p, (ds p).ephemeral = false) ∧
    (∀ p, ∃ y, Trail (Follows (logOf exCluster)) (ds p).trace (0, 0) y) ∧ EventsProposed (logOf exCluster) ds ∧
    (∃ ev, .apply 3 true ev ∈ observed (ds false).trace) ∧ (∃ ev, .apply 4 false ev ∈ observed (ds true).trace) ∧
    ((ds false).trace.filterMap requested).length = 3 ∧ ((exMessages false).filterMap askedCommand).length = 4 := by
  have h : (match serveAll (actor exMsgs) (exBefore false) (exMessages false), serveAll (actor exMsgs) (exBefore true) (exMessages true) with
      | some a, some b => exCheck false (a.trace.filterMap proposal) [(2, true), (3, true), (4, true)] a &&
          exCheck true (a.trace.filterMap proposal) [(4, false)] b && decide ((a.trace.filterMap requested).length = 3)
      | _, _ => false) = true := by decide +kernel
  split at h
  · rename_i a b ha hb
    simp only [Bool.and_eq_true, decide_eq_true_eq] at h
    obtain ⟨⟨h1, h2⟩, h3⟩ := h
    have key : ∀ {second : Bool} {ps applied} {d : AppDrv Counter.State}, exCheck second ps applied d = true →
        d.ephemeral = false ∧ (∃ y, Trail (Follows (logOf exCluster)) d.trace (0, 0) y) ∧
        (∀ i w ev, .apply i w ev ∈ observed d.trace → (logOf exCluster i).data ∈ ps) ∧ ∀ x ∈ applied, ∃ ev, .apply x.1 x.2 ev ∈ observed d.trace := by
      intro second ps applied d h
      simp only [exCheck, Bool.and_eq_true, Bool.not_eq_true', decide_eq_true_eq] at h
      obtain ⟨⟨⟨k1, k2⟩, k3⟩, k4⟩ := h
      obtain ⟨y, hy⟩ := Option.isSome_iff_exists.1 k2
      refine ⟨k1, ⟨y, advances_follows (advances_sound hy)⟩, fun i w ev hm => ?_, fun x hx => ?_⟩
      · exact of_decide_eq_true (List.all_eq_true.1 k3 _ hm)
      · rw [← k4] at hx
        obtain ⟨o, ho, hx⟩ := List.mem_filterMap.1 hx
        cases o with
        | load => cases hx
        | apply i w ev => cases hx; exact ⟨ev, ho⟩
    obtain ⟨a1, a2, a3, a4⟩ := key h1
    obtain ⟨b1, b2, b3, b4⟩ := key h2
    have hprop : ∀ {x}, x ∈ a.trace.filterMap proposal → .propose x ∈ a.trace := by
      intro x hx
      obtain ⟨e, he, hx⟩ := List.mem_filterMap.1 hx
      unfold proposal at hx
      split at hx
      · cases hx; exact he
      · cases hx
    refine ⟨fun p => if p then b else a, entryC_lawful, logOf_index _, ?_, ?_, ?_, ?_, ?_, a4 (3, true) (by simp), b4 (4, false) (by simp), h3, rfl⟩
    · intro p; cases p <;> exact ⟨_, _, _, rfl⟩
    · intro p
      cases p
      · exact serveAll_sound (ms := []) ha .nil
      · exact serveAll_sound (ms := []) hb .nil
    · intro p; cases p <;> assumption
    · intro p; cases p <;> assumption
    · intro q i w ev hm
      cases q
      · exact ⟨false, hprop (a3 i w ev hm)⟩
      · exact ⟨false, hprop (b3 i w ev hm)⟩
  · cases h

end TCP.TracedProps
