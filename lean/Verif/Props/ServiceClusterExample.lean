import Verif.Props.ServiceCluster

/-!
# Two services in front of two replicas of any application

Shows that the hypotheses of C91 can be met: a schedule of calls of both services, checked step by step.
-/

namespace TCP.ServiceExample

open TCP TCP.Service TCP.ServiceSpec TCP.Drv TCP.DrvSpec TCP.DrvExample TCP.AppExample

variable {σ : Type}

abbrev AppSrv (σ : Type) := Srv σ Raft (List (Comm.OutMsg Nat)) Nat
abbrev Hist := List (Nat × Service.Event (Req Nat) (List (Drv.OutMsg Nat)))

/-- An application on the toy communication module and some consensus layer. -/
abbrev sysOf (A : Actor σ) (R : RaftT Raft) : Sys σ Raft (List (Comm.OutMsg Nat)) Nat := ⟨A, R, comm, codecs⟩

/-- One step of a service. -/
def gact (A : Actor σ) (R : RaftT Raft) (s : AppSrv σ) : Act → Option (AppSrv σ)
  | .call q => some (s.call q)
  | .send i => match s.calls[i]? with
    | some (.sending q) => if s.alive = true ∧ s.queue.length < 1 then some (s.send i q) else none
    | _ => none
  | .receive => match s.queue with
    | (q, i) :: rest => if s.alive = true ∧ s.busy = none then some (s.receive q i rest) else none
    | [] => none
  | .work => match s.busy with
    | some (q, i) => some (s.work (ServiceSpec.serving (sysOf A R)) q i)
    | none => none
  | .ret i => match s.calls[i]? with
    | some (.answered a) => some (s.return i a)
    | _ => none
  | _ => none

/-- Does the step run the driver? -/
def works : Act → Bool
  | .work => true
  | _ => false

theorem gact_sound {A : Actor σ} {R : RaftT Raft} {s s' : AppSrv σ} {a : Act} (h : gact A R s a = some s') :
    (Client s s' ∨ Server (ServiceSpec.serving (sysOf A R)) s s') ∧ (works a = false → s'.driver = s.driver) := by
  cases a with
  | call q => cases h; exact ⟨.inl (.call q), fun _ => rfl⟩
  | cancel i => cases h
  | send i =>
    simp only [gact] at h
    split at h
    · rename_i q hc
      split at h
      · rename_i hg; cases h; exact ⟨.inr (.send hc hg.1 hg.2), fun _ => rfl⟩
      · cases h
    · cases h
  | receive =>
    simp only [gact] at h
    split at h
    · rename_i q i rest hq
      split at h
      · rename_i hg; cases h; exact ⟨.inr (.receive hg.1 hg.2 hq), fun _ => rfl⟩
      · cases h
    · cases h
  | work =>
    simp only [gact] at h
    split at h
    · rename_i q i hb; cases h; exact ⟨.inr (.work hb), fun h => by cases h⟩
    · cases h
  | ret i =>
    simp only [gact] at h
    split at h
    · rename_i a hc; cases h; exact ⟨.inr (.return hc), fun _ => rfl⟩
    · cases h
  | refuse i => cases h

/-- Two services; the others are never called. -/
def services (d0 : AppDrv σ) (ab : AppSrv σ × AppSrv σ) (p : Nat) : AppSrv σ := if p = 0 then ab.1 else if p = 1 then ab.2 else .new d0

def setService (ab : AppSrv σ × AppSrv σ) (second : Bool) (s : AppSrv σ) : AppSrv σ × AppSrv σ := if second then (ab.1, s) else (s, ab.2)

theorem place_services (d0 : AppDrv σ) (ab : AppSrv σ × AppSrv σ) (second : Bool) (s : AppSrv σ) :
    place (services d0 ab) (if second then 1 else 0) s = services d0 (setService ab second s) := by
  funext q
  cases second <;> simp only [place, services, setService] <;> (by_cases h0 : q = 0 <;> by_cases h1 : q = 1 <;> simp_all)

theorem replicas_services (d0 : AppDrv σ) (ab : AppSrv σ × AppSrv σ) : replicas (services d0 ab) = two d0 (ab.1.driver, ab.2.driver) := by
  funext q
  simp only [replicas, services, two]
  split
  · rfl
  · split <;> rfl

/-- Checks `Causal` for two replicas. -/
def causalOk (log : Nat → Entry) (d0 : AppDrv σ) (ab : AppDrv σ × AppDrv σ) : Bool :=
  d0.applied == 0 && (List.range (max ab.1.applied ab.2.applied + 1)).all fun i =>
    (log i).data ∈ ab.1.trace.filterMap proposal ++ ab.2.trace.filterMap proposal || i < 2

theorem causal_sound {log : Nat → Entry} {d0 : AppDrv σ} {ab : AppDrv σ × AppDrv σ} (h : causalOk log d0 ab = true) :
    Causal codecs.decEntry log (two d0 ab) := by
  simp only [causalOk, Bool.and_eq_true, beq_iff_eq] at h
  intro p i ev hi hle _
  have hb : i < max ab.1.applied ab.2.applied + 1 := by
    unfold two at hle
    split at hle
    · omega
    · split at hle <;> omega
  have hx := List.all_eq_true.1 h.2 i (List.mem_range.2 hb)
  simp only [Bool.or_eq_true, decide_eq_true_eq] at hx
  rcases hx with hx | hx
  · rcases List.mem_append.1 hx with hx | hx
    · obtain ⟨e, he, hb⟩ := List.mem_filterMap.1 hx
      match e, he, hb with
      | .propose b, he, hb => cases hb; exact ⟨0, he⟩
    · obtain ⟨e, he, hb⟩ := List.mem_filterMap.1 hx
      match e, he, hb with
      | .propose b, he, hb => cases hb; exact ⟨1, he⟩
  · omega

theorem consensus_sound {A : Actor σ} {R : RaftT Raft} {log : Nat → Entry} {cfg : Bytes} {d0 : AppDrv σ} {ab : AppDrv σ × AppDrv σ} {second : Bool} {d : AppDrv σ}
    (hok : stepOk log cfg d0 ab second d (.ok none) = true) (hc : causalOk log d0 (setTwo ab second d) = true) :
    Consensus (sysOf A R) log 0 cfg (two d0 ab) (if second then 1 else 0) d := by
  simp only [stepOk, Bool.and_eq_true] at hok
  obtain ⟨⟨⟨⟨⟨⟨_, h2⟩, h3⟩, h4⟩, h5⟩, h6⟩, h7⟩ := hok
  refine ⟨by simpa using h2, ?_, ?_, ?_, ?_, ?_, ?_⟩
  · obtain ⟨y, hy⟩ := Option.isSome_iff_exists.1 h3
    exact ⟨y, advances_sound hy⟩
  · intro e he
    exact of_decide_eq_true (List.all_eq_true.1 h4 e he)
  · intro r hr hz
    have := of_decide_eq_true (List.all_eq_true.1 h5 r (List.mem_filterMap.2 ⟨_, hr, rfl⟩))
    rcases this with h | h | h
    · exact absurd h hz
    · left
      obtain ⟨e, hm, he⟩ := List.mem_filterMap.1 h
      match e, hm, he with
      | .ready r', hm, he => cases he; exact hm
    · exact .inr ⟨0, created_sound h⟩
  · intro id b hb
    cases second with
    | false => rfl
    | true =>
      have := List.all_eq_true.1 (by simpa using h6) (1, b) (List.mem_filterMap.2 ⟨_, hb, rfl⟩)
      simp at this
  · intro ctx res hm
    have := List.all_eq_true.1 h7 ctx.config (List.mem_filterMap.2 ⟨_, hm, rfl⟩)
    simpa using this
  · rw [update_two]
    exact causal_sound hc

/-- Run the two services. -/
def serveAll (A : Actor σ) (R : RaftT Raft) (log : Nat → Entry) (cfg : Bytes) (d0 : AppDrv σ) : AppSrv σ × AppSrv σ → Hist → List (Bool × Act) → Option ((AppSrv σ × AppSrv σ) × Hist)
  | ab, h, [] => some (ab, h)
  | ab, h, (second, a) :: rest =>
    match gact A R (services d0 ab (if second then 1 else 0)) a with
    | none => none
    | some s =>
      if works a = false ∨ (stepOk log cfg d0 (ab.1.driver, ab.2.driver) second s.driver (.ok none) = true ∧
          causalOk log d0 (setTwo (ab.1.driver, ab.2.driver) second s.driver) = true) then
        serveAll A R log cfg d0 (setService ab second s)
          (h ++ (s.history.drop (services d0 ab (if second then 1 else 0)).history.length).map fun e => (if second then 1 else 0, e)) rest
      else none

theorem serveAll_sound {A : Actor σ} {R : RaftT Raft} {log : Nat → Entry} {cfg : Bytes} {fresh : σ → Prop} {d0 : AppDrv σ} {as} {ab ab' : AppSrv σ × AppSrv σ} {h h' : Hist}
    (hx : serveAll A R log cfg d0 ab h as = some (ab', h')) (hs : Served (sysOf A R) log 0 fresh cfg (services d0 ab) h) :
    Served (sysOf A R) log 0 fresh cfg (services d0 ab') h' := by
  induction as generalizing ab h with
  | nil => cases hx; exact hs
  | cons c as ih =>
    obtain ⟨second, a⟩ := c
    simp only [serveAll] at hx
    cases hg : gact A R (services d0 ab (if second then 1 else 0)) a with
    | none => rw [hg] at hx; cases hx
    | some s =>
      rw [hg] at hx
      dsimp only at hx
      split at hx
      · rename_i hok
        refine ih hx ?_
        rw [← place_services]
        obtain ⟨h1, h2⟩ := gact_sound hg
        rcases h1 with h1 | h1
        · obtain ⟨_, es, he, _⟩ := client_step h1
          exact hs.client h1 (by rw [he]; simp)
        · obtain ⟨_, es, he, _⟩ := server_step h1
          refine hs.server h1 (by rw [he]; simp) ?_
          rcases hok with hok | ⟨k1, k2⟩
          · exact .inl (h2 hok)
          · rw [replicas_services]
            exact .inr (consensus_sound k1 k2)
      · cases hx

/-- The application messages clients of the services got. -/
def replies? (x : Nat × Service.Event (Req Nat) (List (Drv.OutMsg Nat))) : List (Nat × ActorCommand) :=
  match x.2 with
  | .return _ a => (appMessages a).map fun r => (x.1, r)
  | _ => []

theorem replies_sound {h : Hist} {p : Nat} {r : ActorCommand} (hm : (p, r) ∈ h.flatMap replies?) : Told h p r := by
  obtain ⟨⟨q, e⟩, hx, hr⟩ := List.mem_flatMap.1 hm
  match e, hx, hr with
  | .return i a, hx, hr =>
    obtain ⟨r', hr', he⟩ := List.mem_map.1 hr
    cases he
    exact ⟨i, a, hx, hr'⟩

/-- The commands clients called for. -/
def asks? (x : Nat × Service.Event (Req Nat) (List (Drv.OutMsg Nat))) : Option (Nat × ActorCommand) :=
  match x.2 with
  | .invoke _ (_, some (some (.appMessage c))) => some (x.1, c)
  | _ => none

theorem asks_complete {h : Hist} {p : Nat} {c : ActorCommand} (ha : Asked h p c) : (p, c) ∈ h.filterMap asks? := by
  obtain ⟨i, t, hm⟩ := ha
  exact List.mem_filterMap.2 ⟨_, hm, rfl⟩

/-- A whole call of a service. -/
def whole (second : Bool) (i : Nat) (q : Req Nat) : List (Bool × Act) :=
  [(second, .call q), (second, .send i), (second, .receive), (second, .work), (second, .ret i)]

/-- The replicas are started; two requests overlap at the first service, and a third is called for when the first has its answer, as the
second has not; the second replica, which does not lead, refuses a request. -/
def calls (cfg : Bytes) (r1 r2 r3 : Nat × Bytes × Bytes) : List (Bool × Act) :=
  whole false 0 (1, start true 1 cfg) ++ whole true 0 (1, start false 2 cfg) ++
  [(false, .call (2, request r1.1 r1.2.1 r1.2.2)), (false, .call (2, request r2.1 r2.2.1 r2.2.2)), (false, .send 1), (false, .receive), (false, .send 2),
   (false, .work), (false, .receive), (false, .ret 1), (false, .call (3, request r3.1 r3.2.1 r3.2.2)), (false, .work), (false, .send 3),
   (false, .receive), (false, .work), (false, .ret 3), (false, .ret 2)] ++ whole true 1 (4, request r1.1 r1.2.1 r1.2.2)

/-- What the clients got, the answers before the third call first. -/
def told (A : Actor σ) (a0 : σ) (cfg : Bytes) (es : List LogEntry) (r1 r2 r3 : Nat × Bytes × Bytes) (n : Nat) (p q : List (Nat × ActorCommand)) : Bool :=
  match serveAll A raft (logOf es) cfg (idle a0 []) (.new (idle a0 []), .new (idle a0 [])) [] (calls cfg r1 r2 r3) with
  | some x => decide ((x.2.take n).flatMap replies? = p ∧ (x.2.drop n).flatMap replies? = q ∧
      ((x.2.take n).filterMap asks?).all (fun x => x.2.correlationId != r3.1) = true)
  | none => false

theorem told_sound {A : Actor σ} {a0 : σ} {cfg : Bytes} {es : List LogEntry} {r1 r2 r3 : Nat × Bytes × Bytes} {n : Nat} {p q : List (Nat × ActorCommand)}
    {fresh : σ → Prop} (hf : fresh a0) (h : told A a0 cfg es r1 r2 r3 n p q = true) :
    ∃ ss h1 h2, Served (sysOf A raft) (logOf es) 0 fresh cfg ss (h1 ++ h2) ∧ (∀ x ∈ p, Told h1 x.1 x.2) ∧ (∀ x ∈ p ++ q, Told (h1 ++ h2) x.1 x.2) ∧
      ∀ p c, Asked h1 p c → c.correlationId ≠ r3.1 := by
  unfold told at h
  split at h
  · rename_i x hx
    obtain ⟨h1, h2, h3⟩ := of_decide_eq_true h
    refine ⟨services (idle a0 []) x.1, x.2.take n, x.2.drop n, ?_, fun y hy => replies_sound (h1 ▸ hy), fun y hy => replies_sound ?_, fun p c hc => ?_⟩
    · rw [List.take_append_drop]
      refine serveAll_sound (ab' := x.1) hx (.new fun p => ?_)
      unfold services
      split
      · exact ⟨_, _, _, hf, rfl⟩
      · split <;> exact ⟨_, _, _, hf, rfl⟩
    · rw [List.flatMap_append, h1, h2]
      exact hy
    · have := List.all_eq_true.1 h3 _ (asks_complete hc)
      simpa using this
  · cases h

end TCP.ServiceExample

/-! ## The hypotheses of C91 can be met -/

namespace TCP.Counter

open TCP Spec Drv DrvSpec ServiceSpec ServiceExample AppExample

/-- C91 is not vacuous: the swap of `a` from 5 to 6 was answered when the one of `b` is called for; a swap that overlaps with both is
answered last; and a replica that does not lead refuses. -/
example : Lawful exMsgs ∧ (∀ x, DrvExample.codecs.decEntry (DrvExample.codecs.encEntry x) = some x) ∧ (∀ i, (logOf exCluster i).index = i) ∧
    ∃ (ss : Nat → AppSrv State) (h1 h2 : Hist), Served ⟨actor exMsgs, DrvExample.raft, DrvExample.comm, DrvExample.codecs⟩ (logOf exCluster) 0 (· = State.new)
        ((Codec.string.pair Codec.int).list.enc [("a", 5)]) ss (h1 ++ h2) ∧
      Told h1 0 ⟨7, exMsgs.encOut ⟨.success, some ⟨5, 6⟩⟩, []⟩ ∧ ¬ Refusal exMsgs (h1 ++ h2) 0 ⟨7, exMsgs.encOut ⟨.success, some ⟨5, 6⟩⟩, []⟩ ∧
      Told (h1 ++ h2) 0 ⟨9, exMsgs.encOut ⟨.success, some ⟨0, 1⟩⟩, []⟩ ∧ ¬ Refusal exMsgs (h1 ++ h2) 0 ⟨9, exMsgs.encOut ⟨.success, some ⟨0, 1⟩⟩, []⟩ ∧
      Told (h1 ++ h2) 0 ⟨8, exMsgs.encOut ⟨.invalidArgument, some ⟨6, 0⟩⟩, []⟩ ∧ Told (h1 ++ h2) 1 ⟨7, exMsgs.encOut ⟨.rejected, none⟩, []⟩ ∧
      ∀ p c, Asked h1 p c → c.correlationId ≠ 9 := by
  obtain ⟨ss, h1, h2, hs, k1, k2, k3⟩ := told_sound (A := actor exMsgs) (a0 := State.new) (fresh := (· = State.new)) rfl
    (cfg := (Codec.string.pair Codec.int).list.enc [("a", 5)]) (es := exCluster) (r1 := (7, 1 :: exMsgs.encReq (exCas "a" 5 6), []))
    (r2 := (8, 1 :: exMsgs.encReq (exCas "a" 5 7), [])) (r3 := (9, 1 :: exMsgs.encReq (exCas "b" 0 1), [])) (n := 10)
    (p := [(0, ⟨7, exMsgs.encOut ⟨.success, some ⟨5, 6⟩⟩, []⟩)])
    (q := [(0, ⟨9, exMsgs.encOut ⟨.success, some ⟨0, 1⟩⟩, []⟩), (0, ⟨8, exMsgs.encOut ⟨.invalidArgument, some ⟨6, 0⟩⟩, []⟩),
      (1, ⟨7, exMsgs.encOut ⟨.rejected, none⟩, []⟩)]) (by decide +kernel)
  refine ⟨exMsgs_lawful, DrvExample.entryC_lawful, logOf_index _, ss, h1, h2, hs, k1 (_, _) (by simp), ?_, k2 (_, _) (by simp), ?_, k2 (_, _) (by simp),
    k2 (_, _) (by simp), k3⟩
  · rintro ⟨c, _, st, hst, hr⟩
    have : exMsgs.encOut ⟨.success, some ⟨5, 6⟩⟩ = exMsgs.encOut ⟨st, none⟩ := congrArg ActorCommand.header hr
    rcases hst with rfl | rfl <;> exact absurd this (by decide +kernel)
  · rintro ⟨c, _, st, hst, hr⟩
    have : exMsgs.encOut ⟨.success, some ⟨0, 1⟩⟩ = exMsgs.encOut ⟨st, none⟩ := congrArg ActorCommand.header hr
    rcases hst with rfl | rfl <;> exact absurd this (by decide +kernel)

end TCP.Counter

namespace TCP.TabletStore

open TCP Spec DrvSpec ServiceSpec ServiceExample AppExample

/-- C91 is not vacuous for the tablet store. -/
example : Lawful exEnv ∧ (∀ x, DrvExample.codecs.decEntry (DrvExample.codecs.encEntry x) = some x) ∧ (∀ i, (logOf exCluster i).index = i) ∧
    ∃ (ss : Nat → AppSrv State) (h1 h2 : Hist), Served ⟨actor exEnv, DrvExample.raft, DrvExample.comm, DrvExample.codecs⟩ (logOf exCluster) 0 (·.tables = []) [2] ss (h1 ++ h2) ∧
      Told h1 0 ⟨7, [1], [1]⟩ ∧ Told (h1 ++ h2) 0 ⟨9, [1], [1]⟩ ∧ Told (h1 ++ h2) 0 ⟨8, [1], [0]⟩ ∧
      (¬ ∃ st, [1] = exEnv.encOut (.error st)) ∧ ∀ p c, Asked h1 p c → c.correlationId ≠ 9 := by
  obtain ⟨ss, h1, h2, hs, k1, k2, k3⟩ := told_sound (A := actor exEnv) (a0 := (⟨[], 0⟩ : State)) (fresh := (·.tables = [])) rfl
    (cfg := [2]) (es := exCluster) (r1 := (7, [1], exEnv.encReq [exUpd 10 1])) (r2 := (8, [1], exEnv.encReq [exChk 20 0, exUpd 10 1]))
    (r3 := (9, [1], exEnv.encReq [exUpd 20 1])) (n := 10) (p := [(0, ⟨7, [1], [1]⟩)])
    (q := [(0, ⟨9, [1], [1]⟩), (0, ⟨8, [1], [0]⟩), (1, ⟨7, exEnv.encOut (.error .rejected), []⟩)]) (by decide +kernel)
  refine ⟨exEnv_lawful, DrvExample.entryC_lawful, logOf_index _, ss, h1, h2, hs, k1 (_, _) (by simp), k2 (_, _) (by simp), k2 (_, _) (by simp), ?_, k3⟩
  rintro ⟨st, hst⟩
  cases st <;> exact absurd hst (by decide +kernel)

end TCP.TabletStore
