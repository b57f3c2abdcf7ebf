import Verif.Spec.Comm
import Verif.Lib.ListExtra

/-! # Lemmas about the secure channel model -/

namespace TCP.Comm
open Spec

variable {S E H : Type}

/-! ## The queue -/

theorem replaceHeartbeat_none {m : Outgoing} {q : List Outgoing} :
    replaceHeartbeat m q = none ↔ heartbeats q = [] := by
  induction q with
  | nil => simp [replaceHeartbeat, heartbeats]
  | cons x q ih =>
    simp only [replaceHeartbeat, heartbeats, List.filter]
    by_cases hx : x.isHeartbeat
    · simp [hx]
    · simp only [hx]
      simp only [heartbeats] at ih
      simp [ih]

theorem replaceHeartbeat_some {m : Outgoing} {q q' : List Outgoing} (h : replaceHeartbeat m q = some q')
    (hm : m.isHeartbeat = true) :
    others q' = others q ∧ heartbeats q' = m :: (heartbeats q).drop 1 ∧ ∀ u ∈ q', u = m ∨ u ∈ q := by
  induction q generalizing q' with
  | nil => simp [replaceHeartbeat] at h
  | cons x q ih =>
    simp only [replaceHeartbeat] at h
    by_cases hx : x.isHeartbeat
    · simp only [hx, if_true, Option.some.injEq] at h
      subst h
      refine ⟨by simp [others, hx, hm], by simp [heartbeats, hx, hm], ?_⟩
      intro u hu
      rcases List.mem_cons.mp hu with rfl | hu
      · exact Or.inl rfl
      · exact Or.inr (List.mem_cons_of_mem _ hu)
    · simp only [hx] at h
      cases hr : replaceHeartbeat m q with
      | none => simp [hr] at h
      | some r =>
        simp [hr] at h
        subst h
        obtain ⟨h1, h2, h3⟩ := ih hr
        refine ⟨?_, ?_, ?_⟩
        · simp only [others, List.filter, hx] at h1 ⊢; simp [h1]
        · simp only [heartbeats, List.filter, hx] at h2 ⊢; exact h2
        · intro u hu
          rcases List.mem_cons.mp hu with rfl | hu
          · exact Or.inr (by simp)
          · rcases h3 u hu with h | h
            · exact Or.inl h
            · exact Or.inr (List.mem_cons_of_mem _ h)

theorem others_push (q : List Outgoing) (m : Outgoing) : others (push q m) = others q ++ others [m] := by
  unfold push
  by_cases hm : m.isHeartbeat
  · simp only [hm, if_true]
    cases hr : replaceHeartbeat m q with
    | none => simp [others]
    | some q' =>
      simp only
      rw [(replaceHeartbeat_some hr hm).1]
      simp [others, hm]
  · simp [hm, others]

theorem heartbeats_push (q : List Outgoing) (m : Outgoing) :
    heartbeats (push q m) =
      if m.isHeartbeat then (if heartbeats q = [] then [m] else m :: (heartbeats q).drop 1) else heartbeats q := by
  unfold push
  by_cases hm : m.isHeartbeat
  · simp only [hm, if_true]
    cases hr : replaceHeartbeat m q with
    | none =>
      have := replaceHeartbeat_none.mp hr
      simp only [this, if_true]
      simp only [heartbeats, List.filter_append] at this ⊢
      rw [this]; simp [hm]
    | some q' =>
      have hne : heartbeats q ≠ [] := fun h => by rw [replaceHeartbeat_none.mpr h] at hr; cases hr
      simp only [hne, if_false]
      exact (replaceHeartbeat_some hr hm).2.1
  · simp [hm, heartbeats]

theorem mem_push {q : List Outgoing} {m u : Outgoing} (h : u ∈ push q m) : u = m ∨ u ∈ q := by
  unfold push at h
  have happ : u ∈ q ++ [m] → u = m ∨ u ∈ q := by
    intro hu
    rcases List.mem_append.mp hu with h | h
    · exact Or.inr h
    · simp at h; exact Or.inl h
  by_cases hm : m.isHeartbeat
  · simp only [hm, if_true] at h
    cases hr : replaceHeartbeat m q with
    | none => rw [hr] at h; exact happ h
    | some q' => rw [hr] at h; exact (replaceHeartbeat_some hr hm).2.2 u h
  · simp only [hm] at h; exact happ h

theorem heartbeats_push_le {q : List Outgoing} (m : Outgoing) (h : (heartbeats q).length ≤ 1) :
    (heartbeats (push q m)).length ≤ 1 := by
  rw [heartbeats_push]
  split
  · split
    · simp
    · simp; omega
  · exact h

/-! ## Encrypting a queue -/

theorem encryptAll_spec {ops : Ops S E H} {e e' : E} {q : List Outgoing} {out : List (OutMsg H)}
    (h : encryptAll ops e q = .ok (e', out)) :
    ∃ (ds : List Data) (sub : List Outgoing), out = ds.map OutMsg.data ∧ sub.Sublist q ∧
      Matched (fun d u => ∃ e1, EncryptorFrom ops e e1 ∧ CipherBy ops e1 d u) ds sub ∧
      EncryptorFrom ops e e' ∧ (EncryptionTotal ops → sub = q) := by
  induction q generalizing e e' out with
  | nil =>
    simp [encryptAll] at h
    obtain ⟨rfl, rfl⟩ := h
    exact ⟨[], [], rfl, .slnil, .nil, .refl, fun _ => rfl⟩
  | cons m q ih =>
    simp only [encryptAll] at h
    cases hp : m.data.payload with
    | none => rw [hp] at h; simp at h
    | some pl =>
      rw [hp] at h
      simp only [Run.bind_eq_ok] at h
      obtain ⟨⟨e1, r⟩, he1, ⟨e2, rest⟩, he2, hres⟩ := h
      simp only [Run.ok.injEq, Prod.mk.injEq] at hres
      obtain ⟨rfl, rfl⟩ := hres
      obtain ⟨ds, sub, rfl, hsub, hm, hef, htot⟩ := ih he2
      have h01 : EncryptorFrom ops e e1 := .encrypt .refl he1
      have htrans : ∀ x, EncryptorFrom ops e1 x → EncryptorFrom ops e x := by
        intro x hx
        induction hx with
        | refl => exact h01
        | encrypt _ he ih => exact .encrypt ih he
        | decrypt _ pl ih => exact .decrypt ih pl
      have hm' := hm.imp (Q := fun d u => ∃ e1, EncryptorFrom ops e e1 ∧ CipherBy ops e1 d u)
        (fun d u ⟨x, hx, hc⟩ => ⟨x, htrans x hx, hc⟩)
      cases r with
      | none =>
        refine ⟨ds, sub, rfl, hsub.cons _, hm', htrans _ hef, fun ht => ?_⟩
        have := ht _ _ _ _ he1
        simp at this
      | some c =>
        refine ⟨{ m.data with payload := some c } :: ds, m :: sub, rfl, hsub.cons_cons _, ?_, htrans _ hef, ?_⟩
        · exact .cons ⟨e, .refl, pl, c, e1, hp, he1, rfl⟩ hm'
        · intro ht; rw [htot ht]

/-! ## The invariant of a channel -/

structure PInv (ops : Ops S E H) (evs : List (Ev S H)) (timeout : Nat) (p : Nat) (c : Peer S E H) : Prop where
  q : ∀ u ∈ c.queue, u.data.recipient = p ∧ u ∈ accepted p evs
  sess : ∀ s, c.session = some s → ∃ s0, Provided evs p s0 ∧ SessionFrom ops s0 s
  enc : ∀ e, c.encryptor = some e → Established ops evs p e
  hb : (heartbeats c.queue).length ≤ 1
  tm : c.timeout = timeout
  liveS : (c.status = .initialized ∨ ∃ t, c.status = .initiated t) → c.session.isSome
  liveE : (∀ s, ops.completed s = true → (ops.encryptor s).isSome) → c.status = .completed → c.encryptor.isSome

theorem Spec.Provided.mono {evs : List (Ev S H)} {p : Nat} {s : S} (h : Provided evs p s) (ev : Ev S H) :
    Provided (evs ++ [ev]) p s := by
  rcases h with ⟨m, r, hm, hp⟩ | ⟨m, r, hm, hp⟩
  · exact Or.inl ⟨m, r, by simp [hm], hp⟩
  · exact Or.inr ⟨m, r, by simp [hm], hp⟩

theorem Spec.Established.mono {ops : Ops S E H} {evs : List (Ev S H)} {p : Nat} {e : E}
    (h : Established ops evs p e) (ev : Ev S H) : Established ops (evs ++ [ev]) p e := by
  obtain ⟨s0, s, e0, h1, h2⟩ := h
  exact ⟨s0, s, e0, h1.mono ev, h2⟩

theorem accepted_append (p : Nat) (a b : List (Ev S H)) : accepted p (a ++ b) = accepted p a ++ accepted p b := by
  simp [accepted, List.filterMap_append]

theorem PInv.mono {ops : Ops S E H} {evs : List (Ev S H)} {T p : Nat} {c : Peer S E H}
    (h : PInv ops evs T p c) (ev : Ev S H) : PInv ops (evs ++ [ev]) T p c :=
  { h with
    q := fun u hu => ⟨(h.q u hu).1, by rw [accepted_append]; simp [(h.q u hu).2]⟩
    sess := fun s hs => by obtain ⟨s0, h1, h2⟩ := h.sess s hs; exact ⟨s0, h1.mono ev, h2⟩
    enc := fun e he => (h.enc e he).mono ev }

theorem PInv.new (ops : Ops S E H) (evs : List (Ev S H)) (T p : Nat) : PInv ops evs T p (Peer.new T) :=
  ⟨by simp [Peer.new], by simp [Peer.new], by simp [Peer.new], by simp [Peer.new, heartbeats], rfl,
    by simp [Peer.new], by simp [Peer.new]⟩

theorem PInv.init {ops : Ops S E H} {evs : List (Ev S H)} {T p : Nat} {c : Peer S E H} {s : S}
    (h : PInv ops evs T p c) (hs : Provided evs p s) : PInv ops evs T p (c.init s) :=
  { q := h.q, enc := h.enc, hb := h.hb, tm := h.tm
    sess := by intro s' hs'; simp [Peer.init] at hs'; subst hs'; exact ⟨s, hs, .refl⟩
    liveS := by simp [Peer.init]
    liveE := by simp [Peer.init] }

theorem PInv.push {ops : Ops S E H} {evs : List (Ev S H)} {T p : Nat} {c : Peer S E H} {m : Outgoing}
    (h : PInv ops evs T p c) (hm : m.data.recipient = p) (ha : m ∈ accepted p evs) :
    ∀ u ∈ Comm.push c.queue m, u.data.recipient = p ∧ u ∈ accepted p evs := by
  intro u hu
  rcases mem_push hu with rfl | hu
  · exact ⟨hm, ha⟩
  · exact h.q u hu

theorem PInv.processOut {ops : Ops S E H} {evs : List (Ev S H)} {T p : Nat} {c c' : Peer S E H} {m : Outgoing}
    (h : PInv ops evs T p c) (hm : m.data.recipient = p) (ha : m ∈ accepted p evs)
    (hr : c.processOut ops m = .ok c') : PInv ops evs T p c' := by
  have hq := h.push hm ha
  have hhb := heartbeats_push_le m h.hb
  unfold Peer.processOut at hr
  cases hst : c.status with
  | unknown =>
    rw [hst] at hr; simp at hr; subst hr
    exact { h with liveS := by simp, liveE := by simp }
  | initialized =>
    rw [hst] at hr
    simp only at hr
    cases hse : c.session with
    | none => rw [hse] at hr; simp at hr
    | some s =>
      rw [hse] at hr
      simp only at hr
      have hs' : ∃ s0, Provided evs p s0 ∧ SessionFrom ops s0 (ops.takeOut s).1 := by
        obtain ⟨s0, h1, h2⟩ := h.sess s hse
        exact ⟨s0, h1, .takeOut h2⟩
      cases ho : (ops.takeOut s).2 with
      | error x =>
        rw [ho] at hr; simp at hr; subst hr
        exact { h with
          sess := by intro s' he; simp at he; subst he; exact hs'
          liveS := by simp
          liveE := by simp }
      | ok o =>
        rw [ho] at hr
        cases o with
        | none =>
          simp at hr; subst hr
          exact { h with
            sess := by intro s' he; simp at he; subst he; exact hs'
            liveS := by simp
            liveE := by simp }
        | some hh =>
          simp at hr; subst hr
          exact { h with
            q := hq, hb := hhb
            sess := by intro s' he; simp at he; subst he; exact hs'
            liveS := by simp
            liveE := by simp }
  | initiated t =>
    rw [hst] at hr; simp at hr; subst hr
    exact { h with q := hq, hb := hhb, liveS := by simpa [hst] using h.liveS, liveE := by simpa [hst] using h.liveE }
  | completed =>
    rw [hst] at hr; simp at hr; subst hr
    exact { h with q := hq, hb := hhb, liveS := by simpa [hst] using h.liveS, liveE := by simpa [hst] using h.liveE }
  | failed t =>
    rw [hst] at hr; simp at hr; subst hr
    exact { h with q := hq, hb := hhb, liveS := by simpa [hst] using h.liveS, liveE := by simpa [hst] using h.liveE }

/-- What the handshake branch of `process_in_message` can do. -/
theorem PInv.processIn {ops : Ops S E H} {evs : List (Ev S H)} {T p : Nat} {c c' : Peer S E H} {m : InMsg H}
    {up : Option (InMsg H)} (h : PInv ops evs T p c) (hr : c.processIn ops m = .ok (c', up)) :
    PInv ops evs T p c' ∧ c'.queue = c.queue ∧
    (∀ x, up = some x → ∃ d pl e b, m = .data d ∧ d.payload = some pl ∧ c.status = .completed ∧
      c.encryptor = some e ∧ (ops.decrypt e pl).2 = some b ∧ x = .data { d with payload := some ⟨b, []⟩ }) := by
  have hfail : PInv ops evs T p { c with status := .failed 0 } :=
    { h with liveS := by simp, liveE := by simp }
  have hs : ∀ b : Bool, (c.status = .initialized ∨ ∃ t, c.status = .initiated t) →
      (match m with
      | .handshake _ hm =>
        match c.session with
        | none => Run.panic
        | some s =>
          let (s1, r1) := ops.process s hm
          match r1 with
          | .error _ => Run.ok ({ c with session := some s1, status := .failed 0 }, none)
          | .ok _ =>
            let (s2, r2) := ops.takeOut s1
            match r2 with
            | .error _ => .ok ({ c with session := some s2, status := .failed 0 }, none)
            | .ok out =>
              if ops.completed s2 then
                .ok ({ c with session := none, pending := out, encryptor := ops.encryptor s2, status := .completed }, none)
              else
                .ok ({ c with session := some s2, pending := out
                              status := if b then .initiated 0 else c.status }, none)
      | _ => .ok ({ c with status := .failed 0 }, none)) = .ok (c', up) →
      PInv ops evs T p c' ∧ c'.queue = c.queue ∧ up = none := by
    intro b hlive hr
    cases m with
    | other => simp at hr; obtain ⟨rfl, rfl⟩ := hr; exact ⟨hfail, rfl, rfl⟩
    | data d => simp at hr; obtain ⟨rfl, rfl⟩ := hr; exact ⟨hfail, rfl, rfl⟩
    | handshake snd hm =>
      simp only at hr
      cases hse : c.session with
      | none => rw [hse] at hr; simp at hr
      | some s =>
        rw [hse] at hr
        simp only at hr
        obtain ⟨s0, hp0, hsf⟩ := h.sess s hse
        have h1 : SessionFrom ops s0 (ops.process s hm).1 := .process hsf hm
        have h2 : SessionFrom ops s0 (ops.takeOut (ops.process s hm).1).1 := .takeOut h1
        cases hr1 : (ops.process s hm).2 with
        | error x =>
          rw [hr1] at hr; simp at hr
          obtain ⟨rfl, rfl⟩ := hr
          exact ⟨{ h with
            sess := by intro s' he; simp at he; subst he; exact ⟨s0, hp0, h1⟩
            liveS := by simp
            liveE := by simp }, rfl, rfl⟩
        | ok x =>
          rw [hr1] at hr
          simp only at hr
          cases hr2 : (ops.takeOut (ops.process s hm).1).2 with
          | error y =>
            rw [hr2] at hr; simp at hr
            obtain ⟨rfl, rfl⟩ := hr
            exact ⟨{ h with
              sess := by intro s' he; simp at he; subst he; exact ⟨s0, hp0, h2⟩
              liveS := by simp
              liveE := by simp }, rfl, rfl⟩
          | ok out =>
            rw [hr2] at hr
            simp only at hr
            by_cases hc : ops.completed (ops.takeOut (ops.process s hm).1).1 = true
            · rw [if_pos hc] at hr
              simp at hr
              obtain ⟨rfl, rfl⟩ := hr
              refine ⟨{ h with
                sess := by simp
                enc := ?_
                liveS := by simp
                liveE := fun hcon _ => hcon _ hc }, rfl, rfl⟩
              intro e he
              exact ⟨s0, _, e, hp0, h2, hc, he, .refl⟩
            · rw [if_neg hc] at hr
              simp at hr
              obtain ⟨rfl, rfl⟩ := hr
              refine ⟨{ h with
                sess := by intro s' he; simp at he; subst he; exact ⟨s0, hp0, h2⟩
                liveS := by simp
                liveE := ?_ }, rfl, rfl⟩
              intro _ hcc
              exfalso
              cases b with
              | true => simp at hcc
              | false =>
                simp at hcc
                rcases hlive with hl | ⟨t, hl⟩ <;> rw [hl] at hcc <;> cases hcc
  unfold Peer.processIn at hr
  simp only at hr
  cases hst : c.status with
  | unknown =>
    rw [hst] at hr; simp at hr; obtain ⟨rfl, rfl⟩ := hr
    exact ⟨hfail, rfl, by simp⟩
  | initialized =>
    simp only [hst] at hr hs
    obtain ⟨h1, h2, rfl⟩ := hs true (Or.inl trivial) hr
    exact ⟨h1, h2, by simp⟩
  | initiated t =>
    simp only [hst] at hr hs
    obtain ⟨h1, h2, rfl⟩ := hs false (Or.inr ⟨t, rfl⟩) hr
    exact ⟨h1, h2, by simp⟩
  | failed t =>
    rw [hst] at hr; simp at hr; obtain ⟨rfl, rfl⟩ := hr
    exact ⟨h, rfl, by simp⟩
  | completed =>
    rw [hst] at hr
    simp only [Peer.decrypt] at hr
    cases hen : c.encryptor with
    | none => rw [hen] at hr; simp at hr
    | some e =>
      rw [hen] at hr
      simp only at hr
      cases m with
      | other => simp at hr; obtain ⟨rfl, rfl⟩ := hr; exact ⟨h, rfl, by simp⟩
      | handshake snd hm => 
        simp at hr; obtain ⟨rfl, rfl⟩ := hr
        rw [← hen]
        exact ⟨hfail, rfl, by simp⟩
      | data d =>
        simp only at hr
        cases hpl : d.payload with
        | none => rw [hpl] at hr; simp at hr
        | some pl =>
          rw [hpl] at hr
          simp at hr
          obtain ⟨rfl, rfl⟩ := hr
          refine ⟨{ h with enc := ?_, liveE := by simp }, rfl, ?_⟩
          · intro e' he'
            simp at he'; subst he'
            obtain ⟨s0, s, e0, a1, a2, a3, a4, a5⟩ := h.enc e hen
            exact ⟨s0, s, e0, a1, a2, a3, a4, .decrypt a5 pl⟩
          · intro x hx
            simp at hx
            obtain ⟨b, hb, rfl⟩ := hx
            exact ⟨d, pl, e, b, rfl, hpl, rfl, rfl, hb, rfl⟩

theorem PInv.tick {ops : Ops S E H} {evs : List (Ev S H)} {T p : Nat} {c : Peer S E H} (R : Nat)
    (h : PInv ops evs T p c) : PInv ops evs T p (c.moduleTick R) ∧ (c.moduleTick R).queue = c.queue := by
  have hres : PInv ops evs T p c.reset :=
    { h with sess := by simp [Peer.reset], enc := by simp [Peer.reset], liveS := by simp [Peer.reset]
             liveE := by simp [Peer.reset] }
  have ht : PInv ops evs T p c.tick ∧ c.tick.queue = c.queue := by
    unfold Peer.tick
    cases hst : c.status with
    | unknown => exact ⟨h, rfl⟩
    | initialized => exact ⟨h, rfl⟩
    | completed => exact ⟨h, rfl⟩
    | failed t =>
      exact ⟨{ h with liveS := by simp, liveE := by simp }, rfl⟩
    | initiated t =>
      simp only
      split
      · exact ⟨{ h with liveS := by simp, liveE := by simp }, rfl⟩
      · refine ⟨{ h with liveS := fun _ => h.liveS (Or.inr ⟨t, hst⟩), liveE := by simp }, rfl⟩
  unfold Peer.moduleTick
  simp only
  cases hst : c.tick.status with
  | failed t =>
    simp only
    split
    · refine ⟨?_, ht.2⟩
      exact { ht.1 with sess := by simp [Peer.reset], enc := by simp [Peer.reset], liveS := by simp [Peer.reset]
                        liveE := by simp [Peer.reset] }
    · exact ht
  | unknown => exact ht
  | initialized => exact ht
  | completed => exact ht
  | initiated t => exact ht

theorem PInv.takeOut {ops : Ops S E H} {evs : List (Ev S H)} {T p : Nat} {c c' : Peer S E H}
    {out : List (OutMsg H)} (h : PInv ops evs T p c) (hr : c.takeOut ops = .ok (c', out)) :
    PInv ops evs T p c' ∧
    ∃ (flushed sub : List Outgoing) (ds : List Data),
      sub.Sublist flushed ∧ c.queue = flushed ++ c'.queue ∧
      (EncryptionTotal ops → sub = flushed) ∧
      (∀ q, dataTo q out = if p = q then ds else []) ∧
      (∀ d, OutMsg.data d ∈ out → d ∈ ds) ∧
      Matched (fun d u => d.recipient = p ∧ u ∈ c.queue ∧
        ∃ e, Established ops evs p e ∧ CipherBy ops e d u) ds sub := by
  unfold Peer.takeOut at hr
  cases hp : c.pending with
  | some hh =>
    rw [hp] at hr
    simp at hr
    obtain ⟨rfl, rfl⟩ := hr
    refine ⟨{ h with }, [], [], [], .slnil, rfl, fun _ => rfl, fun q => ?_, by simp, .nil⟩
    simp [dataTo]
  | none =>
    rw [hp] at hr
    simp only at hr
    by_cases hst : c.status = .completed
    · rw [if_pos hst] at hr
      cases hen : c.encryptor with
      | none => rw [hen] at hr; simp at hr
      | some e =>
        rw [hen] at hr
        simp only [Run.bind_eq_ok] at hr
        obtain ⟨⟨e', o⟩, henc, hres⟩ := hr
        simp only [Run.ok.injEq, Prod.mk.injEq] at hres
        obtain ⟨rfl, rfl⟩ := hres
        obtain ⟨ds, sub, rfl, hsub, hm, hef, htot⟩ := encryptAll_spec henc
        have hest : ∀ x, EncryptorFrom ops e x → Established ops evs p x := by
          intro x hx
          obtain ⟨s0, s, e0, a1, a2, a3, a4, a5⟩ := h.enc e hen
          refine ⟨s0, s, e0, a1, a2, a3, a4, ?_⟩
          induction hx with
          | refl => exact a5
          | encrypt _ he ih => exact .encrypt ih he
          | decrypt _ pl ih => exact .decrypt ih pl
        have hm2 : Matched (fun d u => d.recipient = p ∧ u ∈ c.queue ∧
            ∃ e, Established ops evs p e ∧ CipherBy ops e d u) ds sub := by
          have hq := h.q
          generalize c.queue = qq at hsub hq
          clear henc htot hen
          induction hm generalizing qq with
          | nil => exact .nil
          | @cons d u ds us hr hs ih =>
            have hu : u ∈ qq := hsub.subset (by simp)
            refine .cons ⟨?_, hu, ?_⟩ ?_
            · obtain ⟨x, _, pl, cc, e'', _, _, rfl⟩ := hr
              exact (hq u hu).1
            · obtain ⟨x, hx, hc⟩ := hr
              exact ⟨x, hest x hx, hc⟩
            · exact ih qq ((List.sublist_cons_self u us).trans hsub) hq
        refine ⟨{ h with q := by simp, hb := by simp [heartbeats], enc := ?_, liveE := by simp },
          c.queue, sub, ds, hsub, by simp, htot, ?_, by simp, hm2⟩
        · intro x hx; simp at hx; subst hx; exact hest _ hef
        · intro q
          have hrec : ∀ d ∈ ds, d.recipient = p := fun d hd => by
            obtain ⟨u, _, h1, _⟩ := hm2.mem_left hd; exact h1
          clear hm hm2 htot henc
          induction ds with
          | nil => simp [dataTo]
          | cons d ds ih =>
            have hd := hrec d (by simp)
            have := ih (fun x hx => hrec x (by simp [hx]))
            simp only [dataTo, List.map_cons, List.filterMap_cons, hd] at this ⊢
            by_cases hpq : p = q
            · simp only [hpq, if_true] at this ⊢; rw [this]
            · simp only [hpq, if_false] at this ⊢; rw [this]
    · rw [if_neg hst] at hr
      simp at hr
      obtain ⟨rfl, rfl⟩ := hr
      refine ⟨h, [], [], [], .slnil, rfl, fun _ => rfl, fun q => ?_, by simp, .nil⟩
      simp [dataTo]

/-! ## The invariant of the module -/

structure MInv (ops : Ops S E H) (me R T : Nat) (evs : List (Ev S H)) (m : Module S E H) : Prop where
  id : m.replicaId = me
  retry : m.retry = R
  tmo : m.timeout = T
  wf : AMap.WF m.replicas
  peers : ∀ p c, m.replicas.get p = some c → PInv ops evs T p c

/-- What find-or-create leaves behind. -/
theorem channel_spec {ops : Ops S E H} {me R T : Nat} {evs : List (Ev S H)} {m m' : Module S E H}
    {peer : Nat} {fresh : Option S} {r : Option (Peer S E H)}
    (hi : MInv ops me R T evs m) (hp : ∀ s, fresh = some s → Provided evs peer s)
    (h : m.channel peer fresh = (m', r)) :
    MInv ops me R T evs m' ∧ (∀ q, q ≠ peer → m'.replicas.get q = m.replicas.get q) ∧
    (∃ c, m'.replicas.get peer = some c ∧ c.queue = queueOf m peer ∧ c.status = statusOf m peer ∧
      (∀ c0, m.replicas.get peer = some c0 → c = c0) ∧
      ((r = none ∧ c.status = .unknown ∧ fresh = none) ∨
       (∃ s, c.status = .unknown ∧ fresh = some s ∧ r = some (c.init s)) ∨
       (c.status ≠ .unknown ∧ r = some c))) ∧
    (∀ c, r = some c → PInv ops evs T peer c ∧ c.queue = queueOf m peer) := by
  unfold Module.channel at h
  simp only at h
  have hc0 : PInv ops evs T peer ((m.replicas.get peer).getD (Peer.new m.timeout)) := by
    cases hg : m.replicas.get peer with
    | none => rw [hi.tmo]; exact PInv.new ops evs T peer
    | some c => exact hi.peers peer c hg
  have hq : ((m.replicas.get peer).getD (Peer.new m.timeout)).queue = queueOf m peer := by
    unfold queueOf
    cases m.replicas.get peer <;> rfl
  have hstt : ((m.replicas.get peer).getD (Peer.new m.timeout)).status = statusOf m peer := by
    unfold statusOf
    cases m.replicas.get peer <;> rfl
  have hid : ∀ c0, m.replicas.get peer = some c0 → (m.replicas.get peer).getD (Peer.new m.timeout) = c0 := by
    intro c0 h0; rw [h0]; rfl
  generalize (m.replicas.get peer).getD (Peer.new m.timeout) = c at *
  have hm : MInv ops me R T evs { m with replicas := m.replicas.set peer c } := by
    refine ⟨hi.id, hi.retry, hi.tmo, hi.wf.set _ _, fun p d hd => ?_⟩
    simp only [AMap.get_set] at hd
    split at hd
    · rename_i e; subst e; simp at hd; subst hd; exact hc0
    · exact hi.peers p d hd
  have hne : ∀ q, q ≠ peer → AMap.get (m.replicas.set peer c) q = m.replicas.get q :=
    fun q hqq => AMap.get_set_ne _ _ (Ne.symm hqq)
  by_cases hst : c.status = .unknown
  · rw [if_pos hst] at h
    cases hf : fresh with
    | none =>
      rw [hf] at h; simp at h; obtain ⟨rfl, rfl⟩ := h
      exact ⟨hm, hne, ⟨c, by simp, hq, hstt, hid, Or.inl ⟨rfl, hst, rfl⟩⟩, by simp⟩
    | some s =>
      rw [hf] at h; simp at h; obtain ⟨rfl, rfl⟩ := h
      refine ⟨hm, hne, ⟨c, by simp, hq, hstt, hid, Or.inr (Or.inl ⟨s, hst, rfl, rfl⟩)⟩, ?_⟩
      intro c' hc'; simp at hc'; subst hc'
      exact ⟨hc0.init (hp s hf), hq⟩
  · rw [if_neg hst] at h
    simp at h; obtain ⟨rfl, rfl⟩ := h
    refine ⟨hm, hne, ⟨c, by simp, hq, hstt, hid, Or.inr (Or.inr ⟨hst, rfl⟩)⟩, ?_⟩
    intro c' hc'; simp at hc'; subst hc'
    exact ⟨hc0, hq⟩

theorem MInv.mono {ops : Ops S E H} {me R T : Nat} {evs : List (Ev S H)} {m : Module S E H}
    (h : MInv ops me R T evs m) (ev : Ev S H) : MInv ops me R T (evs ++ [ev]) m :=
  { h with peers := fun p c hc => (h.peers p c hc).mono ev }

theorem takeAll_spec {ops : Ops S E H} {evs : List (Ev S H)} {T : Nat} {rs rs' : AMap Nat (Peer S E H)}
    {out : List (OutMsg H)} (wf : AMap.WF rs) (hinv : ∀ p c, rs.get p = some c → PInv ops evs T p c)
    (h : takeAll ops rs = .ok (rs', out)) :
    rs'.keys = rs.keys ∧
    (∀ p, rs.get p = none → dataTo p out = []) ∧
    (∀ p c, rs.get p = some c → ∃ c' o, c.takeOut ops = .ok (c', o) ∧ rs'.get p = some c' ∧
      dataTo p out = dataTo p o) ∧
    (∀ x ∈ out, ∃ p c c' o, rs.get p = some c ∧ c.takeOut ops = .ok (c', o) ∧ x ∈ o) := by
  induction rs generalizing rs' out with
  | nil =>
    simp [takeAll] at h
    obtain ⟨rfl, rfl⟩ := h
    exact ⟨rfl, fun _ _ => rfl, by simp, by simp⟩
  | cons e rs ih =>
    obtain ⟨k, c⟩ := e
    simp only [takeAll, Run.bind_eq_ok] at h
    obtain ⟨⟨c', o⟩, h1, ⟨rs1, outs⟩, h2, h3⟩ := h
    simp only [Run.ok.injEq, Prod.mk.injEq] at h3
    obtain ⟨rfl, rfl⟩ := h3
    simp only [AMap.WF, AMap.keys_cons, List.nodup_cons] at wf
    have hk : AMap.get rs k = none := (AMap.get_eq_none_iff rs k).mpr wf.1
    have hinv' : ∀ p c, AMap.get rs p = some c → PInv ops evs T p c := by
      intro p d hd
      refine hinv p d ?_
      have : k ≠ p := by rintro rfl; rw [hk] at hd; cases hd
      simp [this, hd]
    obtain ⟨i1, i2, i3, i4⟩ := ih wf.2 hinv' h2
    have happ : ∀ p, dataTo p (o ++ outs) = dataTo p o ++ dataTo p outs := by
      intro p; simp [dataTo, List.filterMap_append]
    obtain ⟨_, fl, sub, ds, _, _, _, hds, _⟩ := (hinv k c (by simp)).takeOut h1
    refine ⟨by simp [AMap.keys_cons, i1], ?_, ?_, ?_⟩
    · intro p hp
      simp only [AMap.get_cons] at hp
      by_cases hkp : k = p
      · simp [hkp] at hp
      · simp only [hkp, if_false] at hp
        rw [happ, i2 p hp, hds p]; simp [hkp]
    · intro p d hd
      simp only [AMap.get_cons] at hd
      by_cases hkp : k = p
      · subst hkp
        simp at hd; subst hd
        exact ⟨c', o, h1, by simp, by rw [happ, i2 k hk, List.append_nil]⟩
      · simp only [hkp, if_false] at hd
        obtain ⟨d', o', a1, a2, a3⟩ := i3 p d hd
        refine ⟨d', o', a1, by simp [hkp, a2], ?_⟩
        rw [happ, hds p, a3]; simp [hkp]
    · intro x hx
      rcases List.mem_append.mp hx with hx | hx
      · exact ⟨k, c, c', o, by simp, h1, hx⟩
      · obtain ⟨p, d, d', o', a1, a2, a3⟩ := i4 x hx
        refine ⟨p, d, d', o', ?_, a2, a3⟩
        have : k ≠ p := by rintro rfl; rw [hk] at a1; cases a1
        simp [this, a1]

theorem MInv.set {ops : Ops S E H} {me R T : Nat} {evs : List (Ev S H)} {m : Module S E H} {p : Nat}
    {c : Peer S E H} (h : MInv ops me R T evs m) (hc : PInv ops evs T p c) :
    MInv ops me R T evs { m with replicas := m.replicas.set p c } := by
  refine ⟨h.id, h.retry, h.tmo, h.wf.set _ _, fun q d hd => ?_⟩
  simp only [AMap.get_set] at hd
  split at hd
  · rename_i e; subst e; simp at hd; subst hd; exact hc
  · exact h.peers q d hd

theorem MInv.step {ops : Ops S E H} {me R T : Nat} {evs : List (Ev S H)} {m m' : Module S E H} {ev : Ev S H}
    (h : MInv ops me R T evs m) (hs : Step ops m ev m') : MInv ops me R T (evs ++ [ev]) m' := by
  have hmono := h.mono ev
  cases hs with
  | @out _ fresh msg res ho =>
    unfold Module.processOut at ho
    split at ho
    · simp at ho; obtain ⟨rfl, rfl⟩ := ho; exact hmono
    · cases hch : m.channel msg.data.recipient fresh with
      | mk m1 r =>
        obtain ⟨hm1, _, _, hr⟩ := channel_spec hmono
          (fun s hs => Or.inl ⟨msg, res, by simp [hs], rfl⟩) hch
        rw [hch] at ho
        cases r with
        | none => simp at ho; obtain ⟨rfl, rfl⟩ := ho; exact hm1
        | some c =>
          simp only [Run.bind_eq_ok] at ho
          obtain ⟨c', hc', ho⟩ := ho
          simp only [Run.ok.injEq, Prod.mk.injEq] at ho
          obtain ⟨rfl, rfl⟩ := ho
          refine hm1.set ((hr c rfl).1.processOut rfl ?_ hc')
          rw [accepted_append]; simp [accepted]
  | @inn _ fresh msg res ho =>
    unfold Module.processIn at ho
    split at ho
    · simp at ho; obtain ⟨rfl, rfl⟩ := ho; exact hmono
    · cases hp : msg.peer with
      | none => rw [hp] at ho; simp at ho; obtain ⟨rfl, rfl⟩ := ho; exact hmono
      | some peer =>
        rw [hp] at ho
        simp only at ho
        cases hch : m.channel peer fresh with
        | mk m1 r =>
          obtain ⟨hm1, _, _, hr⟩ := channel_spec hmono
            (fun s hs => Or.inr ⟨msg, res, by simp [hs], hp⟩) hch
          rw [hch] at ho
          cases r with
          | none => simp at ho; obtain ⟨rfl, rfl⟩ := ho; exact hm1
          | some c =>
            simp only [Run.bind_eq_ok] at ho
            obtain ⟨⟨c', up⟩, hc', ho⟩ := ho
            simp only [Run.ok.injEq, Prod.mk.injEq] at ho
            obtain ⟨rfl, rfl⟩ := ho
            exact hm1.set ((hr c rfl).1.processIn hc').1
  | @take _ out ho =>
    unfold Module.takeOut at ho
    simp only [Run.bind_eq_ok] at ho
    obtain ⟨⟨rs, o⟩, h1, ho⟩ := ho
    simp only [Run.ok.injEq, Prod.mk.injEq] at ho
    obtain ⟨rfl, rfl⟩ := ho
    obtain ⟨hk, _, hsome, _⟩ := takeAll_spec hmono.wf hmono.peers h1
    refine ⟨h.id, h.retry, h.tmo, ?_, fun p c hc => ?_⟩
    · show AMap.WF rs
      unfold AMap.WF; rw [hk]; exact h.wf
    · cases hg : m.replicas.get p with
      | none =>
        exfalso
        have h1 := (AMap.get_isSome_iff rs p).mp (by rw [hc]; rfl)
        rw [hk, ← AMap.get_isSome_iff, hg] at h1
        cases h1
      | some d =>
        obtain ⟨c', o', a1, a2, _⟩ := hsome p d hg
        have : c = c' := by
          have : some c = some c' := by rw [← hc, ← a2]
          simpa using this
        subst this
        exact ((hmono.peers p d hg).takeOut a1).1
  | tick =>
    refine ⟨h.id, h.retry, h.tmo, AMap.WF.mapVals h.wf (fun _ c => c.moduleTick m.retry), fun p c hc => ?_⟩
    simp only [Module.tick, AMap.get_mapVals] at hc
    cases hg : m.replicas.get p with
    | none => rw [hg] at hc; simp at hc
    | some d => rw [hg] at hc; simp at hc; subst hc; exact ((hmono.peers p d hg).tick _).1
  | @cluster ids =>
    unfold Module.clusterChange
    split
    · refine ⟨h.id, h.retry, h.tmo, h.wf.filter _, fun p c hc => ?_⟩
      simp only [AMap.get_filter h.wf] at hc
      cases hg : m.replicas.get p with
      | none => rw [hg] at hc; simp at hc
      | some d =>
        rw [hg] at hc
        simp only [Option.filter] at hc
        split at hc
        · simp at hc; subst hc; exact hmono.peers p d hg
        · simp at hc
    · exact ⟨h.id, h.retry, h.tmo, AMap.WF.nil, by simp⟩
  | @shuffle rs hp =>
    refine ⟨h.id, h.retry, h.tmo, h.wf.perm hp.symm, fun p c hc => ?_⟩
    simp only at hc
    rw [AMap.get_perm h.wf hp.symm] at hc
    exact hmono.peers p c hc

theorem MInv.history {ops : Ops S E H} {me R T : Nat} {evs : List (Ev S H)} {m : Module S E H}
    (h : History ops me R T evs m) : MInv ops me R T evs m := by
  induction h with
  | init => exact ⟨rfl, rfl, rfl, AMap.WF.nil, by simp [Module.new, Module.init]⟩
  | step _ hs ih => exact ih.step hs

/-! ## What each call does to one peer -/

theorem processOut_frame {ops : Ops S E H} {m m' : Module S E H} {fresh : Option S} {u : Outgoing}
    {res : Except PalErr Unit} (h : m.processOut ops fresh u = .ok (m', res)) {q : Nat}
    (hq : q ≠ u.data.recipient) : m'.replicas.get q = m.replicas.get q := by
  unfold Module.processOut at h
  split at h
  · simp at h; obtain ⟨rfl, rfl⟩ := h; rfl
  · unfold Module.channel at h
    simp only at h
    split at h
    · rename_i m1 heq
      simp at h; obtain ⟨rfl, rfl⟩ := h
      split at heq
      · split at heq
        · simp at heq; subst heq; exact AMap.get_set_ne _ _ (Ne.symm hq)
        · simp at heq
      · simp at heq
    · rename_i m1 c heq
      simp only [Run.bind_eq_ok] at h
      obtain ⟨c', _, h⟩ := h
      simp only [Run.ok.injEq, Prod.mk.injEq] at h
      obtain ⟨rfl, rfl⟩ := h
      simp only
      rw [AMap.get_set_ne _ _ (Ne.symm hq)]
      split at heq
      · split at heq
        · simp at heq
        · simp at heq; obtain ⟨rfl, _⟩ := heq; exact AMap.get_set_ne _ _ (Ne.symm hq)
      · simp at heq; obtain ⟨rfl, _⟩ := heq; exact AMap.get_set_ne _ _ (Ne.symm hq)

theorem processIn_frame {ops : Ops S E H} {m m' : Module S E H} {fresh : Option S} {u : InMsg H}
    {res : Except PalErr (Option (InMsg H))} (h : m.processIn ops fresh u = .ok (m', res)) {q : Nat}
    (hq : some q ≠ u.peer) : m'.replicas.get q = m.replicas.get q := by
  unfold Module.processIn at h
  split at h
  · simp at h; obtain ⟨rfl, rfl⟩ := h; rfl
  · cases hp : u.peer with
    | none => rw [hp] at h; simp at h; obtain ⟨rfl, rfl⟩ := h; rfl
    | some p =>
      have hq : p ≠ q := by rintro rfl; exact hq hp.symm
      rw [hp] at h
      unfold Module.channel at h
      simp only at h
      split at h
      · rename_i m1 heq
        simp at h; obtain ⟨rfl, rfl⟩ := h
        split at heq
        · split at heq
          · simp at heq; subst heq; exact AMap.get_set_ne _ _ hq
          · simp at heq
        · simp at heq
      · rename_i m1 c heq
        simp only [Run.bind_eq_ok] at h
        obtain ⟨c', _, h⟩ := h
        simp only [Run.ok.injEq, Prod.mk.injEq] at h
        obtain ⟨rfl, rfl⟩ := h
        simp only
        rw [AMap.get_set_ne _ _ hq]
        split at heq
        · split at heq
          · simp at heq
          · simp at heq; obtain ⟨rfl, _⟩ := heq; exact AMap.get_set_ne _ _ hq
        · simp at heq; obtain ⟨rfl, _⟩ := heq; exact AMap.get_set_ne _ _ hq

theorem queueOf_congr {m m' : Module S E H} {p : Nat} (h : m'.replicas.get p = m.replicas.get p) :
    queueOf m' p = queueOf m p := by unfold queueOf; rw [h]

theorem statusOf_congr {m m' : Module S E H} {p : Nat} (h : m'.replicas.get p = m.replicas.get p) :
    statusOf m' p = statusOf m p := by unfold statusOf; rw [h]

/-- An accepted message is queued, unless it had to open the channel and the session could not. -/
theorem processOut_queue {ops : Ops S E H} {me R T : Nat} {evs : List (Ev S H)} {m m' : Module S E H}
    {fresh : Option S} {u : Outgoing} {res : Except PalErr Unit} (hi : MInv ops me R T evs m)
    (h : m.processOut ops fresh u = .ok (m', res)) :
    (∀ e, res = .error e → queueOf m' u.data.recipient = queueOf m u.data.recipient ∧
      statusOf m' u.data.recipient = statusOf m u.data.recipient) ∧
    (res = .ok () → statusOf m u.data.recipient ≠ .unknown →
      (∀ s, m.replicas.get u.data.recipient = some s → s.status ≠ .initialized) →
        queueOf m' u.data.recipient = push (queueOf m u.data.recipient) u ∧
        statusOf m' u.data.recipient = statusOf m u.data.recipient) ∧
    (res = .ok () → statusOf m u.data.recipient = .unknown → ∃ s, fresh = some s ∧
      (∀ hh, (ops.takeOut s).2 = .ok (some hh) →
        queueOf m' u.data.recipient = push (queueOf m u.data.recipient) u ∧
        statusOf m' u.data.recipient = .initiated 0 ∧
        ((m'.replicas.get u.data.recipient).bind (·.pending)) = some hh) ∧
      ((∀ hh, (ops.takeOut s).2 ≠ .ok (some hh)) →
        queueOf m' u.data.recipient = queueOf m u.data.recipient ∧
        statusOf m' u.data.recipient = .failed 0)) := by
  unfold Module.processOut at h
  split at h
  · simp at h; obtain ⟨rfl, rfl⟩ := h; simp
  · cases hch : m.channel u.data.recipient fresh with
    | mk m1 r =>
      have hi' : MInv ops me R T (evs ++ [.out u fresh (.ok ())]) m := hi.mono _
      obtain ⟨_, _, ⟨c, hc1, hc2, hc3, hcid, hcr⟩, hr⟩ := channel_spec hi'
        (fun s hs => Or.inl ⟨u, .ok (), by simp [hs], rfl⟩) hch
      rw [hch] at h
      cases r with
      | none =>
        simp at h; obtain ⟨rfl, rfl⟩ := h
        simp [queueOf, statusOf, hc1]
        exact ⟨hc2, hc3⟩
      | some c0 =>
        simp only [Run.bind_eq_ok] at h
        obtain ⟨c', hc', h⟩ := h
        simp only [Run.ok.injEq, Prod.mk.injEq] at h
        obtain ⟨rfl, rfl⟩ := h
        refine ⟨by simp, ?_, ?_⟩
        · intro _ hst hni
          rcases hcr with ⟨hf, _⟩ | ⟨s, hs, _⟩ | ⟨hs, he⟩
          · cases hf
          · exact absurd (hc3 ▸ hs) hst
          · simp at he; subst he
            have hs2 : c0.status ≠ .initialized := by
              cases hg : m.replicas.get u.data.recipient with
              | none => simp [statusOf, hg] at hst
              | some x => rw [hcid x hg]; exact hni x hg
            simp only [queueOf, statusOf, AMap.get_set_self, Option.map_some, Option.getD_some]
            rw [show ((m.replicas.get u.data.recipient).map (·.queue)).getD [] = c0.queue from hc2.symm,
              show ((m.replicas.get u.data.recipient).map (·.status)).getD .unknown = c0.status from hc3.symm]
            unfold Peer.processOut at hc'
            cases hst' : c0.status with
            | unknown => exact absurd hst' hs
            | initialized => exact absurd hst' hs2
            | initiated t => rw [hst'] at hc'; simp at hc'; subst hc'; simp
            | completed => rw [hst'] at hc'; simp at hc'; subst hc'; simp
            | failed t => rw [hst'] at hc'; simp at hc'; subst hc'; simp
        · intro _ hst
          rcases hcr with ⟨hf, _⟩ | ⟨s, hs, hfr, he⟩ | ⟨hs, he⟩
          · cases hf
          · simp at he; subst he
            refine ⟨s, hfr, ?_, ?_⟩
            · intro hh hto
              simp only [queueOf, statusOf, AMap.get_set_self, Option.map_some, Option.getD_some]
              rw [show ((m.replicas.get u.data.recipient).map (·.queue)).getD [] = c.queue from hc2.symm]
              simp only [Peer.processOut, Peer.init, hto] at hc'
              simp at hc'; subst hc'; simp
            · intro hto
              simp only [queueOf, statusOf, AMap.get_set_self, Option.map_some, Option.getD_some]
              rw [show ((m.replicas.get u.data.recipient).map (·.queue)).getD [] = c.queue from hc2.symm]
              simp only [Peer.processOut, Peer.init] at hc'
              cases ho : (ops.takeOut s).2 with
              | error x => rw [ho] at hc'; simp at hc'; subst hc'; simp
              | ok o =>
                cases o with
                | none => rw [ho] at hc'; simp at hc'; subst hc'; simp
                | some hh => exact absurd ho (hto hh)
          · exact absurd (hc3 ▸ hst) hs

/-- Incoming messages never touch a queue. -/
theorem processIn_queue {ops : Ops S E H} {me R T : Nat} {evs : List (Ev S H)} {m m' : Module S E H}
    {fresh : Option S} {u : InMsg H} {res : Except PalErr (Option (InMsg H))} (hi : MInv ops me R T evs m)
    (h : m.processIn ops fresh u = .ok (m', res)) (p : Nat) : queueOf m' p = queueOf m p := by
  by_cases hq : some p = u.peer
  · unfold Module.processIn at h
    split at h
    · simp at h; obtain ⟨rfl, rfl⟩ := h; rfl
    · rw [← hq] at h
      simp only at h
      cases hch : m.channel p fresh with
      | mk m1 r =>
        have hi' : MInv ops me R T (evs ++ [.inn u fresh (.ok none)]) m := hi.mono _
        obtain ⟨_, _, ⟨c, hc1, hc2, hc3, hcid, hcr⟩, hr⟩ := channel_spec hi'
          (fun s hs => Or.inr ⟨u, .ok none, by simp [hs], hq.symm⟩) hch
        rw [hch] at h
        cases r with
        | none =>
          simp at h; obtain ⟨rfl, rfl⟩ := h
          rw [← hc2]; simp [queueOf, hc1]
        | some c0 =>
          simp only [Run.bind_eq_ok] at h
          obtain ⟨⟨c', up⟩, hc', h⟩ := h
          simp only [Run.ok.injEq, Prod.mk.injEq] at h
          obtain ⟨rfl, rfl⟩ := h
          have h1 := hr c0 rfl
          rw [← h1.2, ← (h1.1.processIn hc').2.1]
          simp [queueOf]
  · exact queueOf_congr (processIn_frame h hq)

theorem tick_get (m : Module S E H) (p : Nat) :
    m.tick.replicas.get p = (m.replicas.get p).map (Peer.moduleTick m.retry) := by
  simp [Module.tick, AMap.get_mapVals]

theorem moduleTick_queue (R : Nat) (c : Peer S E H) : (c.moduleTick R).queue = c.queue := by
  have ht : c.tick.queue = c.queue := by
    unfold Peer.tick
    cases c.status <;> simp
    split <;> rfl
  unfold Peer.moduleTick
  simp only
  split
  · split
    · simp [Peer.reset, ht]
    · exact ht
  · exact ht

theorem tick_queue (m : Module S E H) (p : Nat) : queueOf m.tick p = queueOf m p := by
  unfold queueOf
  rw [tick_get]
  cases m.replicas.get p <;> simp [moduleTick_queue]

theorem cluster_get {ops : Ops S E H} {me R T : Nat} {evs : List (Ev S H)} {m : Module S E H}
    (hi : MInv ops me R T evs m) {ids : List Nat} (p : Nat) :
    (m.clusterChange ids).replicas.get p = if me ∈ ids ∧ p ∈ ids then m.replicas.get p else none := by
  unfold Module.clusterChange
  rw [hi.id]
  by_cases h : me ∈ ids
  · simp only [h, if_true, AMap.get_filter hi.wf]
    by_cases hp : p ∈ ids
    · simp only [hp, decide_true, true_and, if_true]
      cases m.replicas.get p <;> rfl
    · simp only [hp, decide_false, true_and, if_false]
      cases m.replicas.get p <;> simp [Option.filter]
  · simp [h]

theorem cluster_get_self {ops : Ops S E H} {me R T : Nat} {evs : List (Ev S H)} {m : Module S E H}
    (hi : MInv ops me R T evs m) {ids : List Nat} {p : Nat} (h : me ∈ ids ∧ p ∈ ids) :
    (m.clusterChange ids).replicas.get p = m.replicas.get p := by rw [cluster_get hi, if_pos h]

theorem emitted_append (p : Nat) (a b : List (Ev S H)) : emitted p (a ++ b) = emitted p a ++ emitted p b := by
  simp [emitted, List.flatMap_append]

theorem others_append (a b : List Outgoing) : others (a ++ b) = others a ++ others b := by simp [others]
theorem heartbeats_append (a b : List Outgoing) : heartbeats (a ++ b) = heartbeats a ++ heartbeats b := by
  simp [heartbeats]

/-! ## Stored channels are never left half initialised -/

theorem processOut_ninit {ops : Ops S E H} {c c' : Peer S E H} {u : Outgoing} (h : c.processOut ops u = .ok c') :
    c'.status ≠ .initialized := by
  unfold Peer.processOut at h
  cases hst : c.status with
  | unknown => rw [hst] at h; simp at h; subst h; simp
  | initialized =>
    rw [hst] at h
    simp only at h
    cases hse : c.session with
    | none => rw [hse] at h; simp at h
    | some s =>
      rw [hse] at h
      simp only at h
      cases ho : (ops.takeOut s).2 with
      | error x => rw [ho] at h; simp at h; subst h; simp
      | ok o => cases o <;> (rw [ho] at h; simp at h; subst h; simp)
  | initiated t => rw [hst] at h; simp at h; subst h; simp
  | completed => rw [hst] at h; simp at h; subst h; simp
  | failed t => rw [hst] at h; simp at h; subst h; simp

theorem processIn_ninit {ops : Ops S E H} {c c' : Peer S E H} {u : InMsg H} {up : Option (InMsg H)}
    (h : c.processIn ops u = .ok (c', up)) : c'.status ≠ .initialized := by
  unfold Peer.processIn at h
  simp only at h
  cases hst : c.status with
  | unknown => rw [hst] at h; simp at h; obtain ⟨rfl, rfl⟩ := h; simp
  | failed t => rw [hst] at h; simp at h; obtain ⟨rfl, rfl⟩ := h; simp [hst]
  | completed =>
    rw [hst] at h
    simp only [Peer.decrypt] at h
    cases hen : c.encryptor with
    | none => rw [hen] at h; simp at h
    | some e =>
      rw [hen] at h
      cases u with
      | other => simp at h; obtain ⟨rfl, rfl⟩ := h; simp [hst]
      | handshake a b => simp at h; obtain ⟨rfl, rfl⟩ := h; simp
      | data d =>
        simp only at h
        cases hpl : d.payload with
        | none => rw [hpl] at h; simp at h
        | some pl => rw [hpl] at h; simp at h; obtain ⟨rfl, rfl⟩ := h; simp [hst]
  | initialized =>
    simp only [hst] at h
    cases u with
    | other => simp at h; obtain ⟨rfl, rfl⟩ := h; simp
    | data d => simp at h; obtain ⟨rfl, rfl⟩ := h; simp
    | handshake a b =>
      simp only at h
      cases hse : c.session with
      | none => rw [hse] at h; simp at h
      | some s =>
        rw [hse] at h
        simp only at h
        cases h1 : (ops.process s b).2 with
        | error x => rw [h1] at h; simp at h; obtain ⟨rfl, rfl⟩ := h; simp
        | ok x =>
          rw [h1] at h
          simp only at h
          cases h2 : (ops.takeOut (ops.process s b).1).2 with
          | error x => rw [h2] at h; simp at h; obtain ⟨rfl, rfl⟩ := h; simp
          | ok o =>
            rw [h2] at h
            simp only at h
            split at h
            · simp at h; obtain ⟨rfl, rfl⟩ := h; simp
            · simp at h; obtain ⟨rfl, rfl⟩ := h; simp
  | initiated t =>
    simp only [hst] at h
    cases u with
    | other => simp at h; obtain ⟨rfl, rfl⟩ := h; simp
    | data d => simp at h; obtain ⟨rfl, rfl⟩ := h; simp
    | handshake a b =>
      simp only at h
      cases hse : c.session with
      | none => rw [hse] at h; simp at h
      | some s =>
        rw [hse] at h
        simp only at h
        cases h1 : (ops.process s b).2 with
        | error x => rw [h1] at h; simp at h; obtain ⟨rfl, rfl⟩ := h; simp
        | ok x =>
          rw [h1] at h
          simp only at h
          cases h2 : (ops.takeOut (ops.process s b).1).2 with
          | error x => rw [h2] at h; simp at h; obtain ⟨rfl, rfl⟩ := h; simp
          | ok o =>
            rw [h2] at h
            simp only at h
            split at h
            · simp at h; obtain ⟨rfl, rfl⟩ := h; simp
            · simp at h; obtain ⟨rfl, rfl⟩ := h; simp

theorem takeOut_status {ops : Ops S E H} {c c' : Peer S E H} {out : List (OutMsg H)}
    (h : c.takeOut ops = .ok (c', out)) : c'.status = c.status := by
  unfold Peer.takeOut at h
  split at h
  · simp at h; obtain ⟨rfl, rfl⟩ := h; rfl
  · split at h
    · split at h
      · simp at h
      · simp only [Run.bind_eq_ok] at h
        obtain ⟨⟨e', o⟩, _, h⟩ := h
        simp at h; obtain ⟨rfl, rfl⟩ := h; rfl
    · simp at h; obtain ⟨rfl, rfl⟩ := h; rfl

theorem moduleTick_status (R : Nat) (c : Peer S E H) : (c.moduleTick R).status =
    match c.status with
    | .failed t => if t + 1 ≥ R then .unknown else .failed (t + 1)
    | .initiated t => if t + 1 ≥ c.timeout then (if R = 0 then .unknown else .failed 0) else .initiated (t + 1)
    | s => s := by
  unfold Peer.moduleTick Peer.tick
  cases hst : c.status with
  | unknown => simp [hst]
  | initialized => simp [hst]
  | completed => simp [hst]
  | failed t =>
    simp only
    split
    · simp [Peer.reset]
    · rfl
  | initiated t =>
    simp only
    by_cases h : t + 1 ≥ c.timeout
    · rw [if_pos h, if_pos h]
      simp only
      by_cases hR : R = 0
      · simp [hR, Peer.reset]
      · have : ¬ (0 ≥ R) := by omega
        simp [hR]
    · rw [if_neg h, if_neg h]

/-- No stored channel is in the transient state `initialized`. -/
def NInit (m : Module S E H) : Prop := ∀ p c, m.replicas.get p = some c → c.status ≠ .initialized

theorem NInit.set {m : Module S E H} {p : Nat} {c : Peer S E H}
    (hc : c.status ≠ .initialized) (h : ∀ q, q ≠ p → ∀ d, m.replicas.get q = some d → d.status ≠ .initialized) :
    NInit { m with replicas := m.replicas.set p c } := by
  intro q d hd
  simp only [AMap.get_set] at hd
  split at hd
  · simp at hd; subst hd; exact hc
  · rename_i hne; exact h q (Ne.symm hne) d hd

theorem NInit.step {ops : Ops S E H} {me R T : Nat} {evs : List (Ev S H)} {m m' : Module S E H} {ev : Ev S H}
    (hi : MInv ops me R T evs m) (h : NInit m) (hs : Step ops m ev m') : NInit m' := by
  cases hs with
  | @out _ fresh msg res ho =>
    intro p c hc
    by_cases hp : p = msg.data.recipient
    · subst hp
      unfold Module.processOut at ho
      split at ho
      · simp at ho; obtain ⟨rfl, rfl⟩ := ho; exact h _ c hc
      · split at ho
        · rename_i m1 heq
          simp at ho; obtain ⟨rfl, rfl⟩ := ho
          obtain ⟨_, _, ⟨c1, hc1, _, hc3, hcid, hcr⟩, _⟩ := channel_spec (hi.mono (.out msg fresh (.ok ())))
            (fun s hs => Or.inl ⟨msg, .ok (), by simp [hs], rfl⟩) heq
          rw [hc1] at hc; simp at hc; subst hc
          rcases hcr with ⟨_, hu, _⟩ | ⟨s, hu, _⟩ | ⟨hu, hf⟩
          · simp [hu]
          · simp [hu]
          · cases hf
        · simp only [Run.bind_eq_ok] at ho
          obtain ⟨c', hc', ho⟩ := ho
          simp only [Run.ok.injEq, Prod.mk.injEq] at ho
          obtain ⟨rfl, rfl⟩ := ho
          simp at hc; subst hc
          exact processOut_ninit hc'
    · rw [processOut_frame ho hp] at hc; exact h p c hc
  | @inn _ fresh msg res ho =>
    intro p c hc
    by_cases hp : some p = msg.peer
    · unfold Module.processIn at ho
      split at ho
      · simp at ho; obtain ⟨rfl, rfl⟩ := ho; exact h _ c hc
      · rw [← hp] at ho
        simp only at ho
        split at ho
        · rename_i m1 heq
          simp at ho; obtain ⟨rfl, rfl⟩ := ho
          obtain ⟨_, _, ⟨c1, hc1, _, hc3, hcid, hcr⟩, _⟩ := channel_spec (hi.mono (.inn msg fresh (.ok none)))
            (fun s hs => Or.inr ⟨msg, .ok none, by simp [hs], hp.symm⟩) heq
          rw [hc1] at hc; simp at hc; subst hc
          rcases hcr with ⟨_, hu, _⟩ | ⟨s, hu, _⟩ | ⟨hu, hf⟩
          · simp [hu]
          · simp [hu]
          · cases hf
        · simp only [Run.bind_eq_ok] at ho
          obtain ⟨⟨c', up⟩, hc', ho⟩ := ho
          simp only [Run.ok.injEq, Prod.mk.injEq] at ho
          obtain ⟨rfl, rfl⟩ := ho
          simp at hc; subst hc
          exact processIn_ninit hc'
    · rw [processIn_frame ho hp] at hc; exact h p c hc
  | @take _ out ho =>
    unfold Module.takeOut at ho
    simp only [Run.bind_eq_ok] at ho
    obtain ⟨⟨rs, o⟩, h1, ho⟩ := ho
    simp only [Run.ok.injEq, Prod.mk.injEq] at ho
    obtain ⟨rfl, rfl⟩ := ho
    obtain ⟨hk, _, hsome, _⟩ := takeAll_spec hi.wf hi.peers h1
    intro p c hc
    cases hg : m.replicas.get p with
    | none =>
      exfalso
      have h1 := (AMap.get_isSome_iff rs p).mp (by rw [hc]; rfl)
      rw [hk, ← AMap.get_isSome_iff, hg] at h1
      cases h1
    | some d =>
      obtain ⟨c', o', a1, a2, _⟩ := hsome p d hg
      have : some c = some c' := by rw [← hc, ← a2]
      simp at this; subst this
      rw [takeOut_status a1]; exact h p d hg
  | tick =>
    intro p c hc
    rw [tick_get] at hc
    cases hg : m.replicas.get p with
    | none => rw [hg] at hc; simp at hc
    | some d =>
      rw [hg] at hc; simp at hc; subst hc
      have := h p d hg
      rw [moduleTick_status]
      cases hst : d.status with
      | unknown => simp
      | initialized => exact absurd hst this
      | completed => simp
      | failed t => simp only; split <;> simp
      | initiated t => simp only; split <;> (try split) <;> simp
  | @cluster ids =>
    intro p c hc
    rw [cluster_get hi] at hc
    split at hc
    · exact h p c hc
    · cases hc
  | @shuffle rs hp =>
    intro p c hc
    simp only at hc
    rw [AMap.get_perm hi.wf hp.symm] at hc
    exact h p c hc

theorem NInit.history {ops : Ops S E H} {me R T : Nat} {evs : List (Ev S H)} {m : Module S E H}
    (h : History ops me R T evs m) : NInit m := by
  induction h with
  | init => intro p c hc; simp [Module.new, Module.init] at hc
  | step hh hs ih => exact NInit.step (MInv.history hh) ih hs

theorem takeOut_idle {ops : Ops S E H} {c c' : Peer S E H} {out : List (OutMsg H)}
    (h : c.takeOut ops = .ok (c', out)) (hs : c.status ≠ .completed) : c'.queue = c.queue := by
  unfold Peer.takeOut at h
  split at h
  · simp at h; obtain ⟨rfl, rfl⟩ := h; rfl
  · rw [if_neg hs] at h
    simp at h; obtain ⟨rfl, rfl⟩ := h; rfl

/-- One `take` seen from one peer. -/
theorem take_peer {ops : Ops S E H} {me R T : Nat} {evs : List (Ev S H)} {m m' : Module S E H}
    {out : List (OutMsg H)} (hi : MInv ops me R T evs m) (h : m.takeOut ops = .ok (m', out)) (p : Nat) :
    (m.replicas.get p = none ∧ m'.replicas.get p = none ∧ dataTo p out = []) ∨
    ∃ c c' o, m.replicas.get p = some c ∧ c.takeOut ops = .ok (c', o) ∧ m'.replicas.get p = some c' ∧
      dataTo p out = dataTo p o := by
  unfold Module.takeOut at h
  simp only [Run.bind_eq_ok] at h
  obtain ⟨⟨rs, o⟩, h1, ho⟩ := h
  simp only [Run.ok.injEq, Prod.mk.injEq] at ho
  obtain ⟨rfl, rfl⟩ := ho
  obtain ⟨hk, hnone, hsome, _⟩ := takeAll_spec hi.wf hi.peers h1
  cases hg : m.replicas.get p with
  | none =>
    refine Or.inl ⟨rfl, ?_, hnone p hg⟩
    rw [AMap.get_eq_none_iff, hk, ← AMap.get_eq_none_iff]; exact hg
  | some c =>
    obtain ⟨c', o', a1, a2, a3⟩ := hsome p c hg
    exact Or.inr ⟨c, c', o', rfl, a1, a2, a3⟩

theorem Spec.History.steps {ops : Ops S E H} {me R T : Nat} {evs suf : List (Ev S H)} {m m' : Module S E H}
    (h : History ops me R T evs m) (hs : Steps ops m suf m') : History ops me R T (evs ++ suf) m' := by
  induction hs generalizing evs with
  | refl => simpa using h
  | step h1 _ ih => simpa using ih (h.step h1)

/-! ## The life of a handshake that gets no answer -/

/-- Status `n` ticks after the handshake was started. -/
def phase (T R n : Nat) : Status :=
  if n < max T 1 then .initiated n else if n < max T 1 + R then .failed (n - max T 1) else .unknown

theorem phase_step {ops : Ops S E H} {me R T p n : Nat} {evs : List (Ev S H)} {m m' : Module S E H} {ev : Ev S H}
    (hi : MInv ops me R T evs m) (hni : NInit m) (hs : Step ops m ev m') (hk : KeepsPeer me p [ev])
    (hsil : SilentFrom p [ev]) (hst : statusOf m p = phase T R n) (hn : n < max T 1 + R) :
    statusOf m' p = phase T R (n + tickCount [ev]) ∧
    others (queueOf m' p) = others (queueOf m p) ++ others (accepted p [ev]) := by
  have hnu : statusOf m p ≠ .unknown := by
    rw [hst]; unfold phase
    by_cases h1 : n < max T 1
    · rw [if_pos h1]; simp
    · rw [if_neg h1, if_pos hn]; simp
  have hnc : statusOf m p ≠ .completed := by
    rw [hst]; unfold phase
    by_cases h1 : n < max T 1
    · rw [if_pos h1]; simp
    · rw [if_neg h1, if_pos hn]; simp
  cases hs with
  | @out _ fresh u res ho =>
    have ht : tickCount [Ev.out (H := H) u fresh res] = 0 := by simp [tickCount]
    rw [ht, Nat.add_zero]
    by_cases hp : p = u.data.recipient
    · subst hp
      obtain ⟨herr, hok1, _⟩ := processOut_queue hi ho
      cases hres : res with
      | error e =>
        obtain ⟨h1, h2⟩ := herr e hres
        rw [h1, h2, hst]; simp [accepted, others]
      | ok x =>
        obtain ⟨h1, h2⟩ := hok1 hres hnu (fun s hs => hni _ s hs)
        rw [h1, h2, hst, others_push]; simp [accepted]
    · rw [queueOf_congr (processOut_frame ho hp), statusOf_congr (processOut_frame ho hp), hst]
      cases res <;> simp [accepted, Ne.symm hp, others]
  | @inn _ fresh u res ho =>
    have ht : tickCount [Ev.inn u fresh res] = 0 := by simp [tickCount]
    have hf := processIn_frame ho (q := p) (fun he => hsil u fresh res (by simp) he.symm)
    rw [ht, Nat.add_zero, queueOf_congr hf, statusOf_congr hf, hst]
    simp [accepted, others]
  | @cluster ids =>
    have ht : tickCount [Ev.cluster (S := S) (H := H) ids] = 0 := by simp [tickCount]
    have hf := cluster_get_self hi (hk ids (by simp))
    rw [ht, Nat.add_zero, queueOf_congr hf, statusOf_congr hf, hst]
    simp [accepted, others]
  | @shuffle rs hp =>
    have ht : tickCount [Ev.shuffle (S := S) (H := H)] = 0 := by simp [tickCount]
    have hf : AMap.get ({ m with replicas := rs } : Module S E H).replicas p = m.replicas.get p :=
      AMap.get_perm hi.wf hp.symm _
    rw [ht, Nat.add_zero, queueOf_congr hf, statusOf_congr hf, hst]
    simp [accepted, others]
  | @take _ out ho =>
    have ht : tickCount [Ev.take (S := S) out] = 0 := by simp [tickCount]
    rw [ht, Nat.add_zero, ← hst]
    rcases take_peer hi ho p with ⟨h1, h2, _⟩ | ⟨c, c', o, h1, h2, h3, _⟩
    · have := h2.trans h1.symm
      rw [queueOf_congr this, statusOf_congr this]; simp [accepted, others]
    · have hcs : c.status ≠ .completed := by
        simpa [statusOf, h1] using hnc
      simp [statusOf, queueOf, h1, h3, takeOut_status h2, takeOut_idle h2 hcs, accepted, others]
  | tick =>
    have ht : tickCount [Ev.tick (S := S) (H := H)] = 1 := by simp [tickCount]
    rw [ht, tick_queue]
    refine ⟨?_, by simp [accepted, others]⟩
    cases hg : m.replicas.get p with
    | none => simp [statusOf, hg] at hnu
    | some c =>
      have hc : c.status = phase T R n := by simpa [statusOf, hg] using hst
      have htm := (hi.peers p c hg).tm
      have : statusOf m.tick p = (c.moduleTick R).status := by
        simp [statusOf, tick_get, hg, hi.retry]
      rw [this, moduleTick_status, hc, htm]
      unfold phase
      by_cases h1 : n < max T 1
      · rw [if_pos h1]
        simp only
        by_cases h2 : n + 1 ≥ T
        · have h4 : ¬ n + 1 < max T 1 := by omega
          rw [if_pos h2, if_neg h4]
          by_cases h3 : R = 0
          · have h5 : ¬ n + 1 < max T 1 + R := by omega
            rw [if_pos h3, if_neg h5]
          · have h5 : n + 1 < max T 1 + R := by omega
            rw [if_neg h3, if_pos h5]
            congr 1; omega
        · rw [if_neg h2, if_pos (by omega)]
      · rw [if_neg h1, if_pos hn]
        simp only
        have h4 : ¬ n + 1 < max T 1 := by omega
        rw [if_neg h4]
        by_cases h2 : n - max T 1 + 1 ≥ R
        · have h5 : ¬ n + 1 < max T 1 + R := by omega
          rw [if_pos h2, if_neg h5]
        · have h5 : n + 1 < max T 1 + R := by omega
          rw [if_neg h2, if_pos h5]
          congr 1; omega

theorem phase_steps {ops : Ops S E H} {me R T p n : Nat} {evs suf : List (Ev S H)} {m m' : Module S E H}
    (h : History ops me R T evs m) (hs : Steps ops m suf m') (hk : KeepsPeer me p suf)
    (hsil : SilentFrom p suf) (hst : statusOf m p = phase T R n) (hn : n + tickCount suf < max T 1 + R) :
    statusOf m' p = phase T R (n + tickCount suf) ∧
    others (queueOf m' p) = others (queueOf m p) ++ others (accepted p suf) := by
  induction hs generalizing evs n with
  | refl => simp [tickCount, accepted, others, hst]
  | @step m ev m1 suf m' h1 _ ih =>
    have htc : tickCount (ev :: suf) = tickCount [ev] + tickCount suf := by
      unfold tickCount; rw [← List.length_append, ← List.filter_append]; rfl
    have hac : accepted p (ev :: suf) = accepted p [ev] ++ accepted p suf := by
      rw [← accepted_append]; rfl
    obtain ⟨a1, a2⟩ := phase_step (MInv.history h) (NInit.history h) h1
      (fun ids hi => hk ids (by simp at hi; simp [hi]))
      (fun u f r hu => hsil u f r (by simp at hu; simp [hu])) hst (by omega)
    obtain ⟨b1, b2⟩ := ih (h.step h1) (fun ids hi => hk ids (by simp [hi]))
      (fun u f r hu => hsil u f r (by simp [hu])) a1 (by omega)
    refine ⟨by rw [b1, htc, Nat.add_assoc], ?_⟩
    rw [b2, a2, hac, others_append, List.append_assoc]

/-! ## Queue accounting over a history -/

/-- How the accepted messages of a peer are accounted for. -/
structure QInv (ops : Ops S E H) (p : Nat) (evs : List (Ev S H)) (q : List Outgoing)
    (flushed sub : List Outgoing) : Prop where
  subl : sub.Sublist flushed
  total : EncryptionTotal ops → sub = flushed
  emit : Matched (fun d u => ∃ e, Established ops evs p e ∧ CipherBy ops e d u) (emitted p evs) sub
  oth : others (accepted p evs) = others (flushed ++ q)
  hbs : (heartbeats (flushed ++ q)).Sublist (heartbeats (accepted p evs))
  hbLast : (heartbeats (flushed ++ q)).getLast? = (heartbeats (accepted p evs)).getLast?

theorem emitted_ext {ops : Ops S E H} {p : Nat} {evs : List (Ev S H)} {ds : List Data} {sub : List Outgoing}
    (ev : Ev S H) (h : Matched (fun d u => ∃ e, Established ops evs p e ∧ CipherBy ops e d u) ds sub) :
    Matched (fun d u => ∃ e, Established ops (evs ++ [ev]) p e ∧ CipherBy ops e d u) ds sub :=
  h.imp fun _ _ ⟨e, h1, h2⟩ => ⟨e, h1.mono ev, h2⟩

theorem QInv.same {ops : Ops S E H} {p : Nat} {evs : List (Ev S H)} {q fl sub : List Outgoing}
    (h : QInv ops p evs q fl sub) (ev : Ev S H) (ha : accepted p [ev] = []) (he : emitted p [ev] = []) :
    QInv ops p (evs ++ [ev]) q fl sub := by
  refine ⟨h.subl, h.total, ?_, ?_, ?_, ?_⟩
  · rw [emitted_append, he, List.append_nil]; exact emitted_ext ev h.emit
  · rw [accepted_append, ha, List.append_nil]; exact h.oth
  · rw [accepted_append, ha, List.append_nil]; exact h.hbs
  · rw [accepted_append, ha, List.append_nil]; exact h.hbLast

theorem QInv.accept {ops : Ops S E H} {p : Nat} {evs : List (Ev S H)} {q fl sub : List Outgoing} {u : Outgoing}
    (h : QInv ops p evs q fl sub) (ev : Ev S H) (hq : (heartbeats q).length ≤ 1)
    (ha : accepted p [ev] = [u]) (he : emitted p [ev] = []) :
    QInv ops p (evs ++ [ev]) (push q u) fl sub := by
  refine ⟨h.subl, h.total, ?_, ?_, ?_, ?_⟩
  · rw [emitted_append, he, List.append_nil]; exact emitted_ext ev h.emit
  · rw [accepted_append, ha, others_append, others_append, others_push, h.oth, others_append,
      List.append_assoc]
  · have hb := h.hbs
    rw [accepted_append, ha, heartbeats_append, heartbeats_append, heartbeats_push]
    rw [heartbeats_append] at hb
    by_cases hu : u.isHeartbeat
    · rw [if_pos hu]
      have h1 : heartbeats [u] = [u] := by simp [heartbeats, hu]
      rw [h1]
      have hfl : (heartbeats fl).Sublist (heartbeats (accepted p evs)) :=
        (List.sublist_append_left _ _).trans hb
      by_cases hn : heartbeats q = []
      · rw [if_pos hn]; exact hfl.append (List.Sublist.refl _)
      · rw [if_neg hn]
        have : (heartbeats q).drop 1 = [] := by
          apply List.drop_eq_nil_of_le; exact hq
        rw [this]
        exact hfl.append (List.Sublist.refl _)
    · rw [if_neg hu]
      have h1 : heartbeats [u] = [] := by simp [heartbeats, hu]
      rw [h1, List.append_nil]; exact hb
  · have hb := h.hbLast
    rw [accepted_append, ha, heartbeats_append, heartbeats_append, heartbeats_push]
    rw [heartbeats_append] at hb
    by_cases hu : u.isHeartbeat
    · rw [if_pos hu]
      have h1 : heartbeats [u] = [u] := by simp [heartbeats, hu]
      rw [h1]
      by_cases hn : heartbeats q = []
      · rw [if_pos hn]; simp
      · rw [if_neg hn]
        have : (heartbeats q).drop 1 = [] := by
          apply List.drop_eq_nil_of_le; exact hq
        rw [this]; simp
    · rw [if_neg hu]
      have h1 : heartbeats [u] = [] := by simp [heartbeats, hu]
      rw [h1, List.append_nil]; exact hb

theorem queueOf_hb {ops : Ops S E H} {me R T : Nat} {evs : List (Ev S H)} {m : Module S E H}
    (hi : MInv ops me R T evs m) (p : Nat) : (heartbeats (queueOf m p)).length ≤ 1 := by
  unfold queueOf
  cases hg : m.replicas.get p with
  | none => simp [heartbeats]
  | some c => simpa using (hi.peers p c hg).hb

theorem QInv.step {ops : Ops S E H} {me R T p : Nat} {evs : List (Ev S H)} {m m' : Module S E H} {ev : Ev S H}
    {fl sub : List Outgoing}
    (hi : MInv ops me R T evs m) (hni : NInit m) (hs : Step ops m ev m') (hk : KeepsPeer me p [ev])
    (hco : CanOpen ops p [ev]) (h : QInv ops p evs (queueOf m p) fl sub) :
    ∃ fl' sub', QInv ops p (evs ++ [ev]) (queueOf m' p) fl' sub' := by
  cases hs with
  | @out _ fresh u res ho =>
    by_cases hp : p = u.data.recipient
    · subst hp
      obtain ⟨herr, hok1, hok2⟩ := processOut_queue hi ho
      cases hres : res with
      | error e =>
        rw [(herr e hres).1]
        exact ⟨fl, sub, h.same _ (by simp [accepted]) (by simp [emitted])⟩
      | ok x =>
        have hq : queueOf m' u.data.recipient = push (queueOf m u.data.recipient) u := by
          by_cases hst : statusOf m u.data.recipient = .unknown
          · obtain ⟨s, hf, h1, _⟩ := hok2 hres hst
            obtain ⟨hh, hto⟩ := hco u s res (by simp [hf]) rfl
            exact (h1 hh hto).1
          · exact (hok1 hres hst (fun s hs => hni _ s hs)).1
        rw [hq]
        exact ⟨fl, sub, h.accept _ (queueOf_hb hi _) (by simp [accepted]) (by simp [emitted])⟩
    · rw [queueOf_congr (processOut_frame ho hp)]
      refine ⟨fl, sub, h.same _ ?_ (by simp [emitted])⟩
      cases res <;> simp [accepted, Ne.symm hp]
  | @inn _ fresh u res ho =>
    rw [processIn_queue hi ho]
    exact ⟨fl, sub, h.same _ (by simp [accepted]) (by simp [emitted])⟩
  | tick =>
    rw [tick_queue]
    exact ⟨fl, sub, h.same _ (by simp [accepted]) (by simp [emitted])⟩
  | @cluster ids =>
    rw [queueOf_congr (cluster_get_self hi (hk ids (by simp)))]
    exact ⟨fl, sub, h.same _ (by simp [accepted]) (by simp [emitted])⟩
  | @shuffle rs hp =>
    rw [queueOf_congr (m := m) (AMap.get_perm hi.wf hp.symm _)]
    exact ⟨fl, sub, h.same _ (by simp [accepted]) (by simp [emitted])⟩
  | @take _ out ho =>
    unfold Module.takeOut at ho
    simp only [Run.bind_eq_ok] at ho
    obtain ⟨⟨rs, o⟩, h1, ho⟩ := ho
    simp only [Run.ok.injEq, Prod.mk.injEq] at ho
    obtain ⟨rfl, rfl⟩ := ho
    obtain ⟨hk, hnone, hsome, _⟩ := takeAll_spec hi.wf hi.peers h1
    cases hg : m.replicas.get p with
    | none =>
      have hg' : rs.get p = none := by
        rw [AMap.get_eq_none_iff, hk, ← AMap.get_eq_none_iff]; exact hg
      have : queueOf { m with replicas := rs } p = queueOf m p := queueOf_congr (by show rs.get p = _; rw [hg, hg'])
      rw [this]
      exact ⟨fl, sub, h.same _ (by simp [accepted]) (by simp [emitted, hnone p hg])⟩
    | some c =>
      obtain ⟨c', o', a1, a2, a3⟩ := hsome p c hg
      obtain ⟨_, fl1, sub1, ds, b1, b2, b3, b4, _, b6⟩ := (hi.peers p c hg).takeOut a1
      have hq : queueOf m p = fl1 ++ c'.queue := by rw [← b2]; simp [queueOf, hg]
      have hq' : queueOf { m with replicas := rs } p = c'.queue := by simp [queueOf, a2]
      have hds : dataTo p o = ds := by rw [a3, b4]; simp
      rw [hq']
      rw [hq] at h
      have hacc : accepted p (evs ++ [.take o]) = accepted p evs := by
        rw [accepted_append]; simp [accepted]
      refine ⟨fl ++ fl1, sub ++ sub1, h.subl.append b1, fun ht => by rw [h.total ht, b3 ht], ?_, ?_, ?_, ?_⟩
      · rw [emitted_append]
        refine (emitted_ext _ h.emit).append ?_
        have : emitted p [Ev.take (S := S) o] = ds := by simp [emitted, hds]
        rw [this]
        exact b6.imp fun d u ⟨_, _, e, he, hc⟩ => ⟨e, he.mono _, hc⟩
      · rw [hacc, List.append_assoc]; exact h.oth
      · rw [hacc, List.append_assoc]; exact h.hbs
      · rw [hacc, List.append_assoc]; exact h.hbLast

theorem QInv.history {ops : Ops S E H} {me R T p : Nat} {evs : List (Ev S H)} {m : Module S E H}
    (h : History ops me R T evs m) (hk : KeepsPeer me p evs) (hco : CanOpen ops p evs) :
    ∃ fl sub, QInv ops p evs (queueOf m p) fl sub := by
  induction h with
  | init =>
    refine ⟨[], [], .slnil, fun _ => rfl, ?_, ?_, ?_, ?_⟩
    · simp [emitted]; exact .nil
    · simp [accepted, queueOf, Module.new, Module.init]
    · simp [accepted, queueOf, Module.new, Module.init]
    · simp [accepted, queueOf, Module.new, Module.init]
  | @step evs m ev m' hh hs ih =>
    obtain ⟨fl, sub, hq⟩ := ih (fun ids hi => hk ids (by simp [hi]))
      (fun u s r hu => hco u s r (by simp [hu]))
    refine QInv.step (MInv.history hh) (NInit.history hh) hs (fun ids hi => hk ids ?_)
      (fun u s r hu => hco u s r ?_) hq
    · simp at hi; simp [hi]
    · simp at hu; simp [hu]

end TCP.Comm
