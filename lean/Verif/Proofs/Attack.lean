import Verif.Spec.Attack
import Verif.Proofs.Handshake

/-! # Lemmas about channels under attack -/

namespace TCP.Comm
open TCP Comm.Spec Handshake.Spec

variable {S E H : Type}

theorem count_map_le [DecidableEq Payload] {used xs : List (Bytes × Payload)} (hn : used.Nodup) (hs : ∀ o ∈ used, o ∈ xs) (b : Bytes) :
    (used.map Prod.fst).count b ≤ (xs.map Prod.fst).count b := by
  induction used generalizing xs with
  | nil => simp
  | cons o used ih =>
    obtain ⟨l, r, rfl⟩ := List.append_of_mem (hs o (by simp))
    have hn' := List.nodup_cons.1 hn
    have := ih (xs := l ++ r) hn'.2 (fun o' ho' => by
      have h := hs o' (by simp [ho'])
      simp only [List.mem_append, List.mem_cons] at h ⊢
      rcases h with h | rfl | h
      · exact .inl h
      · exact absurd ho' hn'.1
      · exact .inr h)
    simp only [List.map_append, List.map_cons, List.count_append, List.count_cons] at this ⊢
    omega

theorem EncryptorFrom.trans {ops : Ops S E H} {e0 e1 e2 : E} (h1 : EncryptorFrom ops e0 e1) (h2 : EncryptorFrom ops e1 e2) :
    EncryptorFrom ops e0 e2 := by
  induction h2 with
  | refl => exact h1
  | encrypt _ he ih => exact .encrypt ih he
  | decrypt _ pl ih => exact .decrypt ih pl

theorem count_replace {m : Outgoing} {q q' : List Outgoing} (h : replaceHeartbeat m q = some q') (b : Bytes) :
    (q'.map plain).count b ≤ (q.map plain).count b + [plain m].count b := by
  induction q generalizing q' with
  | nil => simp [replaceHeartbeat] at h
  | cons x q ih =>
    unfold replaceHeartbeat at h
    split at h
    · simp only [Option.some.injEq] at h
      subst h
      simp only [List.map_cons, List.count_cons, List.count_nil]
      omega
    · simp only [Option.map_eq_some_iff] at h
      obtain ⟨q1, h1, rfl⟩ := h
      have := ih h1
      simp only [List.map_cons, List.count_cons, List.count_nil] at this ⊢
      omega

theorem count_push (q : List Outgoing) (m : Outgoing) (b : Bytes) :
    ((push q m).map plain).count b ≤ (q.map plain).count b + [plain m].count b := by
  unfold push
  split
  · split
    · rename_i q' h; exact count_replace h b
    · simp [List.count_append]
  · simp [List.count_append]

/-- Encrypting a queue. -/
theorem encryptAll_ideal {ops : Ops S E H} {L : E → E → List (Bytes × Payload) → List (Bytes × Payload) → Prop} (hl : Ideal ops L)
    {p : Nat} {e e' f : E} {xs ys : List (Bytes × Payload)} {q : List Outgoing} {out : List (OutMsg H)} (h : L e f xs ys)
    (hq : ∀ u ∈ q, u.data.recipient = p) (he : encryptAll ops e q = .ok (e', out)) :
    ∃ new : List (Bytes × Payload), L e' f (xs ++ new) ys ∧ EncryptorFrom ops e e' ∧ (dataTo p out).filterMap (·.payload) = new.map Prod.snd ∧
      ∀ b, (new.map Prod.fst).count b ≤ (q.map plain).count b := by
  induction q generalizing e xs out with
  | nil =>
    simp [encryptAll] at he
    obtain ⟨rfl, rfl⟩ := he
    exact ⟨[], by simpa using h, .refl, rfl, by simp⟩
  | cons u q ih =>
    simp only [encryptAll] at he
    cases hp : u.data.payload with
    | none => rw [hp] at he; simp at he
    | some pl =>
      rw [hp] at he
      simp only [Run.bind_eq_ok] at he
      obtain ⟨⟨e1, r⟩, he1, ⟨e2, rest⟩, he2, hres⟩ := he
      simp only [Run.ok.injEq, Prod.mk.injEq] at hres
      obtain ⟨rfl, rfl⟩ := hres
      have hpl : plain u = pl.contents := by simp [plain, hp]
      have hq' : ∀ v ∈ q, v.data.recipient = p := fun v hv => hq v (by simp [hv])
      cases r with
      | none =>
        obtain ⟨new, h1, h2, h3, h4⟩ := ih (hl.refused h he1) hq' he2
        refine ⟨new, h1, EncryptorFrom.trans (.encrypt .refl he1) h2, h3, fun b => ?_⟩
        have := h4 b
        simp only [List.map_cons, List.count_cons]
        omega
      | some c =>
        obtain ⟨new, h1, h2, h3, h4⟩ := ih (hl.enc h he1) hq' he2
        refine ⟨(pl.contents, c) :: new, by simpa using h1, EncryptorFrom.trans (.encrypt .refl he1) h2, ?_, fun b => ?_⟩
        · have hu := hq u (by simp)
          have : dataTo p (OutMsg.data (H := H) { u.data with payload := some c } :: rest) = { u.data with payload := some c } :: dataTo p rest := by
            simp [dataTo, hu]
          simp only [this, List.filterMap_cons, h3, List.map_cons]
        · have := h4 b
          simp only [List.map_cons, List.count_cons, hpl]
          omega

/-- What is known of one end: `xs` is what it encrypted, `used` what it opened. -/
structure EInv (ops : Ops S E H) (x : End S E H) (e : E) (xs used : List (Bytes × Payload)) : Prop where
  hist : ∃ me retry timeout evs, History ops me retry timeout evs x.mod
  chan : x.up = true → ∃ c, x.mod.replicas.get x.name = some c ∧ c.status = .completed ∧ c.encryptor = some e
  sent : x.sent = xs.map Prod.snd
  count : ∀ b, (xs.map Prod.fst).count b + (if x.up then ((queueOf x.mod x.name).map plain).count b else 0) ≤ x.handed.count b
  got : x.got = used.map Prod.fst
  nodup : (used.map Prod.snd).Nodup
  burnt : x.up = true → ∀ o ∈ used, ∀ e', EncryptorFrom ops e e' → (ops.decrypt e' o.2).2 = none

theorem EInv.gone {ops : Ops S E H} {x : End S E H} {e : E} {xs used : List (Bytes × Payload)} (I : EInv ops x e xs used)
    {ev : Ev S H} {m' : Module S E H} (hs : Step ops x.mod ev m') (hd : x.up = false) : EInv ops (x.after ev m') e xs used := by
  obtain ⟨me, R, T, evs, hh⟩ := I.hist
  refine ⟨⟨me, R, T, _, hh.step hs⟩, by simp [End.after, hd], by simp [End.after, hd, I.sent], fun b => ?_, by simp [End.after, hd, I.got], I.nodup, by simp [End.after, hd]⟩
  have := I.count b
  simp only [hd, Bool.false_eq_true, if_false] at this
  simp only [End.after, hd, Bool.false_and, Bool.false_eq_true, if_false, List.count_append]
  omega

/-- A call that does not touch the encryptor and does not grow the queue more than by what was accepted. -/
theorem EInv.same {ops : Ops S E H} {x : End S E H} {e : E} {xs used : List (Bytes × Payload)} (I : EInv ops x e xs used)
    {ev : Ev S H} {m' : Module S E H} (hs : Step ops x.mod ev m') (hu : x.up = true)
    (hc : statusOf m' x.name = .completed → ∃ c, m'.replicas.get x.name = some c ∧ c.status = .completed ∧ c.encryptor = some e)
    (hq : ∀ b, statusOf m' x.name = .completed → ((queueOf m' x.name).map plain).count b ≤
      ((queueOf x.mod x.name).map plain).count b + ((accepted x.name [ev]).map plain).count b)
    (he : emitted x.name [ev] = []) (ho : openedIn x.name ev = []) : EInv ops (x.after ev m') e xs used := by
  obtain ⟨me, R, T, evs, hh⟩ := I.hist
  refine ⟨⟨me, R, T, _, hh.step hs⟩, fun h => ?_, by simp [End.after, he, I.sent], fun b => ?_, by simp [End.after, ho, I.got], I.nodup, fun _ => I.burnt hu⟩
  · have : statusOf m' x.name = .completed := by simpa [End.after, hu] using h
    exact hc this
  · have := I.count b
    simp only [hu, if_true] at this
    simp only [End.after, hu, Bool.true_and, decide_eq_true_eq, List.count_append]
    split
    · rename_i h
      have := hq b h
      omega
    · omega

theorem statusOf_some {m : Module S E H} {p : Nat} {c : Peer S E H} (h : m.replicas.get p = some c) : statusOf m p = c.status := by
  simp [statusOf, h]

theorem queueOf_some {m : Module S E H} {p : Nat} {c : Peer S E H} (h : m.replicas.get p = some c) : queueOf m p = c.queue := by
  simp [queueOf, h]

/-- One call on one end. -/
theorem EInv.after {ops : Ops S E H} {L : E → E → List (Bytes × Payload) → List (Bytes × Payload) → Prop} (hl : Ideal ops L)
    {x : End S E H} {e f : E} {xs ys used : List (Bytes × Payload)} (I : EInv ops x e xs used) (hlink : L e f xs ys)
    {ev : Ev S H} {m' : Module S E H} (hs : Step ops x.mod ev m')
    (hf : x.up = true → ∀ o ∈ openedIn x.name ev, o.2 ∈ ys.map Prod.snd) :
    ∃ e' new fresh, L e' f (xs ++ new) ys ∧ EInv ops (x.after ev m') e' (xs ++ new) (used ++ fresh) ∧ ∀ o ∈ fresh, o ∈ ys := by
  cases hup : x.up with
  | false => exact ⟨e, [], [], by simpa using hlink, by simpa using I.gone hs hup, by simp⟩
  | true =>
    have keep : EInv ops (x.after ev m') e xs used →
        ∃ e' new fresh, L e' f (xs ++ new) ys ∧ EInv ops (x.after ev m') e' (xs ++ new) (used ++ fresh) ∧ ∀ o ∈ fresh, o ∈ ys :=
      fun h => ⟨e, [], [], by simpa using hlink, by simpa using h, by simp⟩
    have hs0 := hs
    obtain ⟨me, R, T, evs, hh⟩ := I.hist
    have hi := MInv.history hh
    obtain ⟨c, hg, hst, hen⟩ := I.chan hup
    have frame : m'.replicas.get x.name = x.mod.replicas.get x.name → emitted x.name [ev] = [] → openedIn x.name ev = [] →
        EInv ops (x.after ev m') e xs used := fun h1 h2 h3 =>
      I.same hs0 hup (fun _ => ⟨c, h1.trans hg, hst, hen⟩) (fun b _ => by rw [queueOf_congr h1]; exact Nat.le_add_right _ _) h2 h3
    cases hs with
    | @out _ fresh u res ho =>
      by_cases hr : x.name = u.data.recipient
      · by_cases hz : me = 0
        · have : x.mod.processOut ops fresh u = .ok (x.mod, .error .invalidOperation) := by simp [Module.processOut, hi.id, hz]
          rw [this] at ho
          simp at ho
          obtain ⟨rfl, rfl⟩ := ho
          exact keep (frame rfl (by simp [emitted]) rfl)
        · have hco : x.mod.processOut ops fresh u =
              .ok ({ x.mod with replicas := (x.mod.replicas.set x.name c).set x.name { c with queue := push c.queue u } }, .ok ()) := by
            simp [Module.processOut, hi.id, hz, Module.channel, ← hr, hg, hst, Peer.processOut]
          rw [hco] at ho
          simp at ho
          obtain ⟨rfl, rfl⟩ := ho
          refine keep (I.same hs0 hup (fun _ => ⟨{ c with queue := push c.queue u }, by simp, hst, hen⟩) (fun b _ => ?_) (by simp [emitted]) rfl)
          have ha : accepted x.name [Ev.out (H := H) u fresh (.ok ())] = [u] := by simp [accepted, hr]
          rw [ha, queueOf_some (c := { c with queue := push c.queue u }) (by simp), queueOf_some hg]
          exact count_push _ _ _
      · exact keep (frame (processOut_frame ho hr) (by simp [emitted]) rfl)
    | tick =>
      refine keep (frame ?_ (by simp [emitted]) rfl)
      rw [tick_get, hg]
      simp [Peer.moduleTick, Peer.tick, hst]
    | @shuffle rs hpm => exact keep (frame (AMap.get_perm hi.wf hpm.symm _) (by simp [emitted]) rfl)
    | @cluster ids =>
      have hcg := cluster_get hi (ids := ids) x.name
      by_cases hk : me ∈ ids ∧ x.name ∈ ids
      · exact keep (frame (by rw [hcg, if_pos hk]) (by simp [emitted]) rfl)
      · rw [if_neg hk] at hcg
        have hun : statusOf (x.mod.clusterChange ids) x.name = .unknown := by simp [statusOf, hcg]
        exact keep (I.same hs0 hup (fun h => by rw [hun] at h; cases h) (fun b h => by rw [hun] at h; cases h) (by simp [emitted]) rfl)
    | @take _ out ho =>
      rcases take_peer hi ho x.name with ⟨h1, _, _⟩ | ⟨c0, c', o, h1, h2, h3, h4⟩
      · rw [hg] at h1; cases h1
      · rw [hg] at h1; simp at h1; subst h1
        have hem : emitted x.name [Ev.take (S := S) out] = dataTo x.name o := by simp [emitted, h4]
        cases hpe : c.pending with
        | some hm =>
          simp [Peer.takeOut, hpe] at h2
          obtain ⟨rfl, rfl⟩ := h2
          refine keep (I.same hs0 hup (fun _ => ⟨_, h3, hst, hen⟩) (fun b _ => ?_) (by rw [hem]; simp [dataTo]) rfl)
          rw [queueOf_some h3, queueOf_some hg]
          exact Nat.le_add_right _ _
        | none =>
          simp only [Peer.takeOut, hpe, hst, if_true, hen, Run.bind_eq_ok] at h2
          obtain ⟨⟨e', o'⟩, h5, h6⟩ := h2
          simp only [Run.ok.injEq, Prod.mk.injEq] at h6
          obtain ⟨rfl, rfl⟩ := h6
          obtain ⟨new, n1, n2, n3, n4⟩ := encryptAll_ideal hl hlink (p := x.name) (fun u hu => ((hi.peers _ _ hg).q u hu).1) h5
          refine ⟨e', new, [], n1, ⟨⟨me, R, T, _, hh.step hs0⟩, fun _ => ⟨_, h3, rfl, rfl⟩, ?_, fun b => ?_, by simp [End.after, openedIn, I.got],
            by simpa using I.nodup, fun _ o ho e2 he2 => I.burnt hup o (by simpa using ho) e2 (EncryptorFrom.trans n2 he2)⟩, by simp⟩
          · simp only [End.after, hup, if_true, I.sent, List.map_append]
            rw [hem, n3]
          · have := I.count b
            have := n4 b
            simp only [hup, if_true] at *
            rw [queueOf_some hg] at *
            simp only [End.after, hup, Bool.true_and, decide_eq_true_eq, List.count_append, List.map_append]
            have hq0 : queueOf m' x.name = [] := by rw [queueOf_some h3]
            rw [hq0]
            simp only [List.map_nil, List.count_nil]
            split <;> omega
    | @inn _ fresh u res ho =>
      have hE : emitted x.name [Ev.inn u fresh res] = [] := by simp [emitted]
      by_cases hr : some x.name = u.peer
      · by_cases hz : me = 0
        · have : x.mod.processIn ops fresh u = .ok (x.mod, .error .invalidOperation) := by simp [Module.processIn, hi.id, hz]
          rw [this] at ho
          simp at ho
          obtain ⟨rfl, rfl⟩ := ho
          exact keep (frame rfl hE (by cases u <;> rfl))
        · cases u with
          | other => simp [InMsg.peer] at hr
          | handshake s hm =>
            simp [InMsg.peer] at hr
            subst hr
            have hco : x.mod.processIn ops fresh (.handshake x.name hm) =
                .ok ({ x.mod with replicas := (x.mod.replicas.set x.name c).set x.name { c with status := .failed 0 } }, .ok none) := by
              simp [Module.processIn, hi.id, hz, Module.channel, InMsg.peer, hg, hst, Peer.processIn, Peer.decrypt, hen]
            rw [hco] at ho
            simp at ho
            obtain ⟨rfl, rfl⟩ := ho
            have hfl : statusOf { x.mod with replicas := (x.mod.replicas.set x.name c).set x.name { c with status := .failed 0 } } x.name = .failed 0 := by
              simp [statusOf]
            exact keep (I.same hs0 hup (fun h => by rw [hfl] at h; cases h) (fun b h => by rw [hfl] at h; cases h) hE rfl)
          | data d =>
            simp [InMsg.peer] at hr
            cases hp : d.payload with
            | none =>
              have : x.mod.processIn ops fresh (.data d) = .panic := by
                simp [Module.processIn, hi.id, hz, Module.channel, InMsg.peer, ← hr, hg, hst, Peer.processIn, Peer.decrypt, hen, hp]
              rw [this] at ho; cases ho
            | some pl =>
              have hco : x.mod.processIn ops fresh (.data d) =
                  .ok ({ x.mod with replicas := (x.mod.replicas.set x.name c).set x.name { c with encryptor := some (ops.decrypt e pl).1 } },
                    .ok ((ops.decrypt e pl).2.map fun b => .data { d with payload := some ⟨b, []⟩ })) := by
                simp [Module.processIn, hi.id, hz, Module.channel, InMsg.peer, ← hr, hg, hst, Peer.processIn, Peer.decrypt, hen, hp]
              rw [hco] at ho
              simp at ho
              obtain ⟨rfl, rfl⟩ := ho
              let m1 : Module S E H := { x.mod with replicas := (x.mod.replicas.set x.name c).set x.name { c with encryptor := some (ops.decrypt e pl).1 } }
              have hg' : m1.replicas.get x.name = some { c with encryptor := some (ops.decrypt e pl).1 } := by simp [m1]
              have hfr : ∀ e2, EncryptorFrom ops (ops.decrypt e pl).1 e2 → EncryptorFrom ops e e2 := fun e2 h2 =>
                EncryptorFrom.trans (.decrypt .refl pl) h2
              have base : ∀ fr : List (Bytes × Payload), openedIn x.name (Ev.inn (S := S) (InMsg.data (H := H) d) fresh
                    (.ok ((ops.decrypt e pl).2.map fun b => .data { d with payload := some ⟨b, []⟩ }))) = fr →
                  ((used ++ fr).map Prod.snd).Nodup → (∀ o ∈ fr, ∀ e2, EncryptorFrom ops (ops.decrypt e pl).1 e2 → (ops.decrypt e2 o.2).2 = none) →
                  EInv ops (x.after (.inn (.data d) fresh (.ok ((ops.decrypt e pl).2.map fun b => .data { d with payload := some ⟨b, []⟩ }))) m1)
                    (ops.decrypt e pl).1 xs (used ++ fr) := by
                intro fr h1 h2 h3
                refine ⟨⟨me, R, T, _, hh.step hs0⟩, fun _ => ⟨_, hg', hst, rfl⟩, ?_, fun b => ?_, ?_, h2, fun _ o ho e2 he2 => ?_⟩
                · simp [End.after, hE, I.sent]
                · have := I.count b
                  simp only [hup, if_true] at this
                  simp only [End.after, hup, Bool.true_and, decide_eq_true_eq, List.count_append]
                  rw [queueOf_some hg', ]
                  rw [queueOf_some hg] at this
                  split <;> simp only at * <;> omega
                · simp [End.after, hup, h1, I.got]
                · rcases List.mem_append.1 ho with ho | ho
                  · exact I.burnt hup o ho e2 (hfr e2 he2)
                  · exact h3 o ho e2 he2
              cases hd : (ops.decrypt e pl).2 with
              | none =>
                refine ⟨_, [], [], by simpa using hl.dec pl hlink, ?_, by simp⟩
                have := base [] (by rw [hd]; rfl) (by simpa using I.nodup) (by simp)
                rw [hd] at this
                simpa using this
              | some b =>
                have hop : openedIn x.name (Ev.inn (S := S) (InMsg.data (H := H) d) fresh
                    (.ok ((ops.decrypt e pl).2.map fun b => .data { d with payload := some ⟨b, []⟩ }))) = [(b, pl)] := by
                  rw [hd]; simp [openedIn, ← hr, hp]
                have hin := hf hup (b, pl) (by rw [hop]; simp)
                obtain ⟨o, ho1, ho2⟩ := List.mem_map.1 hin
                obtain ⟨b0, pl0⟩ := o
                simp only at ho2
                subst ho2
                have : b = b0 := hl.correct hlink ho1 hd
                subst this
                refine ⟨_, [], [(b, pl0)], by simpa using hl.dec pl0 hlink, ?_, by simpa using ho1⟩
                have := base [(b, pl0)] hop ?_ ?_
                · rw [hd] at this
                  simpa using this
                · simp only [List.map_append, List.map_cons, List.map_nil]
                  rw [List.nodup_append]
                  refine ⟨I.nodup, by simp, ?_⟩
                  intro a ha a' ha'
                  simp only [List.mem_singleton] at ha'
                  subst ha'
                  rintro rfl
                  obtain ⟨o, ho, he⟩ := List.mem_map.1 ha
                  have := I.burnt hup o ho e .refl
                  rw [he, hd] at this
                  cases this
                · intro o ho e2 he2
                  simp only [List.mem_singleton] at ho
                  subst ho
                  exact hl.replay hlink hd he2
      · refine keep (frame (processIn_frame ho hr) hE ?_)
        cases u with
        | other => rfl
        | handshake s hm => rfl
        | data d =>
          have : d.sender ≠ x.name := fun h => hr (by simp [InMsg.peer, h])
          unfold openedIn
          split
          · rename_i heq
            simp only [Ev.inn.injEq, InMsg.data.injEq] at heq
            obtain ⟨rfl, _, _⟩ := heq
            rw [if_neg this]
          · rfl

/-- Both ends. -/
structure AInv (ops : Ops S E H) (L : E → E → List (Bytes × Payload) → List (Bytes × Payload) → Prop) (w : End S E H × End S E H)
    (e f : E) (xs ys usedX usedY : List (Bytes × Payload)) : Prop where
  fst : EInv ops w.1 e xs usedX
  snd : EInv ops w.2 f ys usedY
  link : L e f xs ys
  inX : ∀ o ∈ usedX, o ∈ ys
  inY : ∀ o ∈ usedY, o ∈ xs

theorem Spec.Opened.inv {ops : Ops S E H} {x : End S E H} {e : E} (h : Opened ops x e) : EInv ops x e [] [] := by
  refine ⟨h.history, fun _ => ?_, by simp [h.sent], fun b => by simp [h.up, h.handed], by simp [h.got], by simp, by simp⟩
  have hs := h.status
  cases hg : x.mod.replicas.get x.name with
  | none => simp [statusOf, hg] at hs
  | some c => exact ⟨c, rfl, by simpa [statusOf, hg] using hs, h.encryptor c hg⟩

theorem AInv.attacked {ops : Ops S E H} {L : E → E → List (Bytes × Payload) → List (Bytes × Payload) → Prop} (hl : Ideal ops L)
    {w w' : End S E H × End S E H} {e f : E} (hx : Opened ops w.1 e) (hy : Opened ops w.2 f) (hlink : L e f [] []) (h : Attacked ops w w') :
    ∃ e' f' xs ys ux uy, AInv ops L w' e' f' xs ys ux uy := by
  induction h with
  | refl => exact ⟨e, f, [], [], [], [], hx.inv, hy.inv, hlink, by simp, by simp⟩
  | step _ hs ih =>
    obtain ⟨e1, f1, xs, ys, ux, uy, I⟩ := ih
    cases hs with
    | fst hs hf =>
      obtain ⟨e', new, fr, g1, g2, g3⟩ := I.fst.after hl I.link hs (fun hu o ho => by rw [← I.snd.sent]; exact hf hu o ho)
      refine ⟨e', f1, _, ys, _, uy, g2, I.snd, g1, fun o ho => ?_, fun o ho => List.mem_append_left _ (I.inY o ho)⟩
      rcases List.mem_append.1 ho with ho | ho
      · exact I.inX o ho
      · exact g3 o ho
    | snd hs hf =>
      obtain ⟨f', new, fr, g1, g2, g3⟩ := I.snd.after hl (hl.symm I.link) hs (fun hu o ho => by rw [← I.fst.sent]; exact hf hu o ho)
      refine ⟨e1, f', xs, _, ux, _, I.fst, g2, hl.symm g1, fun o ho => List.mem_append_left _ (I.inX o ho), fun o ho => ?_⟩
      rcases List.mem_append.1 ho with ho | ho
      · exact I.inY o ho
      · exact g3 o ho

theorem EInv.bound {ops : Ops S E H} {x y : End S E H} {e f : E} {xs ys ux uy : List (Bytes × Payload)} (hx : EInv ops x e xs ux)
    (hy : EInv ops y f ys uy) (hin : ∀ o ∈ uy, o ∈ xs) (b : Bytes) : y.got.count b ≤ x.handed.count b := by
  rw [hy.got]
  have hn : uy.Nodup := by
    have := hy.nodup
    rw [List.Nodup, List.pairwise_map] at this
    exact this.imp fun h heq => h (by rw [heq])
  have h1 := count_map_le hn hin b
  have h2 := hx.count b
  omega

end TCP.Comm
