import Verif.Proofs.ReplicaStore
import Verif.Proofs.DriverReady
import Verif.Proofs.DriverOwner
import Verif.Props.ReplicaExample
import Verif.Props.Driver
import Verif.Props.Storage

/-!
# C66–C70: a whole replica

A replica is the driver over the real consensus adapter and store, the real channel module, any raft-rs node, any actor, any handshake and
any cryptography.  `fresh a p` is a replica that was just created; `Calls` are any calls of the host; `Runs` are calls that returned `Ok`
(`Serves`: the service ends the process on the first error).
-/

namespace TCP.Replica

open TCP TCP.Drv TCP.DrvSpec TCP.Replica.Spec

variable {ν Y P S E H σ : Type} {A : Actor σ} {N : NodeT ν Y} {ops : Comm.Ops S E H} {V : Env P S E H} {codecs : Codecs}

theorem fresh_fresh (a : σ) (p : P) : Fresh (fresh a p : Driver σ (Simple ν Y) (Channels P S E H) H) := ⟨_, _, _, rfl⟩

theorem fresh_guarded (a : σ) (p : P) : Guarded ops codecs (fresh a p : Driver σ (Simple ν Y) (Channels P S E H) H) := by
  have q : Quiet (fresh a p : Driver σ (Simple ν Y) (Channels P S E H) H) := ⟨rfl, rfl, rfl, rfl⟩
  exact ⟨fun _ => q, Or.inl q⟩

/-! ## C66: what leaves a replica for other replicas is encrypted for its recipient -/

/-- C66: whatever the host does, every message other than a handshake it is given for another replica carries a ciphertext, made with an
established session with exactly the replica it is addressed to, of a message the replica wanted to send to that replica. -/
theorem C66_confidential {a : σ} {p : P} {rs} {d : Driver σ (Simple ν Y) (Channels P S E H) H}
    (h : Calls (sys A N ops V codecs) (fresh a p) rs d) : ∀ x ∈ dataMessages (sent rs), Sealed ops d.comm.log x := by
  intro x hx
  have hg : Guarded ops codecs d := guarded_leaves.calls h (fresh_guarded a p)
  have hs := calls_sent (fresh_fresh a p) h
  have hx' : x ∈ dataMessages (outMessages d.trace) := by
    rw [← hs, dataMessages, List.filterMap_append]
    exact List.mem_append_left _ hx
  rcases hg.either with q | b
  · rw [q.outs] at hx'; simp at hx'
  · exact b.outs x hx'

/-- C66 is not vacuous: after a handshake, the example replica answers a message of replica 2. -/
example : ∃ (d : RepExample.Rep) (rs : List (Except PalErr (Option (List (OutMsg Nat))))), Calls RepExample.rep RepExample.start rs d ∧
    dataMessages (sent rs) = [⟨.system, 2, 1, some ⟨[1, 2], [0]⟩⟩] := by
  have h : RepExample.check [RepExample.startMsg false, RepExample.greet, RepExample.message 1 2, none]
      (fun _ rs => decide (dataMessages (sent rs) = [⟨.system, 2, 1, some ⟨[1, 2], [0]⟩⟩])) = true := by decide +kernel
  obtain ⟨d, outs, hc, _, hp⟩ := RepExample.check_sound h
  exact ⟨d, _, hc, of_decide_eq_true hp⟩

/-! ## C67: what consensus is given comes from authenticated replicas -/

/-- C67, the part that holds: whatever the host does, every message consensus is given was sent, over an established session, by some
replica: either as it is, or as a snapshot put together of chunks authentically sent by the replica the message names as its sender.
Missing: for messages other than snapshots the sender a message names is not compared with the replica that sent it, see
`C67_sender_fails`. -/
theorem C67_authentic_partial {a : σ} {p : P} {rs} {d : Driver σ (Simple ν Y) (Channels P S E H) H}
    (h : Calls (sys A N ops V codecs) (fresh a p) rs d) : ∀ m ∈ stepped d.trace, Genuine ops codecs d.comm.log m := by
  intro m hm
  have hg : Guarded ops codecs d := guarded_leaves.calls h (fresh_guarded a p)
  rcases hg.either with q | b
  · rw [q.steps] at hm; simp at hm
  · exact b.steps m hm

/-- C67 is not vacuous: consensus is given the message of replica 2. -/
example : ∃ (d : RepExample.Rep) (rs : List (Except PalErr (Option (List (OutMsg Nat))))), Calls RepExample.rep RepExample.start rs d ∧
    stepped d.trace = [⟨1, 2, .other 0, none, []⟩] := by
  have h : RepExample.check [RepExample.startMsg false, RepExample.greet, RepExample.message 1 2]
      (fun d _ => decide (stepped d.trace = [⟨1, 2, .other 0, none, []⟩])) = true := by decide +kernel
  obtain ⟨d, outs, hc, _, hp⟩ := RepExample.check_sound h
  exact ⟨d, _, hc, of_decide_eq_true hp⟩

/-- C67 fails for the sender: replica 2 can speak for replica 3.  Consensus is given a message of replica 3 although nothing that was ever
received came from replica 3. -/
theorem C67_sender_fails : ∃ (d : RepExample.Rep) (rs : List (Except PalErr (Option (List (OutMsg Nat))))),
    Calls RepExample.rep RepExample.start rs d ∧ (∃ m ∈ stepped d.trace, m.from_ = 3) ∧
    ∀ kind b, ¬ Authentic Comm.exOps d.comm.log kind 3 b := by
  have h : RepExample.check [RepExample.startMsg false, RepExample.greet, RepExample.message 1 3]
      (fun d _ => decide (stepped d.trace = [⟨1, 3, .other 0, none, []⟩]) &&
        d.comm.log.all fun e => match e with | .inn (.data x) _ _ => decide (x.sender ≠ 3) | _ => true) = true := by decide +kernel
  obtain ⟨d, outs, hc, _, hp⟩ := RepExample.check_sound h
  simp only [Bool.and_eq_true] at hp
  refine ⟨d, _, hc, ⟨⟨1, 3, .other 0, none, []⟩, ?_, rfl⟩, ?_⟩
  · rw [of_decide_eq_true hp.1]; simp
  · rintro kind b ⟨x, cipher, fr, up, e, hm, _, hs, _⟩
    have := List.all_eq_true.1 hp.2 _ hm
    simp [hs] at this

/-! ## C68: reports about the cluster -/

/-- C68, the part that holds: what a successful call of a started, non-ephemeral replica says about the cluster.  A leader that was asked
reports its cluster; a leader that was not asked does so exactly if something changed since the last call (`leads`, `clusterOf`); a
replica that stops leading without being asked sends one empty report; otherwise there is no report.  Missing: a replica that does not
lead does not answer a request, see `C68_silent_fails`. -/
theorem C68_reports_partial (hN : LeaderContract N) {a : σ} {p : P} {outs} {d d' : Driver σ (Simple ν Y) (Channels P S E H) H}
    (h : Runs (sys A N ops V codecs) (fresh a p) outs d) (hs : d.state ≠ .created) (he : d.ephemeral = false) (hid : d.id ≠ 0)
    {instant : Nat} {m : Option (InMsg H)} {out : List (OutMsg H)}
    (hr : receive (sys A N ops V codecs) instant (m.map some) d = .ok (d', .ok (some out))) :
    (leads N d' = true → m = some .checkCluster → ∃ c, clusterOf N d' = some c ∧ clusterReports out = [c]) ∧
    (leads N d' = true → m ≠ some .checkCluster → leads N d = true → clusterOf N d' = clusterOf N d → clusterReports out = []) ∧
    (leads N d' = true → m ≠ some .checkCluster → (leads N d = true → clusterOf N d' ≠ clusterOf N d) →
      ∃ c, clusterOf N d' = some c ∧ clusterReports out = [c]) ∧
    (leads N d' = false → m ≠ some .checkCluster → leads N d = true → clusterReports out = [RaftState.new]) ∧
    (leads N d' = false → leads N d = false → clusterReports out = []) ∧
    (leads N d' = false → m = some .checkCluster → clusterReports out = []) := by
  have h0 := fresh_fresh (ν := ν) (Y := Y) (S := S) (E := E) (H := H) a p
  obtain ⟨hn, hsaid⟩ := runs_said hN h hs he hid
  obtain ⟨_, hrep⟩ := DrvProps.C30_reports_partial (S := sys A N ops V codecs) (keepsNode hN) hn (runs_messages h0 h) hs he hr
  have hstar : d'.state ≠ .created ∧ d'.ephemeral = false ∧ d'.id ≠ 0 := by
    obtain ⟨d4, hstar, hd4⟩ := receive_star hr
    have hx := hstar.sameId (show (presetState (sys A N ops V codecs) instant d).state ≠ .created from hs)
    have hy := hstar.lifecycle.1 hs
    have e1 : d4.ephemeral = false := hx.ephemeral.trans he
    have e2 : d4.id ≠ 0 := by rw [hx.id]; exact hid
    rcases hd4 with e | ⟨_, _, _, _, e⟩ <;> subst e <;> exact ⟨hy, e1, e2⟩
  obtain ⟨hn', hsaid'⟩ := runs_said hN (h.snoc hr) hstar.1 hstar.2.1 hstar.2.2
  rw [hsaid, hsaid'] at hrep
  obtain ⟨n, hn⟩ := Option.isSome_iff_exists.1 hn
  obtain ⟨n', hn'⟩ := Option.isSome_iff_exists.1 hn'
  have hne : ∀ {e : Driver σ (Simple ν Y) (Channels P S E H) H} {k}, e.raft.node = some k → leads N e = true →
      ∃ c, clusterOf N e = some c ∧ said N e = c ∧ c ≠ RaftState.new := by
    intro e k hk hl
    refine ⟨_, by rw [clusterOf, hk]; rfl, by rw [said, if_pos hl, clusterOf, hk]; rfl, fun hc => ?_⟩
    have : N.leaderId k = 0 := congrArg RaftState.leaderId hc
    exact hN.known (by simpa [leads, hk] using hl) this
  have hnew : ∀ {e : Driver σ (Simple ν Y) (Channels P S E H) H}, leads N e = false → said N e = RaftState.new := by
    intro e hl; simp [said, hl]
  have hb : m ≠ some .checkCluster → baseline m (said N d) = said N d := by
    intro hm
    unfold baseline
    split
    · exact absurd rfl hm
    · rfl
  refine ⟨fun hl hm => ?_, fun hl hm hl0 hc => ?_, fun hl hm hl0 => ?_, fun hl hm hl0 => ?_, fun hl hl0 => ?_, fun hl hm => ?_⟩
  · obtain ⟨c, h1, h2, h3⟩ := hne hn' hl
    refine ⟨c, h1, ?_⟩
    rw [hrep, hm, baseline, if_neg (by rw [h2]; exact fun e => h3 e.symm), h2]
  · obtain ⟨c, h1, h2, h3⟩ := hne hn' hl
    obtain ⟨c', h1', h2', _⟩ := hne hn hl0
    rw [h1, h1', Option.some.injEq] at hc
    rw [hrep, hb hm, h2, h2', if_pos hc.symm]
  · obtain ⟨c, h1, h2, h3⟩ := hne hn' hl
    refine ⟨c, h1, ?_⟩
    rw [hrep, hb hm, h2, if_neg]
    cases hl1 : leads N d with
    | false => rw [hnew hl1]; exact fun e => h3 e.symm
    | true =>
      obtain ⟨c', h1', h2', _⟩ := hne hn hl1
      intro e
      exact hl0 hl1 (by rw [h1, h1', ← e, h2'])
  · obtain ⟨c', _, h2', h3'⟩ := hne hn hl0
    rw [hrep, hb hm, hnew hl, h2', if_neg h3']
  · rw [hrep, hnew hl, hnew hl0, if_pos]
    unfold baseline; split <;> rfl
  · rw [hrep, hm, hnew hl, baseline, if_pos rfl]

/-- C68 is not vacuous: replica 1 leads a cluster of itself, reports that when asked, and loses the lead on a message of replica 2. -/
example : LeaderContract RepExample.node ∧ ∃ (d d' : RepExample.Rep) (outs : List (Option (List (OutMsg Nat)))) (out : List (OutMsg Nat)),
    Runs RepExample.rep RepExample.start outs d ∧ d.state ≠ .created ∧ d.ephemeral = false ∧ d.id ≠ 0 ∧
    receive RepExample.rep 1 (some (some (.systemMessage 1 2 (some ⟨[2, 9], []⟩)))) d = .ok (d', .ok (some out)) ∧
    leads RepExample.node d = true ∧ leads RepExample.node d' = false ∧ clusterReports out = [RaftState.new] ∧
    clusterReports (sent (outs.map .ok)) = [⟨1, 1, [1], false⟩] := by
  refine ⟨RepExample.leader_contract, ?_⟩
  have h : RepExample.check [RepExample.startMsg true, RepExample.ask, RepExample.greet]
      (fun d rs => decide (d.state ≠ .created ∧ d.ephemeral = false ∧ d.id ≠ 0 ∧ leads RepExample.node d = true ∧
          clusterReports (sent rs) = [⟨1, 1, [1], false⟩]) &&
        (match receive RepExample.rep 1 (some (some (.systemMessage 1 2 (some ⟨[2, 9], []⟩)))) d with
         | .ok (d', .ok (some out)) => decide (leads RepExample.node d' = false ∧ clusterReports out = [RaftState.new])
         | _ => false)) = true := by decide +kernel
  obtain ⟨d, outs, _, hr, hp⟩ := RepExample.check_sound h
  simp only [Bool.and_eq_true] at hp
  obtain ⟨hp1, hp2⟩ := hp
  obtain ⟨h1, h2, h3, h4, h5⟩ := of_decide_eq_true hp1
  split at hp2
  · rename_i d' out hc
    obtain ⟨h6, h7⟩ := of_decide_eq_true hp2
    exact ⟨d, d', outs, out, hr, h1, h2, h3, hc, h4, h6, h7, h5⟩
  · cases hp2

/-- C68 fails: a started replica that does not lead does not answer a request. -/
theorem C68_silent_fails : ∃ (d d' : RepExample.Rep) (outs : List (Option (List (OutMsg Nat)))),
    Runs RepExample.rep RepExample.start outs d ∧ d.state = .started ∧ d.ephemeral = false ∧
    receive RepExample.rep 1 (some (some .checkCluster)) d = .ok (d', .ok (some [])) := by
  have h : RepExample.check [RepExample.startMsg false]
      (fun d _ => decide (d.state = .started ∧ d.ephemeral = false) &&
        (match receive RepExample.rep 1 (some (some .checkCluster)) d with
         | .ok (_, .ok (some out)) => decide (out = [])
         | _ => false)) = true := by decide +kernel
  obtain ⟨d, outs, _, hr, hp⟩ := RepExample.check_sound h
  simp only [Bool.and_eq_true] at hp
  obtain ⟨hp1, hp2⟩ := hp
  split at hp2
  · rename_i d' out hc
    have := of_decide_eq_true hp2
    subst this
    exact ⟨d, d', outs, hr, (of_decide_eq_true hp1).1, (of_decide_eq_true hp1).2, hc⟩
  · cases hp2

/-! ## C69: the store of a replica -/

/-- C69: whatever the host does, the store of a replica is what the store operations the driver performed since consensus was created
(and requests for snapshots by consensus, in between) make of an empty store. -/
theorem C69_store_history (hN : NodeContract N) {a : σ} {p : P} {rs} {d : Driver σ (Simple ν Y) (Channels P S E H) H}
    (h : Calls (sys A N ops V codecs) (fresh a p) rs d) {n : ν} (hn : d.raft.node = some n) :
    ∃ c calls, calls.filter (fun o => !isRequest o) = storeCalls d.trace ∧ Storage.run (Storage.new c) calls = .ok (N.store n) := by
  have hf : Filed N d.raft d.trace := ((filed_leaves hN).leaves (S := sys A N ops V codecs)).calls h
    (fun n hn => by simp [fresh, Driver.new, Simple.new] at hn)
  exact hf n hn

theorem mem_storeCalls {t : List (Drv.Ev H)} {b : List Storage.Entry} (h : .append b ∈ storeCalls t) :
    ∃ es x, .storeAppend es x ∈ t ∧ b = es.map toStoreEntry := by
  have key : ∀ (t : List (Drv.Ev H)) (acc : List Storage.Op), .append b ∈ t.foldl (fun acc e => match e with
      | .raftInit me b leader (.ok _) => if leader then [.apply ⟨1, 1, ⟨[me], [], []⟩, b⟩] else []
      | .storeHardState h => acc ++ [.setHardState h]
      | .storeAppend es _ => acc ++ [.append (es.map toStoreEntry)]
      | .storeApply s _ => acc ++ [.apply (toStoreSnapshot s)]
      | .storeCreate i c b => acc ++ [.create i c b]
      | _ => acc) acc → .append b ∈ acc ∨ ∃ es x, .storeAppend es x ∈ t ∧ b = es.map toStoreEntry := by
    intro t
    induction t with
    | nil => intro acc h; exact Or.inl h
    | cons e t ih =>
      intro acc h
      rcases ih _ h with h | ⟨es, x, h1, h2⟩
      · cases e with
        | raftInit me b leader res =>
          cases res with
          | error e => exact Or.inl h
          | ok u => cases leader <;> simp at h
        | storeAppend es x =>
          rcases List.mem_append.1 h with h | h
          · exact Or.inl h
          · simp only [List.mem_singleton, Storage.Op.append.injEq] at h
            exact Or.inr ⟨es, x, List.mem_cons_self, h⟩
        | storeHardState h' => simp only [List.mem_append, List.mem_singleton, reduceCtorEq, or_false] at h; exact Or.inl h
        | storeApply h' => simp only [List.mem_append, List.mem_singleton, reduceCtorEq, or_false] at h; exact Or.inl h
        | storeCreate h' => simp only [List.mem_append, List.mem_singleton, reduceCtorEq, or_false] at h; exact Or.inl h
        | _ => exact Or.inl h
      · exact Or.inr ⟨es, x, List.mem_cons_of_mem _ h1, h2⟩
  rcases key t [] h with h | h
  · simp at h
  · exact h

/-- C69: so if consensus only ever asks to append consecutive entries, the store is one of the states the theorems about the store
(C01–C10) are about. -/
theorem C69_store_reachable (hN : NodeContract N) {a : σ} {p : P} {rs} {d : Driver σ (Simple ν Y) (Channels P S E H) H}
    (h : Calls (sys A N ops V codecs) (fresh a p) rs d)
    (hb : ∀ es x, .storeAppend es x ∈ d.trace → Storage.Spec.Batch (es.map toStoreEntry))
    {n : ν} (hn : d.raft.node = some n) : Storage.Spec.Reachable (N.store n) := by
  obtain ⟨c, calls, h1, h2⟩ := C69_store_history hN h hn
  refine ⟨c, calls, fun b hm => ?_, h2⟩
  have hm' : Storage.Op.append b ∈ storeCalls d.trace := by
    rw [← h1]; exact List.mem_filter.2 ⟨hm, rfl⟩
  obtain ⟨es, x, he, rfl⟩ := mem_storeCalls hm'
  exact hb es x he

/-- C69 is not vacuous: the store of the example replica holds an entry and a vote after a message. -/
example : NodeContract RepExample.node ∧ ∃ (d : RepExample.Rep) (rs : List (Except PalErr (Option (List (OutMsg Nat))))) (n : RepExample.Nd),
    Calls RepExample.rep RepExample.start rs d ∧ (∀ es x, .storeAppend es x ∈ d.trace → Storage.Spec.Batch (es.map toStoreEntry)) ∧
    d.raft.node = some n ∧ n.store.entries = [⟨2, 1, [0]⟩] ∧ storeCalls d.trace = [.apply ⟨1, 1, ⟨[1], [], []⟩, []⟩,
      .setHardState ⟨1, 2, 0⟩, .append [⟨2, 1, [0]⟩]] := by
  refine ⟨RepExample.node_contract, ?_⟩
  have h : RepExample.check [RepExample.startMsg true, RepExample.greet, RepExample.message 1 2]
      (fun d _ => (match d.raft.node with
        | some n => decide (n.store.entries = [⟨2, 1, [0]⟩])
        | none => false) &&
       decide (storeCalls d.trace = [.apply ⟨1, 1, ⟨[1], [], []⟩, []⟩, .setHardState ⟨1, 2, 0⟩, .append [⟨2, 1, [0]⟩]]) &&
       d.trace.all fun e => match e with | .storeAppend es _ => decide (es = [⟨2, 1, .normal, []⟩]) | _ => true) = true := by
    decide +kernel
  obtain ⟨d, outs, hc, _, hp⟩ := RepExample.check_sound h
  simp only [Bool.and_eq_true] at hp
  obtain ⟨⟨hp1, hp2⟩, hp3⟩ := hp
  split at hp1
  · rename_i n hn
    refine ⟨d, _, n, hc, fun es x he => ?_, hn, of_decide_eq_true hp1, of_decide_eq_true hp2⟩
    have := of_decide_eq_true (List.all_eq_true.1 hp3 _ he)
    subst this
    simp [Storage.Spec.Batch, toStoreEntry, Storage.Spec.ConsecutiveFrom]
  · cases hp1

/-! ## C70: stored before sent -/

/-- C70: at every moment at which the host is given a message for another replica, everything consensus asked to store before is stored:
hard state, snapshot and log entries of every batch, successfully, and before consensus was told that the batch was processed.  Every batch
taken is handled when the call returns. -/
theorem C70_stored_before_sent {S : Sys σ ρ κ H} {d0 d : Driver σ ρ κ H} {outs} (h0 : Fresh d0) (h : Runs S d0 outs d) :
    AllHandled d.trace ∧ SentHandled d.trace :=
  runs_handled h0 h

/-- C70 is not vacuous: a batch with a vote and a log entry is taken, and a message leaves later. -/
example : ∃ (d : RepExample.Rep) (outs : List (Option (List (OutMsg Nat)))) (before after : List (Drv.Ev Nat)) (r : Ready) (m : Comm.OutMsg Nat),
    Fresh RepExample.start ∧ Runs RepExample.rep RepExample.start outs d ∧ d.trace = before ++ .out (.comm m) :: after ∧
    .ready r ∈ before ∧ r.entries ≠ [] ∧ r.hardState ≠ none := by
  have h : RepExample.check [RepExample.startMsg false, RepExample.greet, RepExample.message 1 2]
      (fun d _ => (match d.trace.getLast? with | some (.out (.comm _)) => true | _ => false) &&
        d.trace.dropLast.any fun e => match e with | .ready r => decide (r.entries ≠ [] ∧ r.hardState ≠ none) | _ => false) = true := by
    decide +kernel
  obtain ⟨d, outs, _, hr, hp⟩ := RepExample.check_sound h
  simp only [Bool.and_eq_true] at hp
  obtain ⟨hp1, hp2⟩ := hp
  split at hp1
  · rename_i m hm
    obtain ⟨e, he, hp2⟩ := List.any_eq_true.1 hp2
    split at hp2
    · rename_i r
      obtain ⟨h1, h2⟩ := of_decide_eq_true hp2
      refine ⟨d, outs, d.trace.dropLast, [], r, m, ⟨_, _, _, rfl⟩, hr, ?_, he, h1, h2⟩
      obtain ⟨ys, hy⟩ := List.getLast?_eq_some_iff.1 hm
      rw [hy, List.dropLast_concat]
    · cases hp2
  · cases hp1

/-- What the service has sent and the state it holds come from successful calls of the driver. -/
theorem serves_runs {S : Sys σ ρ κ H} {d0 d : Driver σ ρ κ H} {out} (h : Serves S d0 out d) :
    ∃ outs, Runs S d0 outs d ∧ out = sent (outs.map .ok) := by
  induction h with
  | start => exact ⟨[], .nil, rfl⟩
  | @call out d i m d' new _ hs ih =>
    obtain ⟨outs, hr, rfl⟩ := ih
    unfold serve at hs
    simp only [Run.bind_eq_ok] at hs
    obtain ⟨⟨d1, r⟩, h1, h2⟩ := hs
    cases r with
    | error e => simp at h2
    | ok o =>
      simp only [Run.ok.injEq, Prod.mk.injEq] at h2
      obtain ⟨rfl, rfl⟩ := h2
      refine ⟨outs ++ [o], hr.snoc h1, ?_⟩
      cases o <;> simp [sent]

/-- C70 for the service: everything it has sent is in the record of the replica, and was recorded after everything consensus had asked to
store by then was stored. -/
theorem C70_service {S : Sys σ ρ κ H} {d0 d : Driver σ ρ κ H} {out} (h0 : Fresh d0) (h : Serves S d0 out d) :
    out = outMessages d.trace ∧ AllHandled d.trace ∧ SentHandled d.trace := by
  obtain ⟨outs, hr, rfl⟩ := serves_runs h
  refine ⟨?_, runs_handled h0 hr⟩
  have hc : Calls S d0 (outs.map .ok) d := runs_calls hr
  have := calls_sent h0 hc
  rwa [runs_messages h0 hr, List.append_nil] at this

end TCP.Replica
