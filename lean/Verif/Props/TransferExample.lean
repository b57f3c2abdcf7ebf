import Verif.Proofs.TransferSender
import Verif.Props.ReplicaExample
import Verif.Props.DriverAppExample

/-!
# Two small concrete replicas, one of which sends the other snapshots

Used only to show that the hypotheses of the theorems in `Props/Transfer` can be met.  The state of the application is a string of bytes
that every event replaces.  Replica 1 founds the cluster and leads it from its first batch on; then its consensus
offers replica 2 the snapshot in its store, and again whenever something was proposed, after an entry for it was appended and committed.  A replica that is handed a snapshot
installs it.  Encodings are faithful; snapshots are taken after every entry and sent a byte at a time.
-/

namespace TCP.TransferExample

open TCP TCP.Drv TCP.DrvSpec TCP.Replica TCP.Replica.Spec

def actor : Actor Bytes where
  onInit _ s := .ok (s, .ok ())
  onShutdown _ s := .ok s
  onSaveSnapshot _ s := .ok (s, .ok s)
  onLoadSnapshot _ _ b := .ok (b, .ok ())
  onProcessCommand _ s c := .ok (s, .ok ⟨[], c.map fun c => ⟨c.correlationId, c.payload⟩⟩)
  onApplyEvent _ _ _ ev := .ok (ev.contents, .ok ⟨[]⟩)

/-! ## Encodings -/

def confC : Codec Storage.ConfState :=
  ((Codec.list .nat).pair ((Codec.list .nat).pair (Codec.list .nat))).map (fun x => ⟨x.1, x.2.1, x.2.2⟩)
    (fun c => (c.voters, c.learners, c.votersOutgoing)) (fun _ => rfl)

def metaC : Codec Snap.Meta :=
  (Codec.nat.pair (Codec.nat.pair confC)).map (fun x => ⟨x.1, x.2.1, x.2.2⟩) (fun m => (m.index, m.term, m.conf)) (fun _ => rfl)

def snapC : Codec Snap.RaftSnapshot := (metaC.pair .bytes).map (fun x => ⟨x.1, x.2⟩) (fun s => (s.metadata, s.data)) (fun _ => rfl)

def typeC : Codec MsgType :=
  (Codec.nat.map (fun | 0 => .snapshot | 1 => .heartbeat | n + 2 => .other n) (fun | .snapshot => 0 | .heartbeat => 1 | .other n => n + 2)
    (by intro t; cases t <;> rfl))

def raftC : Codec RaftMsg :=
  (Codec.nat.pair (Codec.nat.pair (typeC.pair ((Codec.option snapC).pair .bytes)))).map (fun x => ⟨x.1, x.2.1, x.2.2.1, x.2.2.2.1, x.2.2.2.2⟩)
    (fun m => (m.to, m.from_, m.type, m.snapshot, m.body)) (fun _ => rfl)

def itC : Codec Snap.It :=
  ((Codec.nat.pair (Codec.bytes.pair .bytes)).sum (Codec.nat.pair .bytes)).map
    (fun | .inl x => .header x.1 x.2.1 x.2.2 | .inr x => .chunk x.1 x.2) (fun | .header a b c => .inl (a, b, c) | .chunk a b => .inr (a, b))
    (by intro t; cases t <;> rfl)

def contentC : Codec Snap.Content := (Codec.nat.pair (Codec.option itC)).map (fun x => ⟨x.1, x.2⟩) (fun c => (c.snapshotId, c.it)) (fun _ => rfl)

def codecs : Codecs where
  encRaft := raftC.enc
  decRaft := raftC.decode
  decConf _ := none
  encEntry := DrvExample.entryC.enc
  decEntry := DrvExample.entryC.decode
  encContent := contentC.enc
  decContent := contentC.decode
  encAck _ := []
  decAck _ := none
  encMeta := metaC.enc
  decMeta := metaC.decode

theorem faithful : Faithful codecs := ⟨raftC.decode_enc, contentC.decode_enc, metaC.decode_enc⟩

/-! ## Consensus -/

structure Nd where
  store : Storage.Store
  founder : Bool
  lead : Bool
  queue : List Ready
deriving Repr, DecidableEq

/-- A message for replica 2 with a snapshot, still to be filled in. -/
def offer : Ready := ⟨[⟨2, 1, .snapshot, none, []⟩], [], [], [], none, DrvExample.noSnapshot, 1⟩

/-- Fill in the snapshot in the store. -/
def fill (s : Storage.Store) (m : RaftMsg) : RaftMsg :=
  if m.type = .snapshot then { m with snapshot := some ⟨⟨s.snap.index, s.snap.term, s.snap.conf⟩, s.snap.data⟩ } else m

def node : NodeT Nd Nat where
  new _ _ s := .ok (.ok ⟨s, decide (s.snap.index = 1), false, if s.snap.index = 1 then [DrvExample.batch [], offer] else []⟩)
  store n := n.store
  setStore n s := { n with store := s }
  isLeader n := n.lead
  leaderId n := if n.lead then 1 else 0
  term _ := 1
  hasPendingConf _ := false
  step n m := .ok ({ n with queue := n.queue ++ match m.snapshot with
    | some s => [⟨[], [], [], [], none, s, 1⟩]
    | none => [] }, .ok ())
  propose n b :=
    let e : Drv.Entry := ⟨Storage.lastIndex n.store + 1, 1, .normal, b⟩
    .ok ({ n with queue := n.queue ++ [⟨[], [], [e], [], none, DrvExample.noSnapshot, 1⟩, ⟨[], [], [], [e], none, DrvExample.noSnapshot, 1⟩, offer] }, .ok ())
  proposeConf n _ := .ok (n, .ok ())
  tick n := .ok n
  applyConf n _ := .ok (n, .ok ⟨[1], [], []⟩)
  hasReady n := .ok (!n.queue.isEmpty)
  ready n := match n.queue with
    | [] => .panic
    | q :: qs => .ok ({ n with queue := qs, lead := n.founder }, 0, { q with messages := q.messages.map (fill n.store) })
  advance n _ := .ok (n, ⟨[], []⟩)
  advanceApply n := .ok n
  reportSnapshot n _ _ := .ok n

abbrev Rep := Driver Bytes (Simple Nd Nat) (Channels Unit Nat Nat Nat) Nat

def rep : Sys Bytes (Simple Nd Nat) (Channels Unit Nat Nat Nat) Nat := sys actor node Comm.exOps RepExample.env codecs

def config : RaftConfig := ⟨10, 5, 1, 100, some (0, 1, 3), 1⟩

/-- Perform calls, keeping the answers. -/
def calls : Rep → List (Option (Option (InMsg Nat))) → Run (Rep × List (Except PalErr (Option (List (OutMsg Nat)))))
  | d, [] => .ok (d, [])
  | d, m :: rest => (receive rep 1 m d).bind fun r => (calls r.1 rest).bind fun x => .ok (x.1, r.2 :: x.2)

theorem calls_sound {cs} {d e : Rep} {rs rs'} (h : calls d cs = .ok (e, rs')) {b : Rep} (hb : Calls rep b rs d) : Calls rep b (rs ++ rs') e := by
  induction cs generalizing d rs rs' with
  | nil =>
    simp only [calls, Run.ok.injEq, Prod.mk.injEq] at h
    obtain ⟨rfl, rfl⟩ := h
    simpa using hb
  | cons c cs ih =>
    simp only [calls, Run.bind_eq_ok, Run.ok.injEq, Prod.mk.injEq] at h
    obtain ⟨r, hr, x, hx, rfl, rfl⟩ := h
    have := ih hx (hb.snoc hr)
    simpa [List.append_assoc] using this

/-- Replica 1 starts with this state of the application. -/
def first : Rep := Replica.fresh [10, 11] ()

/-- And replica 2 with none. -/
def second : Rep := Replica.fresh [] ()

def startMsg (leader : Bool) (id : Nat) : Option (Option (InMsg Nat)) := some (some (.startReplica ⟨leader, id, some config, [], false, some []⟩))

/-- Replica 1 founds the cluster, gets to know replica 2, handles a command, and goes on. -/
def leaderCalls : List (Option (Option (InMsg Nat))) :=
  [startMsg true 1, some (some (.handshake 2 7)), some (some (.appMessage ⟨1, [], [20, 21]⟩)), none, none, none]

/-- A request of a snapshot transfer, as the host delivers it. -/
def deliver (x : Comm.Data) : Option (Option (InMsg Nat)) :=
  match x.kind with
  | .snapshotRequest i => some (some (.snapshotRequest x.recipient x.sender i x.payload))
  | _ => none

/-- The calls of replica 2: it starts, gets to know replica 1, and the host delivers what replica 1 sent, in some order. -/
def followerCalls (order : List Comm.Data → List Comm.Data) : List (Option (Option (InMsg Nat))) :=
  match calls first leaderCalls with
  | .ok (_, rs) => [startMsg false 2, some (some (.handshake 1 7))] ++ (order (dataMessages (sent rs))).map deliver
  | .panic => []

/-- Run replica 1, then replica 2; check the two. -/
def check (order : List Comm.Data → List Comm.Data) (p : Rep → Rep → Bool) : Bool :=
  match calls first leaderCalls, calls second (followerCalls order) with
  | .ok (l, rs), .ok (d, rs') => DrvExample.allOk rs && DrvExample.allOk rs' && p l d
  | _, _ => false

theorem check_sound {order p} (h : check order p = true) : ∃ (l d : Rep) (rs rs' : List (Except PalErr (Option (List (OutMsg Nat))))),
    Calls rep first rs l ∧ Calls rep second rs' d ∧ p l d = true := by
  unfold check at h
  split at h
  · rename_i l rs d rs' h1 h2
    simp only [Bool.and_eq_true] at h
    exact ⟨l, d, rs, rs', by simpa using calls_sound h1 .nil, by simpa using calls_sound h2 .nil, h.2⟩
  · cases h

/-- The last of four messages overtakes the two before it. -/
def overtake : List Comm.Data → List Comm.Data
  | [a, b, c, d] => [a, d, b, c]
  | l => l

/-- The other replicas: replica 1, and replicas that do nothing. -/
def peers (l : Rep) (q : Nat) : Rep := if q = 1 then l else second

/-! ## A network -/

/-- Checks `Unmixed`. -/
def unmixed (cs : List Snap.Content) : Bool :=
  (List.range cs.length).all fun i => match cs[i]? with
    | some c => opens c || (match Snap.last (cs.take i) with | some id => c.snapshotId == id | none => true)
    | none => false

theorem unmixed_sound {cs : List Snap.Content} (h : unmixed cs = true) : Unmixed cs := by
  have : ∀ n ≤ cs.length, Unmixed (cs.take n) := by
    intro n hn
    induction n with
    | zero => simpa using Snap.unmixed_nil
    | succ n ih =>
      have hi : n < cs.length := by omega
      rw [List.take_succ_eq_append_getElem hi]
      refine Snap.unmixed_snoc (ih (by omega)) ?_
      have := List.all_eq_true.1 h n (List.mem_range.2 hi)
      rw [List.getElem?_eq_getElem hi] at this
      simp only [Bool.or_eq_true] at this
      rcases this with h | h
      · exact Or.inl h
      · refine Or.inr fun id hid => ?_
        rw [hid] at h
        simpa using h
  simpa using this cs.length (Nat.le_refl _)

/-- The messages passed up. -/
def passed (log : List (Comm.Spec.Ev Nat Nat)) : List Comm.Data :=
  log.filterMap fun e => match e with | .inn _ _ (.ok (some (.data x))) => some x | _ => none

theorem received_passed {q : Nat} {log : List (Comm.Spec.Ev Nat Nat)} : received q log = (passed log).filter fun x => x.sender = q := by
  unfold received passed
  rw [List.filter_filterMap]
  congr 1
  funext e
  match e with
  | .inn _ _ (.ok (some (.data x))) => by_cases h : x.sender = q <;> simp [h, Option.filter]
  | .inn _ _ (.ok (some (.handshake _ _))) => rfl
  | .inn _ _ (.ok (some .other)) => rfl
  | .inn _ _ (.ok none) => rfl
  | .inn _ _ (.error _) => rfl
  | .out .. => rfl
  | .take _ => rfl
  | .tick => rfl
  | .cluster _ => rfl
  | .shuffle .. => rfl

theorem received_none {log : List (Comm.Spec.Ev Nat Nat)} {p q : Nat} (h : (passed log).all (fun x => x.sender == p) = true) (hq : q ≠ p) :
    received q log = [] := by
  rw [received_passed, List.filter_eq_nil_iff]
  intro x hx
  have := List.all_eq_true.1 h x hx
  simp only [beq_iff_eq] at this
  simp only [decide_eq_true_eq, this]
  exact Ne.symm hq

/-- `Smooth`, as a check. -/
def smooth (log : List (Comm.Spec.Ev Nat Nat)) : Bool := log.all fun
  | .out _ _ (.error _) => false
  | _ => true

theorem smooth_sound {log : List (Comm.Spec.Ev Nat Nat)} (h : smooth log = true) : Smooth log := by
  intro u f e hx
  have := List.all_eq_true.1 h _ hx
  simp at this

/-- The messages consensus wanted sent. -/
def posted (t : List (Ev Nat)) : List RaftMsg :=
  t.flatMap fun e => match e with | .ready r => r.messages ++ r.persisted | .light l => l.messages | _ => []

theorem posted_sound {t : List (Ev Nat)} {m : RaftMsg} (h : Posted t m) : m ∈ posted t := by
  rcases h with ⟨r, h1, h2⟩ | ⟨l, h1, h2⟩
  · exact List.mem_flatMap.2 ⟨_, h1, by simpa using h2⟩
  · exact List.mem_flatMap.2 ⟨_, h1, h2⟩

/-- The two replicas; the others are never started. -/
def two (ab : Rep × Rep) (p : Nat) : Rep := if p = 1 then ab.1 else if p = 2 then ab.2 else second

def setTwo (ab : Rep × Rep) (b : Bool) (d : Rep) : Rep × Rep := if b then (ab.1, d) else (d, ab.2)

theorem update_two (ab : Rep × Rep) (b : Bool) (d : Rep) : update (two ab) (if b then 2 else 1) d = two (setTwo ab b d) := by
  funext q
  cases b <;> simp only [update, two, setTwo] <;> (by_cases h0 : q = 1 <;> by_cases h1 : q = 2 <;> simp_all)

/-- Does a call meet the conditions of `Networked.call`? -/
def stepOk (log : Nat → Drv.Entry) (ab : Rep × Rep) (b : Bool) (d : Rep) (r : Except PalErr (Option (List (OutMsg Nat)))) : Bool :=
  (match r with | .ok _ => true | .error _ => false) && !d.ephemeral && decide (d.state = .created ∨ d.id = if b then 2 else 1) &&
  (passed d.comm.log).all (fun x => (given (if b then 2 else 1) (two ab x.sender).comm.log).any fun y => y.kind == x.kind && y.payload == x.payload) &&
  (passed d.comm.log).all (fun x => unmixed (pieces codecs (received x.sender d.comm.log))) &&
  (posted d.trace).all (fun m => match m.snapshot with
    | some s => decide ((s.metadata.index, s.data) ∈ d.trace.filterMap DrvExample.created?)
    | none => true) &&
  (d.trace.filterMap DrvExample.ready?).all (fun r => r.snapshot.metadata.index == 0 ||
    (stepped d.trace).any fun m => m.type == .snapshot && m.snapshot == some r.snapshot) &&
  (AppExample.advances log d.trace (0, 0)).isSome && (d.trace.flatMap delivered).all (fun e => decide (2 ≤ e.index)) &&
  (!b || (d.trace.filterMap DrvExample.created?).all fun x => x.1 != 1) && (AppExample.configs d.trace).all (· == [])

/-- Run the two replicas. -/
def network (log : Nat → Drv.Entry) : Rep × Rep → List (Bool × Option (Option (InMsg Nat))) → Option (Rep × Rep)
  | ab, [] => some ab
  | ab, (b, m) :: rest => match receive rep 1 m (two ab (if b then 2 else 1)) with
    | .ok x => if stepOk log ab b x.1 x.2 then network log (setTwo ab b x.1) rest else none
    | .panic => none

theorem network_sound {log : Nat → Drv.Entry} {new : Bytes → Prop} {cs} {ab ab' : Rep × Rep} (h : network log ab cs = some ab')
    (hc : Networked actor node Comm.exOps RepExample.env codecs log 1 new [] (two ab)) :
    Networked actor node Comm.exOps RepExample.env codecs log 1 new [] (two ab') := by
  induction cs generalizing ab with
  | nil => cases h; exact hc
  | cons c cs ih =>
    obtain ⟨b, m⟩ := c
    simp only [network] at h
    rcases hx : receive rep 1 m (two ab (if b then 2 else 1)) with ⟨d, r⟩ | _ <;> rw [hx] at h
    · simp only [] at h
      split at h
      · rename_i hok
        refine ih h ?_
        rw [← update_two]
        simp only [stepOk, Bool.and_eq_true] at hok
        obtain ⟨⟨⟨⟨⟨⟨⟨⟨⟨⟨h1, h2⟩, h3⟩, h4⟩, h5⟩, h6⟩, h7⟩, h8⟩, h9⟩, h10⟩, h11⟩ := hok
        match r, h1 with
        | .ok out, _ =>
          refine hc.call hx (by simpa using h2) ?_ ?_ ?_ ?_ ?_ ?_ ?_ ?_ ?_
          · intro hs
            rcases of_decide_eq_true h3 with h | h
            · exact absurd h hs
            · exact ⟨h, by cases b <;> simp⟩
          · intro q x hx
            rw [received_passed, List.mem_filter] at hx
            obtain ⟨y, hy, he⟩ := List.any_eq_true.1 (List.all_eq_true.1 h4 x hx.1)
            simp only [Bool.and_eq_true, beq_iff_eq] at he
            rw [of_decide_eq_true hx.2] at hy
            exact ⟨y, hy, he⟩
          · intro q
            by_cases hq : ∃ x ∈ passed d.comm.log, x.sender = q
            · obtain ⟨x, hx, rfl⟩ := hq
              exact unmixed_sound (List.all_eq_true.1 h5 x hx)
            · have : received q d.comm.log = [] := by
                rw [received_passed, List.filter_eq_nil_iff]
                intro x hx
                simp only [decide_eq_true_eq]
                exact fun h => hq ⟨x, hx, h⟩
              rw [this]
              exact Snap.unmixed_nil
          · rintro s q ⟨m, hm, _, _, hsn⟩
            have := List.all_eq_true.1 h6 m (posted_sound hm)
            rw [hsn] at this
            rcases DrvExample.created_sound (of_decide_eq_true this) with ⟨c, h⟩ | h
            · exact Or.inr (Or.inl ⟨c, h⟩)
            · exact Or.inl h
          · intro r hr h0
            have := List.all_eq_true.1 h7 r (List.mem_filterMap.2 ⟨_, hr, rfl⟩)
            simp only [Bool.or_eq_true, beq_iff_eq] at this
            rcases this with h | h
            · exact absurd h h0
            · obtain ⟨m, hm, he⟩ := List.any_eq_true.1 h
              simp only [Bool.and_eq_true, beq_iff_eq] at he
              exact ⟨m, hm, he⟩
          · obtain ⟨y, hy⟩ := Option.isSome_iff_exists.1 h8
            exact ⟨y, AppExample.advances_sound hy⟩
          · intro e he
            exact of_decide_eq_true (List.all_eq_true.1 h9 e he)
          · intro id b' hb
            cases b with
            | false => rfl
            | true =>
              have := List.all_eq_true.1 (by simpa using h10) (1, b') (List.mem_filterMap.2 ⟨_, hb, rfl⟩)
              simp at this
          · intro ctx res hm
            have := List.all_eq_true.1 h11 ctx.config (List.mem_filterMap.2 ⟨_, hm, rfl⟩)
            simpa using this
      · cases h
    · cases h

/-- The entry replica 1 proposes. -/
def log : Nat → Drv.Entry := AppExample.logOf [⟨some (1, 1), [20, 21]⟩]

/-- Both replicas, with messages delivered in order. -/
def scenario : List (Bool × Option (Option (InMsg Nat))) := leaderCalls.map (false, ·) ++ (followerCalls id).map (true, ·)

end TCP.TransferExample
