import Verif.Spec.Log
import Verif.Spec.Willow
import Verif.Props.DriverAppExample

/-!
# What a replica logs (C80, C81)
-/

namespace TCP.Log

open TCP TCP.Drv TCP.DrvSpec TCP.Log.Spec

variable {σ ρ κ H : Type} {S : Sys σ ρ κ H} {lg : Logging} {pr : Printer σ ρ κ H}

theorem receiveLogged_ok {instant : Nat} {msg : Option (Option (InMsg H))} {s s' : LDriver σ ρ κ H} {r}
    (h : receiveLogged S lg pr instant msg s = .ok (s', r)) :
    receive S instant msg s.d = .ok (s'.d, (Call.mk (pr s.d instant msg s'.d) r).rest) ∧
    (Call.mk (pr s.d instant msg s'.d) r).logs ++ s'.drain =
      s.drain ++ ((pr s.d instant msg s'.d).filter lg.enabled).map (createLogMessage lg.fmt) ∧
    ((Call.mk (pr s.d instant msg s'.d) r).responded = true → s'.drain = []) := by
  unfold receiveLogged at h
  obtain ⟨⟨d', x⟩, hx, h⟩ := Run.bind_eq_ok.mp h
  cases x with
  | error e =>
    simp only [Run.ok.injEq, Prod.mk.injEq] at h
    obtain ⟨rfl, rfl⟩ := h
    exact ⟨hx, by simp [Call.logs], by simp [Call.responded]⟩
  | ok x =>
    cases x with
    | none =>
      simp only [Run.ok.injEq, Prod.mk.injEq] at h
      obtain ⟨rfl, rfl⟩ := h
      exact ⟨hx, by simp [Call.logs], by simp [Call.responded]⟩
    | some out =>
      simp only [Run.ok.injEq, Prod.mk.injEq] at h
      obtain ⟨rfl, rfl⟩ := h
      exact ⟨hx, by simp [Call.logs], by simp⟩

/-! ## C80 -/

/-- C80: over any sequence of calls, whatever their results, the host receives every enabled record exactly once and in the order in which
they were logged; what it has not received yet is still in the drain. -/
theorem C80_once {a : σ} {r : ρ} {c : κ} {cs : List (Call H)} {s : LDriver σ ρ κ H} (h : LCalls S lg pr (.new a r c) cs s) :
    cs.flatMap Call.logs ++ s.drain = ((cs.flatMap Call.logged).filter lg.enabled).map (createLogMessage lg.fmt) := by
  generalize hs0 : (LDriver.new a r c : LDriver σ ρ κ H) = s0 at h
  induction h with
  | nil => subst hs0; simp [LDriver.new]
  | snoc h hs ih =>
    obtain ⟨_, h2, _⟩ := receiveLogged_ok hs
    simp only [List.flatMap_append, List.flatMap_cons, List.flatMap_nil, List.append_nil, List.filter_append, List.map_append]
    rw [List.append_assoc, h2, ← List.append_assoc, ih]

/-- C80: a response brings everything logged so far: nothing logged before a response is received only after it. -/
theorem C80_prompt {a : σ} {r : ρ} {c : κ} {cs : List (Call H)} {s : LDriver σ ρ κ H} (h : LCalls S lg pr (.new a r c) cs s) {call : Call H}
    (hl : cs.getLast? = some call) (hr : call.responded = true) :
    cs.flatMap Call.logs = ((cs.flatMap Call.logged).filter lg.enabled).map (createLogMessage lg.fmt) := by
  have h1 := C80_once h
  cases h with
  | nil => simp at hl
  | snoc h hs =>
    simp only [List.getLast?_append, List.getLast?_singleton, Option.some_or, Option.some.injEq] at hl
    subst hl
    rw [(receiveLogged_ok hs).2.2 hr, List.append_nil] at h1
    exact h1

/-- C80: logging changes nothing else: without the `Log` messages the results are those of the replica without log. -/
theorem C80_transparent {s s' : LDriver σ ρ κ H} {cs : List (Call H)} (h : LCalls S lg pr s cs s') : Calls S s.d (cs.map Call.rest) s'.d := by
  induction h with
  | nil => exact .nil
  | snoc h hs ih =>
    rw [List.map_append]
    exact ih.snoc (receiveLogged_ok hs).1

/-- C80: a message has the severity of its record and contains its text. -/
theorem C80_content (f : Formats) (r : Record) :
    (createLogMessage f r).severity = r.level ∧ ∃ a b, (createLogMessage f r).message = a ++ r.text ++ b :=
  ⟨rfl, f.level r.level ++ " " ++ baseName r.file ++ " @ " ++ toString r.line ++ " : " ++ toString r.column ++ " / ",
    " // " ++ showValues r.values, by simp only [createLogMessage, String.append_assoc]⟩

/-- C80: with remote logging, the enabled records are those at least as severe as the configured level, that level included; without it there
are none. -/
theorem C80_enabled (lg : Logging) (r : Record) : lg.enabled r = true ↔
    lg.remote = true ∧ ∃ before after, severities = before ++ lg.max :: after ∧ (r.level ∈ before ∨ r.level = lg.max) := by
  unfold Logging.enabled
  rw [Bool.and_eq_true]
  refine and_congr_right fun _ => ⟨fun h => ?_, ?_⟩
  · refine ⟨severities.takeWhile (· ≠ lg.max), (severities.dropWhile (· ≠ lg.max)).tail, ?_, ?_⟩ <;> revert h <;>
      cases lg.max <;> cases r.level <;> decide
  · rintro ⟨before, after, h, hr⟩
    have hb : before = severities.takeWhile (· ≠ lg.max) := by
      have hn : lg.max ∉ before := by
        intro hm
        have : severities.Nodup := by decide
        rw [h, List.nodup_append] at this
        exact this.2.2 _ hm _ (by simp) rfl
      rw [h, List.takeWhile_append_of_pos (by intro x hx; simpa using fun e : x = lg.max => hn (e ▸ hx))]
      simp
    subst hb
    clear h
    revert hr
    cases lg.max <;> cases r.level <;> decide

/-- C80: a message names the file, without its directories, and the line of its record. -/
theorem C80_place (f : Formats) (r : Record) {dir file : String} (hf : '/' ∉ file.toList) (hr : r.file = dir ++ "/" ++ file ∨ r.file = file) :
    ∃ a b, (createLogMessage f r).message = a ++ " " ++ file ++ " @ " ++ toString r.line ++ b := by
  have hb : baseName r.file = file := by
    have hall : ∀ l : List Char, '/' ∉ l → ∀ x ∈ l.reverse, (fun x => decide (x ≠ '/')) x = true := by
      intro l hl x hx
      simpa using fun e : x = '/' => hl (e ▸ List.mem_reverse.mp hx)
    unfold baseName
    rcases hr with hr | hr <;> rw [hr]
    · have : (dir ++ "/" ++ file).toList.reverse = file.toList.reverse ++ '/' :: dir.toList.reverse := by simp
      rw [this, List.takeWhile_append_of_pos (hall _ hf)]
      simp
    · have := List.takeWhile_append_of_pos (l₂ := []) (hall _ hf)
      simp only [List.append_nil, List.takeWhile_nil] at this
      rw [this]
      simp
  exact ⟨f.level r.level, " : " ++ toString r.column ++ " / " ++ r.text ++ " // " ++ showValues r.values, by
    simp only [createLogMessage, hb, String.append_assoc]⟩

example : (createLogMessage ⟨fun _ => "I", fun _ => "", fun _ => "", fun _ => ""⟩ ⟨.info, "runtime/src/driver.rs", 7, 1, "hello", []⟩).message =
    "I driver.rs @ 7 : 1 / hello // " := by decide +kernel

/-! ## C81 -/

theorem newEvents_logs {instant : Nat} {msg : Option (Option (InMsg H))} {s s' : LDriver σ ρ κ H} {out : List (OutMsg H)} {logs : List LogMsg}
    (h : receiveLogged S lg pr instant msg s = .ok (s', .ok (some (out, logs)))) (hp : Prints lg.fmt pr) (hr : lg.remote = true)
    (hd : Level.rank .debug ≤ lg.max.rank) {e : Ev H} (he : e ∈ newEvents s.d s'.d) {l : Record} (hl : l ∈ storeLines lg.fmt e)
    (hlv : l.level = .debug) : createLogMessage lg.fmt l ∈ logs := by
  obtain ⟨_, h2, h3⟩ := receiveLogged_ok h
  rw [h3 rfl, List.append_nil] at h2
  simp only [Call.logs] at h2
  rw [h2]
  refine List.mem_append_right _ (List.mem_map_of_mem (List.mem_filter.mpr ⟨(hp _ _ _ _).subset (List.mem_flatMap.mpr ⟨e, he, hl⟩), ?_⟩))
  simp [Logging.enabled, hr, hlv, hd]

/-- The claim is false: in a build with debug output, whatever the replica runs, every call that stores log entries returns a message
to the host from which the entries can be read, with their data. -/
theorem C81_entries_fails (hp : Prints lg.fmt pr) (hf : Legible lg.fmt) (hr : lg.remote = true) (hd : Level.rank .debug ≤ lg.max.rank)
    {instant : Nat} {msg : Option (Option (InMsg H))} {s s' : LDriver σ ρ κ H} {out : List (OutMsg H)} {logs : List LogMsg}
    (h : receiveLogged S lg pr instant msg s = .ok (s', .ok (some (out, logs)))) {es : List Entry} {res : Except RaftErr Unit}
    (he : .storeAppend es res ∈ newEvents s.d s'.d) : ∃ m ∈ logs, Reveals lg.fmt.entries m es := by
  refine ⟨_, newEvents_logs h hp hr hd he (by exact List.mem_singleton.mpr rfl) rfl, ?_⟩
  obtain ⟨_, a, b, hab⟩ := C80_content lg.fmt
    ⟨.debug, "runtime/src/storage.rs", 100, 9, "Append, entries: " ++ lg.fmt.entries es, [("type", "store")]⟩
  exact ⟨a ++ "Append, entries: ", b, by rw [hab]; simp only [String.append_assoc], fun es' => hf.entries es es'⟩

/-- The claim is false: the same holds for the snapshots a replica installs, which contain the state of the application. -/
theorem C81_snapshots_fails (hp : Prints lg.fmt pr) (hf : Legible lg.fmt) (hr : lg.remote = true) (hd : Level.rank .debug ≤ lg.max.rank)
    {instant : Nat} {msg : Option (Option (InMsg H))} {s s' : LDriver σ ρ κ H} {out : List (OutMsg H)} {logs : List LogMsg}
    (h : receiveLogged S lg pr instant msg s = .ok (s', .ok (some (out, logs)))) {sn : Snap.RaftSnapshot} {res : Except RaftErr Unit}
    (he : .storeApply sn res ∈ newEvents s.d s'.d) : ∃ m ∈ logs, Reveals lg.fmt.snapshot m sn := by
  refine ⟨_, newEvents_logs h hp hr hd he (by exact List.mem_singleton.mpr rfl) rfl, ?_⟩
  obtain ⟨_, a, b, hab⟩ := C80_content lg.fmt (applyLine lg.fmt sn)
  exact ⟨a ++ "Applying snapshot, snapshot ", b, by rw [hab]; simp only [applyLine, String.append_assoc], fun s' => hf.snapshot sn s'⟩

/-- Part of the claim: with a logger of its own, a replica sends the host no log messages.  Missing: replicas as they are started. -/
theorem C81_local_partial (hr : lg.remote = false) {a : σ} {r : ρ} {c : κ} {cs : List (Call H)} {s : LDriver σ ρ κ H}
    (h : LCalls S lg pr (.new a r c) cs s) : cs.flatMap Call.logs = [] := by
  have h1 := C80_once h
  have : (cs.flatMap Call.logged).filter lg.enabled = [] := List.filter_eq_nil_iff.mpr fun r _ => by simp [Logging.enabled, hr]
  rw [this, List.map_nil] at h1
  exact (List.append_eq_nil_iff.mp h1).1

/-- Part of the claim: no message is less severe than the level the build is made for.  In particular a build without debug output sends
no line of the log store.  Missing: the other builds. -/
theorem C81_severe_partial {a : σ} {r : ρ} {c : κ} {cs : List (Call H)} {s : LDriver σ ρ κ H} (h : LCalls S lg pr (.new a r c) cs s)
    {m : LogMsg} (hm : m ∈ cs.flatMap Call.logs) :
    m.severity.rank ≤ lg.max.rank ∧ ∃ rec ∈ cs.flatMap Call.logged, m = createLogMessage lg.fmt rec ∧
      (lg.max.rank < Level.rank .debug → ∀ e : Ev H, rec ∉ storeLines lg.fmt e) := by
  have h1 : m ∈ ((cs.flatMap Call.logged).filter lg.enabled).map (createLogMessage lg.fmt) := by
    rw [← C80_once h]; exact List.mem_append_left _ hm
  obtain ⟨rec, hrec, rfl⟩ := List.mem_map.mp h1
  obtain ⟨h2, h3⟩ := List.mem_filter.mp hrec
  simp only [Logging.enabled, Bool.and_eq_true, decide_eq_true_eq] at h3
  refine ⟨h3.2, rec, h2, rfl, fun hlt e he => ?_⟩
  have : rec.level = .debug := by
    unfold storeLines at he
    split at he <;> simp only [List.mem_singleton, List.not_mem_nil] at he <;> subst he <;> rfl
  rw [this] at h3
  omega

/-! ## Examples -/

section
open TCP.DrvExample TCP.AppExample

/-- Text that shows every byte. -/
def showBytes (b : Bytes) : String := String.ofList (b.map Char.ofUInt8)

theorem showBytes_inj {a b : Bytes} (h : showBytes a = showBytes b) : a = b := by
  have h1 : a.map Char.ofUInt8 = b.map Char.ofUInt8 := by
    have := congrArg String.toList h
    simpa [showBytes] using this
  refine (List.map_inj_right fun x y hxy => ?_).mp h1
  have h2 := congrArg (fun c => c.val.toNat) hxy
  simpa [Char.ofUInt8, UInt8.toNat_inj] using h2

/-- An encoding of entries, to have texts that show everything. -/
def entryText : Codec (List Entry) :=
  (((Codec.nat.pair Codec.nat).pair (Codec.nat.pair Codec.bytes)).map
    (fun x => (⟨x.1.1, x.1.2, if x.2.1 = 0 then .normal else if x.2.1 = 1 then .confChange else .confChangeV2, x.2.2⟩ : Entry))
    (fun e => ((e.index, e.term), ((match e.type with | .normal => 0 | .confChange => 1 | .confChangeV2 => 2), e.data)))
    (fun e => by rcases e with ⟨i, t, k, d⟩; cases k <;> rfl)).list

def confText : Codec Storage.ConfState :=
  (Codec.nat.list.pair (Codec.nat.list.pair Codec.nat.list)).map (fun x => ⟨x.1, x.2.1, x.2.2⟩) (fun c => (c.voters, c.learners, c.votersOutgoing))
    (fun _ => rfl)

def snapshotText : Codec Snap.RaftSnapshot :=
  ((Codec.nat.pair Codec.nat).pair (confText.pair Codec.bytes)).map (fun x => ⟨⟨x.1.1, x.1.2, x.2.1⟩, x.2.2⟩)
    (fun s => ((s.metadata.index, s.metadata.term), (s.metadata.conf, s.data))) (fun _ => rfl)

def exFormats : Formats where
  level _ := "?"
  entries es := showBytes (entryText.enc es)
  snapshot s := showBytes (snapshotText.enc s)
  conf c := showBytes (confText.enc c)

theorem exFormats_legible : Legible exFormats where
  entries es es' h := by
    have := congrArg entryText.decode (showBytes_inj h)
    simpa [Codec.decode_enc] using this
  snapshot s s' h := by
    have := congrArg snapshotText.decode (showBytes_inj h)
    simpa [Codec.decode_enc] using this

/-- driver.rs:1286: the line for a message of unknown kind, then the lines of the log store. -/
def exPrinter : Printer σ ρ κ H := fun d _ m d' =>
  (match m with | some none => [⟨.warning, "runtime/src/driver.rs", 1286, 21, "Rejecting message: unknown", []⟩] | _ => []) ++
    (newEvents d d').flatMap (storeLines exFormats)

theorem exPrinter_prints : Prints exFormats (exPrinter (σ := σ) (ρ := ρ) (κ := κ) (H := H)) := fun _ _ _ _ => List.sublist_append_right _ _

/-- A build with debug output that uses the drain for the host. -/
def exLogging : Logging := ⟨true, .debug, exFormats⟩

/-- Consensus with one voter that stores what is proposed and commits it. -/
def storing : RaftT Raft :=
  { raft with makeProposal := fun r b => .ok (⟨r.on, r.st, r.last + 1, r.queue ++
      [⟨[], [], [⟨r.last + 1, 1, .normal, b⟩], [⟨r.last + 1, 1, .normal, b⟩], none, noSnapshot, 1⟩]⟩, .ok ()) }

/-- The willow decryptor on that consensus. -/
def keySys : Sys Willow.State Raft (List (Comm.OutMsg Nat)) Nat := ⟨Willow.actor Willow.Spec.exEnv, storing, comm, codecs⟩

/-- The driver after two calls that return responses. -/
def twice {σ ρ κ H : Type} (S : Sys σ ρ κ H) (m1 m2 : Option (Option (InMsg H))) (d : Driver σ ρ κ H) : Option (Driver σ ρ κ H × Driver σ ρ κ H) :=
  match receive S 1 m1 d with
  | .ok (d1, .ok (some _)) =>
    match receive S 2 m2 d1 with
    | .ok (d2, .ok (some _)) => some (d1, d2)
    | _ => none
  | _ => none

theorem twice_calls {S : Sys σ ρ κ H} {m1 m2 : Option (Option (InMsg H))} {a : σ} {r : ρ} {c : κ} {d1 d2 : Driver σ ρ κ H}
    (h : twice S m1 m2 (.new a r c) = some (d1, d2)) : ∃ c1 out logs, LCalls S lg pr (.new a r c) [c1, ⟨pr d1 2 m2 d2, .ok (some (out, logs))⟩] ⟨d2, []⟩ ∧
      receiveLogged S lg pr 2 m2 ⟨d1, []⟩ = .ok (⟨d2, []⟩, .ok (some (out, logs))) := by
  unfold twice at h
  split at h
  · rename_i e1 o1 h1
    split at h
    · rename_i e2 o2 h2
      simp only [Option.some.injEq, Prod.mk.injEq] at h
      obtain ⟨rfl, rfl⟩ := h
      have s1 : ∃ l1, receiveLogged S lg pr 1 m1 (.new a r c) = .ok (⟨e1, []⟩, .ok (some (o1, l1))) :=
        ⟨_, by simp only [receiveLogged, LDriver.new, h1, Run.bind_ok]; rfl⟩
      have s2 : ∃ l2, receiveLogged S lg pr 2 m2 ⟨e1, []⟩ = .ok (⟨e2, []⟩, .ok (some (o2, l2))) :=
        ⟨_, by simp only [receiveLogged, h2, Run.bind_ok]; rfl⟩
      obtain ⟨l1, s1⟩ := s1
      obtain ⟨l2, s2⟩ := s2
      exact ⟨_, o2, l2, LCalls.snoc (LCalls.snoc .nil s1) s2, s2⟩
    · cases h
  · cases h

/-- The claim is false, concretely: whatever else is logged, when a willow decryptor started as leader generates a key for a client, the
response to that call tells the host the private key it keeps. -/
theorem C81_key_fails {lg : Logging} {pr : Printer Willow.State Raft (List (Comm.OutMsg Nat)) Nat} (hp : Prints lg.fmt pr) (hf : Legible lg.fmt)
    (hr : lg.remote = true) (hd : Level.rank .debug ≤ lg.max.rank) :
    ∃ cs call s m es e x g, LCalls keySys lg pr (.new ⟨[], 0⟩ ⟨false, .new, 0, []⟩ []) (cs ++ [call]) s ∧ m ∈ call.logs ∧
      Reveals lg.fmt.entries m es ∧ e ∈ es ∧ codecs.decEntry e.data = some x ∧ Willow.Spec.exEnv.decEv x.contents = some (.generateKey g) ∧
      Willow.Spec.stored s.d.actor g.keyId = some ⟨g.publicKey, g.privateKey, g.order⟩ := by
  have h : (match twice keySys (AppExample.start true 1 []) (request 7 [1, 0, 1, 0, 1] []) (.new ⟨[], 0⟩ ⟨false, .new, 0, []⟩ []) with
      | some (d1, d2) => (newEvents d1 d2).any fun ev => match ev with
        | .storeAppend es _ => es.any fun e => match codecs.decEntry e.data with
          | some x => match Willow.Spec.exEnv.decEv x.contents with
            | some (.generateKey g) => decide (Willow.Spec.stored d2.actor g.keyId = some ⟨g.publicKey, g.privateKey, g.order⟩)
            | _ => false
          | none => false
        | _ => false
      | none => false) = true := by decide +kernel
  split at h
  · rename_i d1 d2 ht
    obtain ⟨c1, out, logs, hc, hs⟩ := twice_calls (lg := lg) (pr := pr) ht
    obtain ⟨ev, hev, h⟩ := List.any_eq_true.mp h
    split at h
    · rename_i es res
      obtain ⟨e, he, h⟩ := List.any_eq_true.mp h
      split at h
      · rename_i x hx
        split at h
        · rename_i g hg
          obtain ⟨m, hm, hrev⟩ := C81_entries_fails hp hf hr hd hs hev
          exact ⟨[c1], _, _, m, es, e, x, g, hc, hm, hrev, he, hx, hg, of_decide_eq_true h⟩
        · cases h
      · cases h
    · cases h
  · cases h

/-- The hypotheses about logging can be met. -/
example : Prints exLogging.fmt (exPrinter (σ := σ) (ρ := ρ) (κ := κ) (H := H)) ∧ Legible exLogging.fmt ∧ exLogging.remote = true ∧
    Level.rank .debug ≤ exLogging.max.rank := ⟨exPrinter_prints, exFormats_legible, rfl, by decide⟩

/-- Perform calls. -/
def lrun {σ ρ κ H : Type} (S : Sys σ ρ κ H) (lg : Logging) (pr : Printer σ ρ κ H) :
    LDriver σ ρ κ H → List (Nat × Option (Option (InMsg H))) → Option (List (Call H) × LDriver σ ρ κ H)
  | s, [] => some ([], s)
  | s, (i, m) :: rest => match receiveLogged S lg pr i m s with
    | .ok (s1, r) => (lrun S lg pr s1 rest).map fun x => (⟨pr s.d i m s1.d, r⟩ :: x.1, x.2)
    | .panic => none

theorem lrun_sound {ms : List (Nat × Option (Option (InMsg H)))} {s0 s s' : LDriver σ ρ κ H} {cs0 cs : List (Call H)}
    (h0 : LCalls S lg pr s0 cs0 s) (h : lrun S lg pr s ms = some (cs, s')) : LCalls S lg pr s0 (cs0 ++ cs) s' := by
  induction ms generalizing s cs0 cs with
  | nil =>
    simp only [lrun, Option.some.injEq, Prod.mk.injEq] at h
    obtain ⟨rfl, rfl⟩ := h
    simpa using h0
  | cons x rest ih =>
    obtain ⟨i, m⟩ := x
    unfold lrun at h
    split at h
    · rename_i s1 r hr
      cases hx : lrun S lg pr s1 rest with
      | none => simp [hx] at h
      | some y =>
        simp only [hx, Option.map_some, Option.some.injEq, Prod.mk.injEq] at h
        obtain ⟨rfl, rfl⟩ := h
        have := ih (h0.snoc hr) hx
        simpa using this
    · cases h

/-- C80 is not vacuous: a message of unknown kind is logged and not answered; the line comes with the next response, before the one about
the first snapshot of the cluster. -/
example : ∃ cs s, LCalls keySys exLogging exPrinter (.new ⟨[], 0⟩ ⟨false, .new, 0, []⟩ []) cs s ∧
    cs.map (fun c => (c.responded, c.logs.map LogMsg.severity)) = [(false, []), (true, [.warning, .debug])] := by
  have h : (match lrun keySys exLogging exPrinter (.new ⟨[], 0⟩ ⟨false, .new, 0, []⟩ []) [(1, some none), (2, AppExample.start true 1 [])] with
      | some x => decide (x.1.map (fun c => (c.responded, c.logs.map LogMsg.severity)) = [(false, []), (true, [.warning, .debug])])
      | none => false) = true := by decide +kernel
  split at h
  · rename_i x hx
    exact ⟨x.1, x.2, by simpa using lrun_sound .nil hx, of_decide_eq_true h⟩
  · cases h

/-- `C81_snapshots_fails` is not vacuous: a replica installs a snapshot another one sent; the response reveals its contents. -/
example : ∃ cs call s m, LCalls keySys exLogging exPrinter 
      (.new ⟨[], 0⟩ ⟨false, .new, 0, [⟨[], [], [], [], none, noSnapshot, 1⟩, snapBatch [0]]⟩ []) (cs ++ [call]) s ∧ m ∈ call.logs ∧
    Reveals exFormats.snapshot m ⟨⟨3, 1, ⟨[1], [], []⟩⟩, [0]⟩ := by
  have h : (match twice keySys (AppExample.start false 2 []) none (.new ⟨[], 0⟩ ⟨false, .new, 0, [⟨[], [], [], [], none, noSnapshot, 1⟩, snapBatch [0]]⟩ []) with
      | some (d1, d2) => (newEvents d1 d2).any fun ev => match ev with
        | .storeApply sn _ => decide (sn = ⟨⟨3, 1, ⟨[1], [], []⟩⟩, [0]⟩)
        | _ => false
      | none => false) = true := by decide +kernel
  split at h
  · rename_i d1 d2 ht
    obtain ⟨c1, out, logs, hc, hs⟩ := twice_calls (lg := exLogging) (pr := exPrinter) ht
    obtain ⟨ev, hev, h⟩ := List.any_eq_true.mp h
    split at h
    · obtain ⟨m, hm, hrev⟩ := C81_snapshots_fails (lg := exLogging) (pr := exPrinter) exPrinter_prints exFormats_legible rfl (by decide) hs hev
      rw [of_decide_eq_true h] at hrev
      exact ⟨[c1], _, _, m, hc, hm, hrev⟩
    · cases h
  · cases h

end

end TCP.Log
