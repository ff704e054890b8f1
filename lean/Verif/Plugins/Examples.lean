import Verif.Flattener.Stream
import Verif.Processor.Returns
/-
C116: what the plugins shipped in /repo/plugins do when they are loaded: the "printer" handler, the "example" processor and the "now" action.
Sources: /repo/plugins/handlers/printer/printer.go, /repo/plugins/processors/example/example.go, /repo/plugins/actions/example/now.go
-/
namespace Verif.Plugins
open Verif.Decimal (Str formatInt)
open Verif.SysFlow
open Verif.FlatRecord hiding Ctx
open Verif.Processor
open Verif.Flattener
open Verif.Policy
open Verif.Engine (ActionFunc ActionMap Interp)

/-! ### The printer handler -/

/-- A message of `logger.Info.Printf("<kind> %s, %d", exe, n)` (printer.go:97, 103, 109, 121). -/
def message (kind exe : Str) (n : Int) : Str := kind ++ ' ' :: exe ++ ',' :: ' ' :: formatInt n

/-- The handler methods of `Printer` (printer.go:66-123) on one call of the reader: the messages logged; `none`: the process of the context is
a nil pointer and the program panics. The handlers for network events and process flows (printer.go:114-117, 126-129) are never called by the reader. -/
def printed : HCall → Option (List Str)
  | .netFlow c e => c.proc.map (fun p => [message "NetworkFlow".toList p.exe e.dport])
  | .fileFlow c e => c.proc.map (fun p => [message "FileFlow".toList p.exe e.fd])
  | .fileEvt c e => c.proc.map (fun p => [message "FileEvt".toList p.exe e.tid])
  | .procEvt c e => c.proc.map (fun p => [message "ProcEvt".toList p.exe e.tid])
  | .header _ _ | .cont _ _ | .pod _ _ | .proc _ _ | .file _ _ | .k8s _ _ => some []

/-- `Printer.IsEntityEnabled` (printer.go:53-55). -/
def printerEntities : Bool := false

/-- The calls of one record, in order: the messages, and whether a call panicked (reader.go:90-164 with the handler of printer.go). -/
def printCalls : List HCall → List Str × Bool
  | [] => ([], false)
  | c :: cs =>
    match printed c with
    | none => ([], true)
    | some ls => (ls ++ (printCalls cs).1, (printCalls cs).2)

/-- The reader's loop (reader.go:90-165) with the printer as its handler: the messages and whether the program has panicked; `none`: the reader
does not return from a record. -/
def readPrint (fuel : Nat) : Processor.State → List Rec → Option (List Str × Bool)
  | _, [] => some ([], false)
  | s, r :: rs =>
    match step printerEntities fuel s r with
    | none => none
    | some (s', cs) =>
      if (printCalls cs).2 then some (printCalls cs)
      else
        match readPrint fuel s' rs with
        | none => none
        | some (ls, b) => some ((printCalls cs).1 ++ ls, b)

/-! ### The example processor -/

/-- One iteration of the loop of `Example.Process` (example.go:66-75): the message, if any; `none`: index out of range (a record without sections). -/
def exampleStep (fr : FlatRec) : Option (List Str) :=
  match fr.sections with
  | [] => none
  | (_, s) :: _ =>
    if s.ints .SF_REC_TYPE = PROC_EVT then some [message "Process Event:".toList (s.strs .PROC_EXE_STR) (s.ints .TID_INT)] else some []

/-- The inner loop of `Example.Process` (example.go:66-75) on the records of one channel, up to its closing. -/
def exampleChan : List FlatRec → Option (List Str)
  | [] => some []
  | fr :: frs =>
    match exampleStep fr with
    | none => none
    | some ls => (exampleChan frs).map (ls ++ ·)

/-- `Example.Process` (example.go:59-78) on its input channels, read one after the other. -/
def exampleProcess : List (List FlatRec) → Option (List Str)
  | [] => some []
  | ch :: chs =>
    match exampleChan ch with
    | none => none
    | some ls => (exampleProcess chs).map (ls ++ ·)

/-! ### The action "now" -/

/-- A flat record together with the number of times the clock has been read; `clock k` is what the `k`-th reading shows. -/
abbrev Clocked := Record × Nat

/-- `addMyTag` (now.go:39-42): `AddTags` with one tag; never an error. -/
def addMyTag (clock : Nat → Int) : ActionFunc Clocked := fun r =>
  (({ r.1 with ctx := r.1.ctx.addTags ["now_in_nanos:".toList ++ formatInt (clock r.2)] }, r.2 + 1), false)

/-- `MyAction.GetName` (now.go:31-33). -/
def nowName : Str := "now".toList

/-- The plugin file, as `loadUserActions` reads it (now.go:29-44). -/
def nowPlugin (clock : Nat → Int) : Engine.ActionFile Clocked := .action nowName (addMyTag clock)

/-- A rule over flat records, over flat records with a clock: its condition does not read the clock (operations.go:44-117). -/
def liftRule (x : Rule Record) : Rule Clocked := { toRuleInfo := x.toRuleInfo, condition := ⟨fun r => x.condition.pred r.1⟩ }

/-- The same for a filter. -/
def liftFilter (x : Policy.Filter Record) : Policy.Filter Clocked := ⟨x.name, ⟨fun r => x.condition.pred r.1⟩, x.enabled⟩

/-- The policy interpreter with the user actions of a directory whose files are `files` (actionhandler.go:67-97), over flat records with a clock. -/
def clockInterp (L : Lib) (enrich : Bool) (rules : List (Rule Record)) (fs : List (Policy.Filter Record)) (files : List (Engine.ActionFile Clocked))
    (hasOut : Bool) : Interp Clocked where
  enrich := enrich
  rules := rules.map liftRule
  filters := fs.map liftFilter
  isApplicable := fun r x => isApplicable L getMappers r.1 ⟨x.toRuleInfo, ⟨fun fr => x.condition.pred (fr, r.2)⟩⟩
  addRules := fun r x => ({ r.1 with ctx := r.1.ctx.addRules [x.toRuleInfo] }, r.2)
  builtIn := Engine.builtInActions
  user := Engine.loadUserActions files
  hasOut := hasOut

/-! ### Specification -/

/-- The name the printer gives to an event, and the number it shows of it. -/
def kindOf : Rec → Str
  | .procEvt _ => "ProcEvt".toList | .netFlow _ => "NetworkFlow".toList | .fileFlow _ => "FileFlow".toList | .fileEvt _ => "FileEvt".toList | _ => []
def shownOf : Rec → Int
  | .procEvt e => e.tid | .netFlow e => e.dport | .fileFlow e => e.fd | .fileEvt e => e.tid | _ => 0

/-- The message about an event `x.2` that comes after the records `x.1`, if it belongs to a known process. -/
def printLine (x : List Rec × Rec) : Option Str :=
  ((procOf x.2).bind (knownProc x.1)).map (fun p => kindOf x.2 ++ " ".toList ++ p.exe ++ ", ".toList ++ formatInt (shownOf x.2))

/-- An event of a process the stream has not announced since its last header. -/
def Stranger (pre : List Rec) (ev : Rec) : Prop := ∃ id, procOf ev = some id ∧ knownProc pre id = none

/-- No event of the stream is of an unannounced process. -/
def Announced (rs : List Rec) : Prop := ∀ pre ev post, rs = pre ++ ev :: post → ¬ Stranger pre ev

/-! ### Proofs: printer -/

theorem calls_printed (pre : List Rec) (r : Rec) (cs : List HCall) (h : CallSpec pre r cs) :
    (¬ Stranger pre r → printCalls cs = (((if isEvent r then [(pre, r)] else []).filterMap printLine), false))
    ∧ (Stranger pre r → printCalls cs = ([], true)) := by
  have go : ∀ (id : OID) (c : Processor.Ctx) (call : HCall) (k : Str) (n : Int), procOf r = some id → isEvent r = true → EventCtx pre r id c →
      printed call = c.proc.map (fun p => [message k p.exe n]) → k = kindOf r → n = shownOf r →
      (¬ Stranger pre r → printCalls [call] = (((if isEvent r then [(pre, r)] else []).filterMap printLine), false))
      ∧ (Stranger pre r → printCalls [call] = ([], true)) := by
    intro id c call k n hp hev hc hpr hk hn
    subst hk hn
    refine ⟨fun hs => ?_, fun ⟨id', h1, h2⟩ => ?_⟩
    · cases hkp : knownProc pre id with
      | none => exact absurd ⟨id, hp, hkp⟩ hs
      | some p =>
        have h0 : (procOf r).bind (knownProc pre) = some p := by rw [hp]; exact hkp
        have h1 : printLine (pre, r) = some (kindOf r ++ " ".toList ++ p.exe ++ ", ".toList ++ formatInt (shownOf r)) := by
          unfold printLine
          dsimp only
          rw [h0]
          rfl
        have h2 : printed call = some [message (kindOf r) p.exe (shownOf r)] := by
          rw [hpr, hc.proc, hkp]; rfl
        have h3 : message (kindOf r) p.exe (shownOf r) = kindOf r ++ " ".toList ++ p.exe ++ ", ".toList ++ formatInt (shownOf r) := by
          unfold message
          show _ = kindOf r ++ [' '] ++ p.exe ++ [',', ' '] ++ formatInt (shownOf r)
          simp only [List.append_assoc, List.cons_append, List.nil_append, List.singleton_append]
        rw [hev, if_pos rfl, List.filterMap_cons, h1]
        unfold printCalls
        rw [h2, h3]
        rfl
    · rw [hp] at h1
      cases h1
      have h2 : printed call = none := by rw [hpr, hc.proc, h2]; rfl
      unfold printCalls
      rw [h2]
  cases h with
  | k8s e =>
    refine ⟨fun _ => rfl, fun ⟨_, h, _⟩ => by cases h⟩
  | procEvt e c hc hf hn => exact go _ c _ _ _ rfl rfl hc rfl rfl rfl
  | netFlow e c hc hf hn => exact go _ c _ _ _ rfl rfl hc rfl rfl rfl
  | fileFlow e c hc hf hn => exact go _ c _ _ _ rfl rfl hc rfl rfl rfl
  | fileEvt e c hc hf hn => exact go _ c _ _ _ rfl rfl hc rfl rfl rfl
  | other r h =>
    refine ⟨fun _ => ?_, fun ⟨id, h', _⟩ => ?_⟩
    · rw [h]; rfl
    · cases r <;> first | (cases h'; done) | (cases h; done)

/-- One record. -/
theorem step_printed (fuel : Nat) (pre : List Rec) (s0 s1 : Processor.State) (cs0 cs1 : List HCall) (r : Rec)
    (hp : run false fuel .init pre = some (s0, cs0)) (hs : step false fuel s0 r = some (s1, cs1)) :
    run false fuel .init (pre ++ [r]) = some (s1, cs0 ++ cs1) ∧ CallSpec pre r cs1 := by
  have hp' : run false fuel .init (pre ++ [r]) = some (s1, cs0 ++ cs1) := by
    rw [run_append, hp]
    simp only [run, hs, List.append_nil]
  obtain ⟨s0', cs0', calls, e1, e2, e3⟩ := reader_context fuel pre r s1 (cs0 ++ cs1) hp'
  rw [hp] at e1
  cases e1
  have ec : cs1 = calls := List.append_cancel_left e2
  subst ec
  exact ⟨hp', e3⟩

theorem readPrint_quiet (fuel : Nat) (s s' : Processor.State) (r : Rec) (cs : List HCall) (rest : List Rec) (ls : List Str)
    (hs : step false fuel s r = some (s', cs)) (hp : printCalls cs = (ls, false)) :
    readPrint fuel s (r :: rest) = (readPrint fuel s' rest).map (fun x => (ls ++ x.1, x.2)) := by
  have hs' : step printerEntities fuel s r = some (s', cs) := hs
  rw [readPrint, hs']
  dsimp only
  rw [hp]
  dsimp only
  rw [if_neg (by decide)]
  cases readPrint fuel s' rest <;> rfl

theorem readPrint_loud (fuel : Nat) (s s' : Processor.State) (r : Rec) (cs : List HCall) (rest : List Rec) (ls : List Str)
    (hs : step false fuel s r = some (s', cs)) (hp : printCalls cs = (ls, true)) : readPrint fuel s (r :: rest) = some (ls, true) := by
  have hs' : step printerEntities fuel s r = some (s', cs) := hs
  rw [readPrint, hs']
  dsimp only
  rw [hp, if_pos rfl]

/-- A stretch of announced events is printed, and the reader goes on behind it. -/
theorem stretch_printed (fuel : Nat) (rs rest : List Rec) : ∀ (pre : List Rec) (s0 s : Processor.State) (cs0 cs : List HCall),
    run false fuel .init pre = some (s0, cs0) → run false fuel s0 rs = some (s, cs) →
    (∀ mid ev post, rs = mid ++ ev :: post → ¬ Stranger (pre ++ mid) ev) →
    readPrint fuel s0 (rs ++ rest) = (readPrint fuel s rest).map (fun x => ((eventsAfter pre rs).filterMap printLine ++ x.1, x.2)) := by
  induction rs with
  | nil =>
    intro pre s0 s cs0 cs _ h _
    cases h
    show readPrint fuel s0 rest = _
    cases readPrint fuel s0 rest <;> rfl
  | cons r rs ih =>
    intro pre s0 s cs0 cs hp h ha
    simp only [run] at h
    split at h
    · cases h
    · rename_i s1 cs1 hs
      split at h
      · cases h
      · rename_i s2 cs2 hr
        cases h
        obtain ⟨hp', e3⟩ := step_printed fuel pre s0 s1 cs0 cs1 r hp hs
        have hk : ¬ Stranger pre r := by
          have := ha [] r rs rfl
          rwa [List.append_nil] at this
        have hpc := (calls_printed pre r cs1 e3).1 hk
        have ht := ih (pre ++ [r]) s1 s (cs0 ++ cs1) cs2 hp' hr (by
          intro mid ev post e
          have := ha (r :: mid) ev post (by rw [e]; rfl)
          rwa [List.append_assoc, List.singleton_append])
        show readPrint fuel s0 (r :: (rs ++ rest)) = _
        rw [readPrint_quiet fuel s0 s1 r cs1 (rs ++ rest) _ hs hpc, ht]
        cases readPrint fuel s rest with
        | none => rfl
        | some x =>
          simp only [Option.map_some, eventsAfter, List.filterMap_append, List.append_assoc]

/-- **C116** With the printer as its handler the reader logs, for a stream in which every event belongs to an announced process, one message per
process, network flow, file flow and file event, in stream order: the kind of the event, the executable of its process as known at that point and the
thread id (for flows: the destination port or the file descriptor). Entities and Kubernetes events are not printed. -/
theorem printer_prints (fuel : Nat) (rs : List Rec) (hs : ¬ Stuck rs) (hf : rs.length ≤ fuel) (ha : Announced rs) :
    readPrint fuel .init rs = some ((eventsAfter [] rs).filterMap printLine, false) := by
  obtain ⟨⟨s, cs⟩, hr⟩ := reader_returns rs hs fuel hf
  have h := stretch_printed fuel rs [] [] .init s [] cs rfl hr (fun mid ev post e => by
    rw [List.nil_append]; exact ha mid ev post e)
  rw [List.append_nil] at h
  rw [h]
  show some (_ ++ [], false) = _
  rw [List.append_nil]

/-- **C116** (finding) The first event of a process the stream has not announced since its last header ends the program: the messages about the events
before it are logged, and then the handler dereferences the missing process. -/
theorem printer_crashes_on_stranger (fuel : Nat) (pre post : List Rec) (ev : Rec) (hs : ¬ Stuck pre) (hf : pre.length < fuel) (ha : Announced pre)
    (hev : Stranger pre ev) :
    readPrint fuel .init (pre ++ ev :: post) = some ((eventsAfter [] pre).filterMap printLine, true) := by
  obtain ⟨⟨s, cs⟩, hr⟩ := reader_returns pre hs fuel (Nat.le_of_lt hf)
  have h := stretch_printed fuel pre (ev :: post) [] .init s [] cs rfl hr (fun mid ev post e => by
    rw [List.nil_append]; exact ha mid ev post e)
  have hst : ∃ s1 cs1, step false fuel s ev = some (s1, cs1) := by
    obtain ⟨id, h1, h2⟩ := hev
    cases hst : step false fuel s ev with
    | some q => exact ⟨q.1, q.2, rfl⟩
    | none =>
      exfalso
      have hb := run_procs fuel pre s cs hr
      obtain ⟨id', h1', ⟨_, _, _, _, _, h3, _⟩, _⟩ := (step_stuck (run_inv fuel pre s cs hr) ev).2 fuel (by omega) hst
      rw [h1] at h1'
      cases h1'
      rw [h2] at h3
      cases h3
  obtain ⟨s1, cs1, hst⟩ := hst
  obtain ⟨_, e3⟩ := step_printed fuel pre s s1 cs cs1 ev hr hst
  have hpc := (calls_printed pre ev cs1 e3).2 hev
  rw [h]
  have hc : readPrint fuel s (ev :: post) = some ([], true) := readPrint_loud fuel s s1 ev cs1 post [] hst hpc
  rw [hc]
  show some (_ ++ [], true) = _
  rw [List.append_nil]

/-- A stream that is not announced throughout has a first event of an unannounced process. -/
theorem first_stranger (rs : List Rec) (h : ¬ Announced rs) : ∃ pre ev post, rs = pre ++ ev :: post ∧ Announced pre ∧ Stranger pre ev := by
  induction rs using Verif.snocInduction with
  | nil =>
    refine absurd (fun pre ev post e => ?_) h
    cases pre <;> cases e
  | snoc rs r ih =>
    by_cases ha : Announced rs
    · by_cases hr : Stranger rs r
      · exact ⟨rs, r, [], rfl, ha, hr⟩
      · refine absurd (fun pre ev post e => ?_) h
        rcases snoc_eq e with ⟨rfl, rfl, rfl⟩ | ⟨post', rfl, e'⟩
        · exact hr
        · exact ha pre ev post' e'
    · obtain ⟨pre, ev, post, rfl, h1, h2⟩ := ih ha
      exact ⟨pre, ev, post ++ [r], by simp, h1, h2⟩

/-- **C116** So with the printer the program survives a stream exactly if every event belongs to an announced process. -/
theorem printer_survives_iff (fuel : Nat) (rs : List Rec) (hs : ¬ Stuck rs) (hf : rs.length ≤ fuel) :
    (∃ ls, readPrint fuel .init rs = some (ls, false)) ↔ Announced rs := by
  refine ⟨fun ⟨ls, h⟩ => ?_, fun ha => ⟨_, printer_prints fuel rs hs hf ha⟩⟩
  refine Classical.byContradiction (fun hn => ?_)
  obtain ⟨pre, ev, post, rfl, ha, hev⟩ := first_stranger rs hn
  have h1 := printer_crashes_on_stranger fuel pre post ev (fun hc => hs ?_) (by rw [List.length_append, List.length_cons] at hf; omega) ha hev
  · rw [h] at h1
    cases h1
  · obtain ⟨p, e, q, id, rfl, h2, h3, h4⟩ := hc
    exact ⟨p, e, q ++ ev :: post, id, by simp, h2, h3, h4⟩

/-! ### Proofs: example processor -/

/-- The message of the example processor about an event `x.2` that comes after the records `x.1`: only about process events; without a name if the process
is not known. -/
def exampleLine (x : List Rec × Rec) : Option Str :=
  match x.2 with
  | .procEvt e => some ("Process Event: ".toList ++ from? (knownProc x.1 e.procOID) [] (fun p => p.exe) ++ ", ".toList ++ formatInt e.tid)
  | _ => none

theorem trim_trim (s : Str) : Strings.trimSpace (Strings.trimSpace s) = Strings.trimSpace s := by
  obtain ⟨_, h1, h2⟩ := Strings.trimSpace_spec s
  generalize Strings.trimSpace s = t at h1 h2
  have keep : ∀ l : Str, (∀ c, l.head? = some c → c.toNat ∉ Strings.whiteSpace) → l.dropWhile Strings.isSpace = l := by
    intro l hl
    cases l with
    | nil => rfl
    | cons a l =>
      refine List.dropWhile_cons_of_neg (fun h => hl a rfl ((Strings.isSpace_iff a).1 h))
  unfold Strings.trimSpace
  rw [keep t h1, keep t.reverse (fun c hc => h2 c (by rw [List.head?_reverse] at hc; exact hc)), List.reverse_reverse]

theorem one_section (F : FLib) (call : HCall) (fr : FlatRec) (h : recOf F call = some fr) : ∃ s, fr.sections = [(.sysflow, s)] := by
  cases call <;> first | (cases h; exact ⟨_, rfl⟩) | cases h

/-- One record of the flattener. -/
theorem example_step (F : FLib) (x : List Rec × Rec) (fr : FlatRec) (s : Sect) (hs : fr.sections = [(.sysflow, s)]) (h : StoresEvent F x fr) :
    exampleStep fr = some (exampleLine x).toList := by
  obtain ⟨pre, ev⟩ := x
  obtain ⟨hev, c, hk, hst⟩ := h
  have hev : isEvent ev = true := hev
  have hI : ∀ a, s.ints a = intOf c ev a := by
    intro a
    rw [← hst.int a]
    unfold FlatRec.getInt
    rw [hs]
    rfl
  have hS : ∀ a, s.strs a = strOf F c ev a := by
    intro a
    rw [← hst.str a]
    unfold FlatRec.getStr
    rw [hs]
    rfl
  unfold exampleStep
  rw [hs]
  dsimp only
  rw [hI, hI, hS]
  cases ev with
  | procEvt e =>
    have hp : c.proc = knownProc pre e.procOID := hk.proc
    have h1 : intOf c (.procEvt e) .SF_REC_TYPE = PROC_EVT := rfl
    have h2 : intOf c (.procEvt e) .TID_INT = e.tid := rfl
    have h3 : strOf F c (.procEvt e) .PROC_EXE_STR = from? (knownProc pre e.procOID) [] (fun p => p.exe) := by
      show from? c.proc [] (fun p => Strings.trimSpace p.exe) = _
      rw [hp]
      cases hkp : knownProc pre e.procOID with
      | none => rfl
      | some p =>
        obtain ⟨p0, _, _, rfl⟩ := known_from pre e.procOID p hkp
        show Strings.trimSpace (Strings.trimSpace p0.exe) = Strings.trimSpace p0.exe
        exact trim_trim _
    rw [if_pos h1, h2, h3]
    show some [message _ _ _] = some [_]
    unfold message
    show some ["Process Event:".toList ++ ' ' :: _ ++ ',' :: ' ' :: formatInt e.tid] = some [("Process Event:".toList ++ [' ']) ++ _ ++ [',', ' '] ++ formatInt e.tid]
    simp only [List.append_assoc, List.cons_append, List.nil_append]
  | netFlow e => rfl
  | fileFlow e => rfl
  | fileEvt e => rfl
  | k8s e => rfl
  | _ => cases hev

theorem example_chan (F : FLib) (xs : List (List Rec × Rec)) (frs : List FlatRec) (h1 : ∀ fr ∈ frs, ∃ s, fr.sections = [(.sysflow, s)])
    (h : List.Forall₂ (StoresEvent F) xs frs) : exampleChan frs = some (xs.filterMap exampleLine) := by
  induction h with
  | nil => rfl
  | cons hx _ ih =>
    obtain ⟨s, hs⟩ := h1 _ List.mem_cons_self
    unfold exampleChan
    rw [example_step F _ _ s hs hx, ih (fun fr hf => h1 fr (List.mem_cons_of_mem _ hf))]
    rename_i x _ xs _ _
    rw [List.filterMap_cons]
    cases exampleLine x <;> rfl

/-- **C116** The example processor behind the flattener (without duplicate suppression) logs one message per process event of the stream, in order, with the
executable of the process as known from the stream at that point (nothing, if it is not known) and the thread id, and nothing else; it never stops early. -/
theorem example_logs (F : FLib) (fuel : Nat) (rs : List Rec) (hs : ¬ Stuck rs) (hf : rs.length ≤ fuel) (ttl : Int) (n : Nat) :
    ∃ s cs, run false fuel .init rs = some (s, cs) ∧ ∀ (xs : List Timed), xs.map (·.call) = cs →
      ∀ ch ∈ (handles F (init false ttl n) xs).outs, exampleProcess [ch] = some ((eventsAfter [] rs).filterMap exampleLine) := by
  obtain ⟨⟨s, cs⟩, hr⟩ := reader_returns rs hs fuel hf
  refine ⟨s, cs, hr, fun xs hx ch hch => ?_⟩
  have h0 : (handles F (init false ttl n) xs).outs = List.replicate n (cs.filterMap (recOf F)) := by
    rw [all_delivered_without_filter, ← hx, List.filterMap_map]
    rfl
  rw [h0] at hch
  rw [(List.mem_replicate.1 hch).2]
  have h1 : ∀ fr ∈ cs.filterMap (recOf F), ∃ s, fr.sections = [(.sysflow, s)] := by
    intro fr hf
    obtain ⟨call, _, hc⟩ := List.mem_filterMap.1 hf
    exact one_section F call fr hc
  have h2 := example_chan F _ _ h1 (calls_store F fuel rs [] .init s [] cs rfl hr)
  unfold exampleProcess
  rw [h2]
  show some (_ ++ []) = _
  rw [List.append_nil]

/-! ### Proofs: the action -/

/-- What a record shows of the clock: the tags that `n` readings of the clock from the `k`-th on leave behind. -/
def stamps (clock : Nat → Int) (k n : Nat) : List Str := (List.range n).map (fun i => "now_in_nanos:".toList ++ formatInt (clock (k + i)))

/-- How often "now" is named in the actions of the given rules. -/
def named (rules : List (Rule Record)) : Nat := ((rules.flatMap (·.actions)).filter (· == "now".toList)).length

/-- The directory of action plugins holds the action "now", and no other plugin in it is of that name or changes a record's telemetry, rules, tags or the clock. -/
structure NowOnly (clock : Nat → Int) (files : List (Engine.ActionFile Clocked)) : Prop where
  now : nowPlugin clock ∈ files
  only : ∀ f, .action "now".toList f ∈ files → f = addMyTag clock
  others : ∀ name f, .action name f ∈ files → name ≠ "now".toList →
    ∀ r, (f r).1.1.fr = r.1.fr ∧ (f r).1.1.ctx.getRules = r.1.ctx.getRules ∧ (f r).1.1.ctx.getTags = r.1.ctx.getTags ∧ (f r).1.2 = r.2

theorem loaded_some {files : List (Engine.ActionFile Clocked)} : ∀ {m : ActionMap Clocked} {a : Str} {f : ActionFunc Clocked},
    files.foldl Engine.loadAction m a = some f → m a = some f ∨ .action a f ∈ files := by
  induction files with
  | nil => intro m a f h; exact .inl h
  | cons x files ih =>
    intro m a f h
    rcases ih (m := Engine.loadAction m x) h with h | h
    · cases x with
      | action name g =>
        have h : (if a = name then some g else m a) = some f := h
        split at h
        · rename_i e; cases h; exact .inr (by rw [e]; exact List.mem_cons_self)
        · exact .inl h
      | _ => exact .inl h
    · exact .inr (List.mem_cons_of_mem _ h)

theorem loaded_isSome {files : List (Engine.ActionFile Clocked)} (a : Str) (f : ActionFunc Clocked) : ∀ {m : ActionMap Clocked},
    (m a).isSome ∨ .action a f ∈ files → (files.foldl Engine.loadAction m a).isSome := by
  induction files with
  | nil =>
    intro m h
    rcases h with h | h
    · exact h
    · cases h
  | cons x files ih =>
    intro m h
    refine ih (m := Engine.loadAction m x) ?_
    rcases h with h | h
    · cases x with
      | action name g =>
        left
        show (if a = name then some g else m a).isSome
        split
        · rfl
        · exact h
      | _ => exact .inl h
    · rcases List.mem_cons.1 h with h | h
      · left
        rw [← h]
        show (if a = a then some f else m a).isSome
        rw [if_pos rfl]
        rfl
      · exact .inr h

theorem now_loaded {clock : Nat → Int} {files : List (Engine.ActionFile Clocked)} (h : NowOnly clock files) :
    Engine.loadUserActions files "now".toList = some (addMyTag clock) := by
  have h1 := loaded_isSome (files := files) (m := fun _ => none) "now".toList (addMyTag clock) (.inr h.now)
  obtain ⟨f, hf⟩ := Option.isSome_iff_exists.1 h1
  rcases loaded_some hf with h2 | h2
  · cases h2
  · rw [h.only f h2] at hf; exact hf

/-- The effect of one action on a record: nothing, unless it is "now". -/
theorem action_effect {clock : Nat → Int} {files : List (Engine.ActionFile Clocked)} (h : NowOnly clock files) (a : Str) (f : ActionFunc Clocked)
    (hf : Engine.loadUserActions files a = some f) (r : Clocked) :
    (f r).1.1.fr = r.1.fr ∧ (f r).1.1.ctx.getRules = r.1.ctx.getRules
    ∧ (f r).1.1.ctx.getTags = r.1.ctx.getTags ++ stamps clock r.2 (if a = "now".toList then 1 else 0) ∧ (f r).1.2 = r.2 + (if a = "now".toList then 1 else 0) := by
  by_cases ha : a = "now".toList
  · subst ha
    rw [now_loaded h] at hf
    cases hf
    rw [if_pos rfl]
    refine ⟨rfl, rfl, ?_, rfl⟩
    rfl
  · rw [if_neg ha]
    rcases loaded_some (m := fun _ => none) hf with h1 | h1
    · cases h1
    · obtain ⟨e1, e2, e3, e4⟩ := h.others a f h1 ha r
      refine ⟨e1, e2, ?_, by rw [e4]; rfl⟩
      rw [e3]
      show _ = _ ++ []
      rw [List.append_nil]

theorem clock_stable (L : Lib) (e : Bool) (rules : List (Rule Record)) (fs : List (Policy.Filter Record)) {clock : Nat → Int}
    {files : List (Engine.ActionFile Clocked)} (o : Bool) (hb : ∀ rule ∈ rules, Built (flatOps L getMappers) rule.condition) (hn : NowOnly clock files) :
    Engine.Stable (clockInterp L e rules fs files o) (fun r => r.1.fr) := by
  refine ⟨?_, ?_, fun _ _ _ => rfl, ?_⟩
  · intro rule hr r r' h
    obtain ⟨x, hx, rfl⟩ := List.mem_map.1 hr
    exact built_reads_telemetry L _ _ (hb x hx) r.1 r'.1 h
  · intro rule _ r r' h
    show isApplicable L getMappers r.1 _ = isApplicable L getMappers r'.1 _
    have h' : r.1.fr = r'.1.fr := h
    unfold isApplicable
    rw [h']
  · intro r a f h
    have h : Engine.loadUserActions files a = some f := h
    exact (action_effect hn a f h r).1

theorem stamps_add (clock : Nat → Int) (k m n : Nat) : stamps clock k (m + n) = stamps clock k m ++ stamps clock (k + m) n := by
  unfold stamps
  rw [List.range_add, List.map_append, List.map_map]
  refine congrArg _ (List.map_congr_left (fun i _ => ?_))
  show _ = "now_in_nanos:".toList ++ formatInt (clock (k + m + i))
  rw [Nat.add_assoc]
  rfl

/-- The record after a list of effects. -/
theorem effects (L : Lib) (e : Bool) (rules : List (Rule Record)) (fs : List (Policy.Filter Record)) {clock : Nat → Int}
    {files : List (Engine.ActionFile Clocked)} (o : Bool) (hn : NowOnly clock files) (es : List (Engine.Event Clocked)) : ∀ r : Clocked,
    let r' := es.foldl (Engine.applyEvent (clockInterp L e rules fs files o)) r
    let n := ((Engine.actions es).filter (· == "now".toList)).length
    r'.1.fr = r.1.fr ∧ r'.1.ctx.getRules = r.1.ctx.getRules ++ (Engine.annotated es).map (·.toRuleInfo)
    ∧ r'.1.ctx.getTags = r.1.ctx.getTags ++ stamps clock r.2 n ∧ r'.2 = r.2 + n := by
  induction es with
  | nil =>
    intro r
    refine ⟨rfl, ?_, ?_, rfl⟩
    · show _ = _ ++ []
      rw [List.append_nil]
      rfl
    · show _ = _ ++ []
      rw [List.append_nil]
      rfl
  | cons x es ih =>
    intro r
    cases x with
    | annotate rule =>
      obtain ⟨h1, h2, h3, h4⟩ := ih (Engine.applyEvent (clockInterp L e rules fs files o) r (.annotate rule))
      refine ⟨h1, ?_, h3, h4⟩
      refine h2.trans ?_
      show (Ctx.addRules r.1.ctx [rule.toRuleInfo]).getRules ++ _ = _ ++ (rule.toRuleInfo :: _)
      have : (Ctx.addRules r.1.ctx [rule.toRuleInfo]).getRules = r.1.ctx.getRules ++ [rule.toRuleInfo] := rfl
      rw [this, List.append_assoc, List.singleton_append]
    | out y => exact ih r
    | act a b =>
      obtain ⟨h1, h2, h3, h4⟩ := ih (Engine.applyEvent (clockInterp L e rules fs files o) r (.act a b))
      cases hf : Engine.loadUserActions files a with
      | none =>
        have hr : Engine.applyEvent (clockInterp L e rules fs files o) r (.act a b) = r := by
          have : Engine.registered (clockInterp L e rules fs files o) a = none := hf
          unfold Engine.applyEvent
          dsimp only
          rw [this]
        have ha : (a == "now".toList) = false := by
          cases hc : a == "now".toList with
          | false => rfl
          | true =>
            rw [eq_of_beq hc, now_loaded hn] at hf
            cases hf
        rw [hr] at h1 h2 h3 h4
        have hl : ((Engine.actions (.act a b :: es)).filter (· == "now".toList)) = ((Engine.actions es).filter (· == "now".toList)) := by
          show (a :: Engine.actions es).filter _ = _
          rw [List.filter_cons, ha]
          rfl
        rw [List.foldl_cons, hr]
        dsimp only
        rw [hl]
        exact ⟨h1, h2, h3, h4⟩
      | some f =>
        have hr : Engine.applyEvent (clockInterp L e rules fs files o) r (.act a b) = (f r).1 := by
          have : Engine.registered (clockInterp L e rules fs files o) a = some f := hf
          unfold Engine.applyEvent
          dsimp only
          rw [this]
        obtain ⟨k1, k2, k3, k4⟩ := action_effect hn a f hf r
        rw [hr] at h1 h2 h3 h4
        have hl : ((Engine.actions (.act a b :: es)).filter (· == "now".toList)).length
            = (if a = "now".toList then 1 else 0) + ((Engine.actions es).filter (· == "now".toList)).length := by
          show ((a :: Engine.actions es).filter _).length = _
          rw [List.filter_cons]
          by_cases ha : a = "now".toList
          · rw [if_pos ha, if_pos (by rw [ha]; exact beq_self_eq_true _), List.length_cons, Nat.add_comm]
          · rw [if_neg ha, if_neg (by simpa using ha), Nat.zero_add]
        rw [List.foldl_cons, hr]
        dsimp only
        rw [hl]
        refine ⟨h1.trans k1, ?_, ?_, ?_⟩
        · rw [h2, k2]; rfl
        · rw [h3, k3, k4, stamps_add, List.append_assoc]
        · rw [h4, k4, Nat.add_assoc]

open Classical in
/-- **C116** With the action "now" in the action directory, a record that no drop filter matches gets one more tag for every time "now" is named in the actions
of a rule that fires on it: "now_in_nanos:" and the clock as read at that moment, in decimal, in the order in which the actions run; its rules and telemetry are what they are
without the action. A dropped record is left alone. -/
theorem now_tags (L : Lib) (e : Bool) (rules : List (Rule Record)) (fs : List (Policy.Filter Record)) {clock : Nat → Int}
    {files : List (Engine.ActionFile Clocked)} (o : Bool) (hb : ∀ rule ∈ rules, Built (flatOps L getMappers) rule.condition) (hn : NowOnly clock files)
    (r : Record) (k : Nat) :
    let pi := flatInterp L e rules fs (fun _ => none) (fun _ => none) o
    let r' := ((clockInterp L e rules fs files o).work (r, k)).1
    let hits := if Engine.Dropped pi r then [] else rules.filter (fun x => decide (Engine.Fires pi r x))
    r'.1.fr = r.fr ∧ r'.1.ctx.getRules = r.ctx.getRules ++ hits.map (·.toRuleInfo)
    ∧ r'.1.ctx.getTags = r.ctx.getTags ++ stamps clock k (named hits) ∧ r'.2 = k + named hits := by
  intro pi r' hits
  have hst := clock_stable L e rules fs o hb hn
  obtain ⟨hd, hnd⟩ := Engine.work_spec (clockInterp L e rules fs files o) (fun r => r.1.fr) hst (r, k)
  have hdrop : Engine.Dropped (clockInterp L e rules fs files o) (r, k) ↔ Engine.Dropped pi r := by
    constructor
    · rintro ⟨f, hf, h1, h2⟩
      obtain ⟨g, hg, rfl⟩ := List.mem_map.1 hf
      exact ⟨g, hg, h1, h2⟩
    · rintro ⟨f, hf, h1, h2⟩
      exact ⟨liftFilter f, List.mem_map_of_mem hf, h1, h2⟩
  have hfire : ∀ x : Rule Record, Engine.Fires (clockInterp L e rules fs files o) (r, k) (liftRule x) ↔ Engine.Fires pi r x := by
    intro x
    exact Iff.rfl
  by_cases h : Engine.Dropped pi r
  · have hh : hits = [] := if_pos h
    have hr : r' = (r, k) := congrArg Prod.fst (hd (hdrop.2 h))
    rw [hh, hr]
    refine ⟨rfl, ?_, ?_, rfl⟩
    · show _ = _ ++ []
      rw [List.append_nil]
    · show _ = _ ++ []
      rw [List.append_nil]
  · have hh : hits = rules.filter (fun x => decide (Engine.Fires pi r x)) := if_neg h
    obtain ⟨es, h1, h2, _, h4⟩ := hnd (fun hc => h (hdrop.1 hc))
    have hr : r' = es.foldl (Engine.applyEvent (clockInterp L e rules fs files o)) (r, k) := congrArg Prod.fst h4
    have hfd : Engine.fired (clockInterp L e rules fs files o) (r, k) = hits.map liftRule := by
      rw [hh]
      show (rules.map liftRule).filter _ = _
      rw [List.filter_map]
      refine congrArg _ (List.filter_congr (fun x _ => ?_))
      exact decide_eq_decide.2 (hfire x)
    have hnm : ((Engine.actions es).filter (· == "now".toList)).length = named hits := by
      rw [h2, hfd]
      unfold named
      rw [List.filter_flatMap, List.filter_flatMap, List.flatMap_map]
      refine congrArg List.length (congrArg (fun g => List.flatMap g hits) (funext (fun x => ?_)))
      show (x.actions.filter _).filter _ = _
      rw [List.filter_filter]
      refine List.filter_congr (fun a _ => ?_)
      cases hc : a == "now".toList with
      | false => rfl
      | true =>
        rw [eq_of_beq hc]
        show (true && (Engine.loadUserActions files "now".toList).isSome) = true
        rw [now_loaded hn]
        rfl
    obtain ⟨k1, k2, k3, k4⟩ := effects L e rules fs o hn es (r, k)
    rw [hr]
    rw [hnm] at k3 k4
    refine ⟨k1, ?_, k3, k4⟩
    rw [k2, h1, hfd, List.map_map]
    rfl

/-! ### Concrete cases -/

/-- The printer and the example processor on the stream of `Verif.Processor.demoStream`, whose last event is of a process nobody announced. -/
example : readPrint 10 .init demoStream = some (["ProcEvt /bin/sh, 1".toList, "ProcEvt /bin/ls, 1".toList], true) := by decide

/-- The stream of `Verif.Processor.saneStream` meets the hypotheses of the theorems: up to its last event every event is announced; the last is not. -/
theorem sane_parts : (¬ Stuck saneStream ∧ ¬ Stuck (saneStream.take 6)) ∧ Announced (saneStream.take 6) ∧ Stranger (saneStream.take 6) (.procEvt (demoPE 5))
    ∧ saneStream = saneStream.take 6 ++ .procEvt (demoPE 5) :: [] := by
  have h1 := older_parents_not_stuck saneStream sane_older
  have h2 := older_parents_not_stuck (saneStream.take 6) (fun p hp => sane_older p (List.mem_of_mem_take hp))
  exact ⟨⟨h1, h2⟩, (printer_survives_iff 7 _ h2 (by decide)).1 ⟨["ProcEvt /bin/sh, 1".toList, "ProcEvt /bin/ls, 1".toList], by decide⟩, ⟨⟨1, 5⟩, rfl, by decide⟩, rfl⟩

example : readPrint 7 .init saneStream = some (["ProcEvt /bin/sh, 1".toList, "ProcEvt /bin/ls, 1".toList], true) := by
  have h := printer_crashes_on_stranger 7 (saneStream.take 6) [] (.procEvt (demoPE 5)) sane_parts.1.2 (by decide) sane_parts.2.1 sane_parts.2.2.1
  exact h.trans (by decide)

/-- The example processor on the same stream: the last event is logged without a name. -/
example : (eventsAfter [] saneStream).filterMap exampleLine
    = ["Process Event: /bin/sh, 1".toList, "Process Event: /bin/ls, 1".toList, "Process Event: , 1".toList] := by decide

/-- A rule on every record with three actions, two of them "now": two tags. -/
example (L : Lib) (clock : Nat → Int) (fr : FlatRec) :
    let x : Rule Record := { name := "r".toList, actions := ["now".toList, "alert".toList, "now".toList], condition := Criterion.tt }
    ((clockInterp L false [x] [] [nowPlugin clock] true).work (newRecord fr, 5)).1.1.ctx.getTags
      = ["now_in_nanos:".toList ++ formatInt (clock 5), "now_in_nanos:".toList ++ formatInt (clock 6)] := rfl

/-- A directory with the action, an unreadable file and a plugin that does nothing. -/
example (clock : Nat → Int) : NowOnly clock [.openError, .action "idle".toList (fun r => (r, true)), nowPlugin clock] := by
  refine ⟨by simp, ?_, ?_⟩
  all_goals unfold nowPlugin nowName
  · intro f h
    simp only [List.mem_cons, List.not_mem_nil, or_false, reduceCtorEq, false_or, Engine.ActionFile.action.injEq] at h
    rcases h with ⟨h, _⟩ | ⟨_, h⟩
    · exact absurd h (by decide)
    · exact h
  · intro name f h hne r
    simp only [List.mem_cons, List.not_mem_nil, or_false, reduceCtorEq, false_or, Engine.ActionFile.action.injEq] at h
    rcases h with ⟨_, rfl⟩ | ⟨h, _⟩
    · exact ⟨rfl, rfl, rfl, rfl⟩
    · exact absurd h hne

end Verif.Plugins
