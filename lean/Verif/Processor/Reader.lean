import Verif.Cache.Tables
import Verif.Base.Space
/-
The SysFlow reader and the SysFlow processor.
Sources: /repo/core/processor/reader.go, /repo/core/processor/processor.go
-/
namespace Verif.Processor
open Verif.Decimal (Str)
open Verif.SysFlow
open Verif.Cache

/-- A SysFlow record: the union `sf.Rec` switched on at reader.go:99-164. Pointers inside the record that the code
dereferences without a test (`proc.Oid`, `pe.ProcOID`, ...) are assumed non-nil. -/
inductive Rec where
  | header (h : Header)
  | cont (c : Container)
  | pod (p : Pod)
  | k8s (e : K8sEvt)
  | proc (p : Proc)
  | file (f : File)
  | procEvt (e : ProcEvt)
  | netFlow (e : NetFlow)
  | fileFlow (e : FileFlow)
  | fileEvt (e : FileEvt)
  | procFlow
  | netEvt
  | unsupported
deriving DecidableEq, Repr

/-- The context handed to a handler (`plugins.CtxSysFlow`, dependency sf-apis): pointers are options, `PTree` is a
slice that may be nil. `GraphletID` is never set by the reader. -/
structure Ctx where
  header : Option Header := none
  pod : Option Pod := none
  cont : Option Container := none
  proc : Option Proc := none
  ptree : Option (List Proc) := none
  file : Option File := none
  newFile : Option File := none
deriving DecidableEq, Repr

/-- A call of a handler method (`plugins.SFHandler`) by the reader or the processor. -/
inductive HCall where
  | header (c : Ctx) (h : Option Header)
  | cont (c : Ctx) (o : Option Container)
  | pod (c : Ctx) (o : Option Pod)
  | proc (c : Ctx) (o : Option Proc)
  | file (c : Ctx) (o : Option File)
  | k8s (c : Ctx) (e : K8sEvt)
  | procEvt (c : Ctx) (e : ProcEvt)
  | netFlow (c : Ctx) (e : NetFlow)
  | fileFlow (c : Ctx) (e : FileFlow)
  | fileEvt (c : Ctx) (e : FileEvt)
deriving DecidableEq, Repr

/-- Reader state (reader.go:39-44): the current header and the tables. -/
structure State where
  hdr : Option Header
  tables : Tables

/-- Initial state (reader.go:73-77). -/
def State.init : State := ⟨none, .new⟩

/-- `getContFromProc` (reader.go:174-182). -/
def getContFromProc (t : Tables) (p : Proc) : Option Container :=
  match p.containerId with
  | some id => t.getCont id
  | none => none

/-- `getPodFromCont` (reader.go:184-192). -/
def getPodFromCont (t : Tables) : Option Container → Option Pod
  | some c => match c.podId with
    | some id => t.getPod id
    | none => none
  | none => none

/-- `getContFromFile` (reader.go:220-228), used for entity-enabled handlers only. A nil `ContainerId` pointer, on which the
code would panic, is not distinguished from a null union. -/
def getContFromFile (t : Tables) (f : File) : Option Container :=
  match f.containerId with
  | some id => t.getCont id
  | none => none

/-- `getPodContAndProc` (reader.go:194-203), on a context; `none`: the provenance computation does not return. -/
def getPodContAndProc (fuel : Nat) (t : Tables) (oid : OID) (c : Ctx) : Option (Ctx × Tables) :=
  match t.getProc oid with
  | none => some (c, t)
  | some p =>
    match t.getPtree fuel oid with
    | none => none
    | some (l, t') =>
      let co := getContFromProc t' p
      some ({ c with pod := getPodFromCont t' co, cont := co, proc := some p, ptree := some l }, t')

/-- `getOptFile` (reader.go:213-218) with `getFile` (reader.go:205-211). -/
def getOptFile (t : Tables) : Option FOID → Option File
  | some id => t.getFile id
  | none => none

/-- Trimming of process records before they are stored (reader.go:123-124). -/
def trimProc (p : Proc) : Proc := { p with exe := Strings.trimSpace p.exe, exeArgs := Strings.trimSpace p.exeArgs }

/-- One iteration of the loop of `SysFlowReader.Process` (reader.go:90-164); `ent` is `IsEntityEnabled()` of the handler.
Result: new state and handler calls; `none`: does not return. -/
def step (ent : Bool) (fuel : Nat) (s : State) (r : Rec) : Option (State × List HCall) :=
  let sf : Ctx := { header := s.hdr }
  match r with
  | .header h =>
    some (⟨some h, .new⟩, if ent then [.header sf (some h)] else [])
  | .cont c =>
    some ({ s with tables := s.tables.setCont c.id c }, if ent then [.cont sf (some c)] else [])
  | .pod p =>
    some ({ s with tables := s.tables.setPod p.id p }, if ent then [.pod sf (some p)] else [])
  | .k8s e => some (s, [.k8s sf e])
  | .proc p0 =>
    let p := trimProc p0
    let t := s.tables.setProc p.oid p
    if ent then
      match t.getPtree fuel p.oid with
      | none => none
      | some (l, t') =>
        let co := getContFromProc t' p
        some ({ s with tables := t' },
          [.proc { sf with proc := some p, ptree := some l, cont := co, pod := getPodFromCont t' co } (some p)])
    else some ({ s with tables := t }, [])
  | .file f =>
    let t := s.tables.setFile f.oid f
    if ent then
      let co := getContFromFile t f
      some ({ s with tables := t }, [.file { sf with file := some f, cont := co, pod := getPodFromCont t co } (some f)])
    else some ({ s with tables := t }, [])
  | .procEvt e =>
    match getPodContAndProc fuel s.tables e.procOID sf with
    | none => none
    | some (c, t) => some ({ s with tables := t }, [.procEvt c e])
  | .netFlow e =>
    match getPodContAndProc fuel s.tables e.procOID sf with
    | none => none
    | some (c, t) => some ({ s with tables := t }, [.netFlow c e])
  | .fileFlow e =>
    match getPodContAndProc fuel s.tables e.procOID sf with
    | none => none
    | some (c, t) => some ({ s with tables := t }, [.fileFlow { c with file := t.getFile e.fileOID } e])
  | .fileEvt e =>
    match getPodContAndProc fuel s.tables e.procOID sf with
    | none => none
    | some (c, t) =>
      some ({ s with tables := t },
        [.fileEvt { c with file := t.getFile e.fileOID, newFile := getOptFile t e.newFileOID } e])
  | .procFlow => some (s, [])
  | .netEvt => some (s, [])
  | .unsupported => some (s, [])

/-- The loop (reader.go:90-165) over the records received until the channel is closed. -/
def run (ent : Bool) (fuel : Nat) : State → List Rec → Option (State × List HCall)
  | s, [] => some (s, [])
  | s, r :: rs =>
    match step ent fuel s r with
    | none => none
    | some (s', cs) =>
      match run ent fuel s' rs with
      | none => none
      | some (s'', cs') => some (s'', cs ++ cs')

/-- One iteration of `SysFlowProcessor.Process` (processor.go:100-149): the input records already carry their context,
including the entity pointers that are passed on. Simplified: the program passes the context's `K8sEvent` pointer
(processor.go:122), which the producer of the context sets from the record; the model takes the record's event. -/
def procStep (ent : Bool) (c : Ctx) (r : Rec) : List HCall :=
  match r with
  | .header _ => if ent then [.header c c.header] else []
  | .cont _ => if ent then [.cont c c.cont] else []
  | .pod _ => if ent then [.pod c c.pod] else []
  | .k8s e => if ent then [.k8s c e] else []
  | .proc _ => if ent then [.proc c c.proc] else []
  | .file _ => if ent then [.file c c.file] else []
  | .procEvt e => [.procEvt c e]
  | .netFlow e => [.netFlow c e]
  | .fileFlow e => [.fileFlow c e]
  | .fileEvt e => [.fileEvt c e]
  | .procFlow | .netEvt | .unsupported => []

end Verif.Processor
