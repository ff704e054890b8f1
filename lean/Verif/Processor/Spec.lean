import Verif.Processor.Reader
import Verif.Cache.Props
/-
What a stream of SysFlow records means: the entities known at each point of the stream. Independent of the reader's
state and tables.
-/
namespace Verif.Processor
open Verif.Decimal (Str)
open Verif.SysFlow
open Verif.Cache (Chain)

def Rec.isHeader : Rec → Bool
  | .header _ => true
  | _ => false

/-- The records since the last header, newest first. -/
def sinceHeader (rs : List Rec) : List Rec := rs.reverse.takeWhile (fun r => !r.isHeader)

/-- The most recent record since the last header selected by `w`. -/
def newest {α : Type _} (w : Rec → Option α) (rs : List Rec) : Option α := (sinceHeader rs).findSome? w

def contDef (id : Str) : Rec → Option Container
  | .cont c => if c.id = id then some c else none
  | _ => none
def podDef (id : Str) : Rec → Option Pod
  | .pod p => if p.id = id then some p else none
  | _ => none
def fileDef (id : FOID) : Rec → Option File
  | .file f => if f.oid = id then some f else none
  | _ => none
def procDef (st : ObjState) (id : OID) : Rec → Option Proc
  | .proc p => if p.oid = id ∧ p.state = st then some { p with exe := Strings.trimSpace p.exe, exeArgs := Strings.trimSpace p.exeArgs } else none
  | _ => none

/-- The last header of the stream. -/
def headerOf (rs : List Rec) : Option Header := rs.reverse.findSome? (fun | .header h => some h | _ => none)

/-- The process known under an id: latest MODIFIED, else latest CREATED, else latest REUP definition since the last
header, with white space around executable and arguments removed. -/
def knownProc (rs : List Rec) (id : OID) : Option Proc :=
  (newest (procDef .modified id) rs).or ((newest (procDef .created id) rs).or (newest (procDef .reup id) rs))

/-- The container of a process, and the pod of a container. -/
def knownCont (rs : List Rec) (p : Proc) : Option Container := p.containerId.bind (fun id => newest (contDef id) rs)
def knownPod (rs : List Rec) (c : Container) : Option Pod := c.podId.bind (fun id => newest (podDef id) rs)

/-- The process an event belongs to. -/
def procOf : Rec → Option OID
  | .procEvt e => some e.procOID
  | .netFlow e => some e.procOID
  | .fileFlow e => some e.procOID
  | .fileEvt e => some e.procOID
  | _ => none

/-- `ev` is the first event since the last header of a process known at that point: the records before it are `pre`. -/
def FirstUse (rs : List Rec) (id : OID) (pre : List Rec) : Prop :=
  ∃ ev post, rs = pre ++ ev :: post ∧ (∀ r ∈ ev :: post, r.isHeader = false) ∧ procOf ev = some id
    ∧ (knownProc pre id).isSome
    ∧ ∀ pre' ev' post', pre = pre' ++ ev' :: post' → (∀ r ∈ ev' :: post', r.isHeader = false) → procOf ev' = some id →
        knownProc pre' id = none

/-- The context of an event that comes after `pre`. -/
structure EventCtx (pre : List Rec) (ev : Rec) (id : OID) (c : Ctx) : Prop where
  header : c.header = headerOf pre
  proc : c.proc = knownProc pre id
  cont : c.cont = (knownProc pre id).bind (knownCont pre)
  pod : c.pod = ((knownProc pre id).bind (knownCont pre)).bind (knownPod pre)
  /-- no process tree for an unknown process; otherwise the ancestor chain as known at the first event of the process
  since the last header -/
  noTree : knownProc pre id = none → c.ptree = none
  tree : (knownProc pre id).isSome → ∃ l pre', c.ptree = some l ∧ FirstUse (pre ++ [ev]) id pre' ∧ Chain (knownProc pre') id l

/-- The events of the stream that handlers are told about. -/
def isEvent : Rec → Bool
  | .k8s _ | .procEvt _ | .netFlow _ | .fileFlow _ | .fileEvt _ => true
  | _ => false

/-- The record a handler call is about (for event calls). -/
def eventOf : HCall → Option Rec
  | .k8s _ e => some (.k8s e)
  | .procEvt _ e => some (.procEvt e)
  | .netFlow _ e => some (.netFlow e)
  | .fileFlow _ e => some (.fileFlow e)
  | .fileEvt _ e => some (.fileEvt e)
  | _ => none

end Verif.Processor
