import Verif.Base.AMap
import Verif.SysFlow.Entities
/-
The entity tables of the reader.
Source: /repo/core/cache/tables.go
-/
namespace Verif.Cache
open Verif.Decimal (Str)
open Verif.SysFlow

/-- The slice `[]*sfgo.Process` of length `SFObjectStateREUP+1` stored per process id, indexed by state
(tables.go:101-111). -/
structure Slots where
  created : Option Proc
  modified : Option Proc
  reup : Option Proc
deriving DecidableEq, Repr

/-- `make([]*sfgo.Process, sfgo.SFObjectStateREUP+1)` (tables.go:107). -/
def Slots.empty : Slots := ⟨none, none, none⟩

/-- `p[o.State] = o` (tables.go:105, 108). -/
def Slots.put (s : Slots) (o : Proc) : Slots :=
  match o.state with
  | .created => { s with created := some o }
  | .modified => { s with modified := some o }
  | .reup => { s with reup := some o }

/-- `SFTables` (tables.go:29-38). Entities are immutable values here: the code never writes through the stored
pointers after storing them (reader.go:122-125 trims before storing). -/
structure Tables where
  cont : AMap Str Container
  pod : AMap Str Pod
  proc : AMap OID Slots
  file : AMap FOID File
  ptree : AMap OID (List Proc)

/-- `NewSFTables`, `new` and `Reset` (tables.go:41-61): five new empty maps. -/
def Tables.new : Tables := ⟨[], [], [], [], []⟩

/-- `GetCont` (tables.go:64-67). -/
def Tables.getCont (t : Tables) (id : Str) : Option Container := t.cont.get id
/-- `SetCont` (tables.go:70-72). -/
def Tables.setCont (t : Tables) (id : Str) (o : Container) : Tables := { t with cont := t.cont.set id o }
/-- `GetPod` (tables.go:75-78). -/
def Tables.getPod (t : Tables) (id : Str) : Option Pod := t.pod.get id
/-- `SetPod` (tables.go:81-83). -/
def Tables.setPod (t : Tables) (id : Str) (o : Pod) : Tables := { t with pod := t.pod.set id o }
/-- `GetFile` (tables.go:114-120). -/
def Tables.getFile (t : Tables) (id : FOID) : Option File := t.file.get id
/-- `SetFile` (tables.go:123-126). -/
def Tables.setFile (t : Tables) (id : FOID) (o : File) : Tables := { t with file := t.file.set id o }

/-- `GetProc` (tables.go:86-98). -/
def Tables.getProc (t : Tables) (id : OID) : Option Proc :=
  match t.proc.get id with
  | none => none
  | some p =>
    match p.modified with
    | some v => some v
    | none => match p.created with
      | some v => some v
      | none => p.reup

/-- `SetProc` (tables.go:101-111). -/
def Tables.setProc (t : Tables) (id : OID) (o : Proc) : Tables :=
  match t.proc.get id with
  | some p => { t with proc := t.proc.set id (p.put o) }
  | none => { t with proc := t.proc.set id (Slots.empty.put o) }

/-- `getProcProv` (tables.go:141-150). The recursion is unbounded in the code; here it makes at most `fuel`
calls, `none` meaning that more are needed. -/
def Tables.getProcProv (t : Tables) : Nat → OID → Option (List Proc)
  | 0, _ => none
  | fuel + 1, id =>
    match t.getProc id with
    | none => some []
    | some p =>
      match p.poid with
      | none => some [p]
      | some q =>
        match t.getProcProv fuel q with
        | none => none
        | some l => some (p :: l)

/-- `GetPtree` (tables.go:129-138): memoised; `none`: does not return. -/
def Tables.getPtree (t : Tables) (fuel : Nat) (id : OID) : Option (List Proc × Tables) :=
  match t.ptree.get id with
  | some l => some (l, t)
  | none =>
    match t.getProcProv fuel id with
    | none => none
    | some l => some (l, { t with ptree := t.ptree.set id l })

end Verif.Cache
