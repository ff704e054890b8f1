import Verif.SysFlow.Entities
import Verif.Policy.Ops
/-
The flat record: attribute indices, sections, the record type of the policy engine and its getters,
and the table of named fields.
Sources: /repo/core/policyengine/source/flatrecord/record.go, .../fieldmapper.go, .../constants.go
-/
namespace Verif.FlatRecord
open Verif.Decimal (Str)
open Verif.SysFlow

/-- Indices into the integer array of a flat record (`sfgo.Attribute` constants, dependency sf-apis).
Only those used by /repo are listed. Assumption (dependency not available): the constants are
pairwise distinct, except that the time stamp, thread id, operation flags and return code of all event
kinds share one slot each (`TS_INT`, `TID_INT`, `OPFLAGS_INT`, `RET_INT`), which is what
fieldmapper.go:271-276, 546-597 and flattener/filter.go:105 rely on when reading them. -/
inductive IAttr where
  | SF_REC_TYPE | OPFLAGS_INT | TS_INT | FL_FILE_ENDTS_INT | PROC_OID_HPID_INT | PROC_OID_CREATETS_INT
  | PROC_UID_INT | TID_INT | PROC_GID_INT | PROC_TTY_INT | PROC_ENTRY_INT | PROC_POID_HPID_INT
  | PROC_POID_CREATETS_INT | FILE_RESTYPE_INT | FL_FILE_OPENFLAGS_INT | FL_FILE_FD_INT | FL_NETW_PROTO_INT
  | FL_NETW_SPORT_INT | FL_NETW_DPORT_INT | FL_NETW_SIP_INT | FL_NETW_DIP_INT | FL_FILE_NUMRRECVBYTES_INT
  | FL_NETW_NUMRRECVBYTES_INT | FL_FILE_NUMRRECVOPS_INT | FL_NETW_NUMRRECVOPS_INT | FL_FILE_NUMWSENDBYTES_INT
  | FL_NETW_NUMWSENDBYTES_INT | FL_FILE_NUMWSENDOPS_INT | FL_NETW_NUMWSENDOPS_INT | CONT_TYPE_INT
  | CONT_PRIVILEGED_INT | POD_TS_INT | POD_RESTARTCOUNT_INT | K8SE_ACTION_INT | K8SE_KIND_INT
  | SFHE_VERSION_INT | RET_INT | FL_NETW_ENDTS_INT | PROC_STATE_INT | PROC_TS_INT | FL_NETW_FD_INT
  | FILE_STATE_INT | FILE_TS_INT | SEC_FILE_STATE_INT | SEC_FILE_TS_INT | SEC_FILE_RESTYPE_INT
deriving DecidableEq, Repr

/-- Indices into the string array (same assumption). -/
inductive SAttr where
  | PROC_EXE_STR | PROC_EXEARGS_STR | PROC_USERNAME_STR | PROC_GROUPNAME_STR | FILE_PATH_STR | FILE_OID_STR
  | SEC_FILE_PATH_STR | SEC_FILE_OID_STR | CONT_ID_STR | CONT_NAME_STR | CONT_IMAGEID_STR | CONT_IMAGE_STR
  | POD_ID_STR | POD_NAME_STR | POD_NODENAME_STR | POD_NAMESPACE_STR | POD_HOSTIP_STR | POD_INTERNALIP_STR
  | POD_SERVICES_STR | K8SE_MESSAGE_STR | SFHE_EXPORTER_STR | SFHE_IP_STR | SFHE_FILENAME_STR
  | PROC_CONTAINERID_STRING_STR | FILE_CONTAINERID_STRING_STR | SEC_FILE_CONTAINERID_STRING_STR
deriving DecidableEq, Repr

/-- Indices into the `Anys` array. -/
inductive AAttr where
  | POD_HOSTIP_ANY | POD_INTERNALIP_ANY | POD_SERVICES_ANY
deriving DecidableEq, Repr


/-- `sfgo.Source`: the origin of a section of a flat record. Only `SYSFLOW_SRC` is ever written or
read by the modelled code; the others belong to the extended mappers (fieldmapper.go:372-445). -/
inductive Source where
  | sysflow | process | targProc | file | network | other
deriving DecidableEq, Repr

/-- A value in the `Anys` array: `*[]int64`, `*[]*sfgo.Service`, nil or something else. -/
inductive AnyVal where
  | nil
  | ints (l : List Int)
  | svcs (l : List Service)
  | otherVal
deriving DecidableEq, Repr

/-- One section of `sfgo.FlatRecord`: the arrays `Ints[idx]`, `Strs[idx]`, `Anys[idx]`. Array
indexing out of bounds is not modelled (all sections have full size, flattener.go newFlatRecord). -/
structure Sect where
  ints : IAttr → Int
  strs : SAttr → Str
  anys : AAttr → AnyVal

/-- `sfgo.FlatRecord`: `Sources`/`Ints`/`Strs`/`Anys` are parallel slices, here one list;
`Ptree` is nil or the chain of processes. -/
structure FlatRec where
  sections : List (Source × Sect)
  ptree : Option (List Proc)
  graphletID : Nat := 0

/-- `HashSet` (record.go:279-283). -/
structure HashSet where
  md5 : Str := []
  sha1 : Str := []
  sha256 : Str := []
deriving DecidableEq, Repr

/-- `HashType` (record.go:272-277). -/
inductive HashType where
  | proc | file
deriving DecidableEq, Repr

/-! ### Getters -/

/-- The loop shared by the four getters (record.go:70-113): the first section whose source is `src`. -/
def findSect (src : Source) : List (Source × Sect) → Option Sect
  | [] => none
  | (s, sect) :: rest => if s = src then some sect else findSect src rest

/-- `GetInt` (record.go:70-77). -/
def FlatRec.getInt (fr : FlatRec) (a : IAttr) (src : Source) : Int :=
  match findSect src fr.sections with
  | some s => s.ints a
  | none => 0

/-- `GetStr` (record.go:106-113). -/
def FlatRec.getStr (fr : FlatRec) (a : SAttr) (src : Source) : Str :=
  match findSect src fr.sections with
  | some s => s.strs a
  | none => []

/-- `GetIntArray` (record.go:80-90); `none` is a nil pointer. -/
def FlatRec.getIntArray (fr : FlatRec) (a : AAttr) (src : Source) : Option (List Int) :=
  match findSect src fr.sections with
  | some s => match s.anys a with
    | .ints l => some l
    | _ => none
  | none => none

/-- `GetSvcArray` (record.go:93-103); `none` is a nil pointer. -/
def FlatRec.getSvcArray (fr : FlatRec) (a : AAttr) (src : Source) : Option (List Service) :=
  match findSect src fr.sections with
  | some s => match s.anys a with
    | .svcs l => some l
    | _ => none
  | none => none

/-! ### Values and cached (process tree) attributes -/

/-- The dynamic types a field mapper can return (`interface{}` results in fieldmapper.go:510-736). -/
inductive FVal where
  | str (s : Str)
  | i64 (n : Int)
  | i32 (n : Int)
  | bool (b : Bool)
  | intArr (l : Option (List Int))
  | svcArr (l : Option (List Service))
deriving DecidableEq, Repr

/-- `RecAttribute` (record.go:51-67). -/
inductive RecAttr where
  | PProcName | PProcExe | PProcArgs | PProcUID | PProcUser | PProcGID | PProcGroup | PProcTTY | PProcEntry
  | PProcCmdLine | ProcAExe | ProcAName | ProcACmdLine | ProcAPID
deriving DecidableEq, Repr

/-- Command line of one process as built at record.go:154-157 and 173-177. -/
def cmdLine (p : Proc) : Str := if p.exeArgs.length > 0 then p.exe ++ ' ' :: p.exeArgs else p.exe

/-- The fall-through result of `GetCachedValue` (record.go:192-196). -/
def cachedDefault : RecAttr → FVal
  | .PProcUID | .PProcGID | .PProcTTY | .PProcEntry => .i64 0
  | _ => .str []

/-- `if len(ptree) > 1 { return f(ptree[1]) }`, else fall through (record.go:119-158). -/
def ofParent (a : RecAttr) (f : Proc → FVal) : List Proc → FVal
  | _ :: p :: _ => f p
  | _ => cachedDefault a

/-- `GetCachedValue` (record.go:116-197). The `ID` parameter is unused by the code. -/
def FlatRec.getCachedValue (fr : FlatRec) (a : RecAttr) : FVal :=
  match fr.ptree with
  | none => cachedDefault a
  | some pt =>
    match a with
    | .PProcName => ofParent a (fun p => .str (Strings.base p.exe)) pt
    | .PProcExe => ofParent a (fun p => .str p.exe) pt
    | .PProcArgs => ofParent a (fun p => .str p.exeArgs) pt
    | .PProcUID => ofParent a (fun p => .i32 p.uid) pt
    | .PProcUser => ofParent a (fun p => .str p.userName) pt
    | .PProcGID => ofParent a (fun p => .i32 p.gid) pt
    | .PProcGroup => ofParent a (fun p => .str p.groupName) pt
    | .PProcTTY => ofParent a (fun p => .bool p.tty) pt
    | .PProcEntry => ofParent a (fun p => .bool p.entry) pt
    | .PProcCmdLine => ofParent a (fun p => .str (cmdLine p)) pt
    | .ProcAName => .str (Strings.join ',' (pt.map (fun p => Strings.base p.exe)))
    | .ProcAExe => .str (Strings.join ',' (pt.map (fun p => p.exe)))
    | .ProcACmdLine => .str (Strings.join ',' (pt.map cmdLine))
    | .ProcAPID => .str (Strings.join ',' (pt.map (fun p => Decimal.formatInt p.oid.hpid)))

/-! ### Field mappers -/

/-- Functions of dependencies and of the Go library that the field mappers and operators call, left
abstract: every theorem holds whatever they return. `recType`/`opFlags`/`fileType`/`isOpenWrite`/
`isOpenRead`/`openFlags`/`ipStr`/`contType`/`k8sAction`/`k8sComponent` are in sfgo; `symPath` is the
pair of results of `parseSymPath` (utils.go:29-42, `fmt.Sscanf`) on the stored path; `dir` is
`filepath.Dir`; `oidHash` is the hex xxhash of the decimal renderings (fieldmapper.go:714-722);
`gjson` is `gjson.Get(v, path).String()`. -/
structure Lib extends Policy.CaseLib where
  recType : Int → Str
  opFlags : Int → Int → List Str
  fileType : Int → Str
  isOpenWrite : Int → Bool
  isOpenRead : Int → Bool
  openFlags : Int → List Str
  ipStr : Int → Str
  contType : Int → Str
  k8sAction : Int → Str
  k8sComponent : Int → Str
  symPath : Str → Str × Str
  dir : Str → Str
  oidHash : List Str → Str
  gjson : Str → Str → Str
  /-- `regexp.Compile(re)` succeeds, and then `FindString` -/
  regexp : Str → Option (Str → Str)

/-- Record type numbers (`sfgo` constants `PROC_EVT`, ...; assumption: these values, which only
matter up to being distinct). -/
def PROC_EVT : Int := 4
def NET_FLOW : Int := 5
def FILE_FLOW : Int := 6
def FILE_EVT : Int := 7
def K8S_EVT : Int := 11

/-- Two's complement wrap-around of Go's `int64` addition and of `int32(x)`. -/
def wrap64 (x : Int) : Int := x.bmod (2 ^ 64)
def wrap32 (x : Int) : Int := x.bmod (2 ^ 32)

/-- The mapper constructors `map*` (fieldmapper.go:510-736), as data. -/
inductive Mapper where
  | str (a : SAttr)
  | int (a : IAttr)
  | intArray (a : AAttr)
  | svcArray (a : AAttr)
  | sum (as : List IAttr)
  | join (a : SAttr) (as : List SAttr)
  | recType
  | opFlags
  | ret
  | endTs
  | name (a : SAttr)
  | dir (a : SAttr)
  | path (a : SAttr)
  | symlink (a : SAttr)
  | fileType (a : IAttr)
  | isOpenWrite (a : IAttr)
  | isOpenRead (a : IAttr)
  | openFlags (a : IAttr)
  | port (as : List IAttr)
  | ip (as : List IAttr)
  | contType (a : IAttr)
  | action (a : IAttr)
  | kind (a : IAttr)
  | cached (a : RecAttr)
  | oid (as : List IAttr)
  | consts (cs : List Str)
deriving DecidableEq, Repr

/-- Running a field mapper on a record (fieldmapper.go:510-736); all sources are `SYSFLOW_SRC`. -/
def Mapper.run (L : Lib) (m : Mapper) (fr : FlatRec) : FVal :=
  match m with
  | .str a => .str (fr.getStr a .sysflow)
  | .int a => .i64 (fr.getInt a .sysflow)
  | .intArray a => .intArr (fr.getIntArray a .sysflow)
  | .svcArray a => .svcArr (fr.getSvcArray a .sysflow)
  | .sum as => .i64 (as.foldl (fun s a => wrap64 (s + fr.getInt a .sysflow)) 0)
  | .join a as => .str (as.foldl (fun s b => s ++ ' ' :: fr.getStr b .sysflow) (fr.getStr a .sysflow))
  | .recType => .str (L.recType (fr.getInt .SF_REC_TYPE .sysflow))
  | .opFlags => .str (Strings.join ',' (L.opFlags (wrap32 (fr.getInt .OPFLAGS_INT .sysflow)) (fr.getInt .SF_REC_TYPE .sysflow)))
  | .ret =>
    let t := fr.getInt .SF_REC_TYPE .sysflow
    if t = PROC_EVT ∨ t = FILE_EVT then .i64 (fr.getInt .RET_INT .sysflow) else .i64 0
  | .endTs =>
    let t := fr.getInt .SF_REC_TYPE .sysflow
    if t = FILE_FLOW then .i64 (fr.getInt .FL_FILE_ENDTS_INT .sysflow)
    else if t = NET_FLOW then .i64 (fr.getInt .FL_NETW_ENDTS_INT .sysflow)
    else if t = K8S_EVT then .i64 (fr.getInt .TS_INT .sysflow)
    else .i64 0
  | .name a => .str (Strings.base (fr.getStr a .sysflow))
  | .dir a => .str (L.dir (L.symPath (fr.getStr a .sysflow)).1)
  | .path a => .str (L.symPath (fr.getStr a .sysflow)).1
  | .symlink a => .str (L.symPath (fr.getStr a .sysflow)).2
  | .fileType a => .str (L.fileType (fr.getInt a .sysflow))
  | .isOpenWrite a => .bool (L.isOpenWrite (fr.getInt a .sysflow))
  | .isOpenRead a => .bool (L.isOpenRead (fr.getInt a .sysflow))
  | .openFlags a => .str (Strings.join ',' (L.openFlags (fr.getInt a .sysflow)))
  | .port as => .str (Strings.join ',' (as.map (fun a => Decimal.formatInt (fr.getInt a .sysflow))))
  | .ip as => .str (Strings.join ',' (as.map (fun a => L.ipStr (wrap32 (fr.getInt a .sysflow)))))
  | .contType a => .str (L.contType (fr.getInt a .sysflow))
  | .action a => .str (L.k8sAction (fr.getInt a .sysflow))
  | .kind a => .str (L.k8sComponent (fr.getInt a .sysflow))
  | .cached a => fr.getCachedValue a
  | .oid as => .str (L.oidHash (as.map (fun a => Decimal.formatInt (fr.getInt a .sysflow))))
  | .consts cs => .str (Strings.join ',' cs)

/-- `MappingType` (fieldmapper.go:38-53). -/
inductive MapType where
  | MapIntVal | MapStrVal | MapBoolVal | MapArrayStr | MapArrayInt | MapSpecialInt | MapSpecialStr | MapSpecialBool
  | MapArraySvc
deriving DecidableEq, Repr

/-- `SectionType` (fieldmapper.go:55-71). -/
inductive SectType where
  | SectNone | SectProc | SectPProc | SectFile | SectNet | SectFlow | SectCont | SectNode | SectMeta | SectPod | SectK8sEvt
deriving DecidableEq, Repr

/-- `FieldEntry.FlatIndex`: an integer/string/any slot, or the markers of fieldmapper.go:74-77. -/
inductive FlatIdx where
  | int (a : IAttr)
  | str (a : SAttr)
  | any (a : AAttr)
  | A_IDS
  | PARENT_IDS
deriving DecidableEq, Repr

/-- `FieldEntry` with its key (fieldmapper.go:80-87); `Source` is always `SYSFLOW_SRC`, `AuxAttr`
repeats the argument of `mapCachedValue`. -/
structure FieldEntry where
  name : Str
  map : Mapper
  flatIndex : FlatIdx
  mtype : MapType
  sect : SectType
deriving DecidableEq, Repr

/-- `getExportedMappers` (fieldmapper.go:269-370) with the field names of constants.go; generated
from the Go source by a script, entry by entry and in source order. -/
def exportedMappers : List FieldEntry :=
  [⟨"sf.type".toList, .recType, .int .SF_REC_TYPE, .MapSpecialStr, .SectNone⟩,
   ⟨"sf.opflags".toList, .opFlags, .int .OPFLAGS_INT, .MapArrayStr, .SectNone⟩,
   ⟨"sf.ret".toList, .ret, .int .SF_REC_TYPE, .MapSpecialInt, .SectNone⟩,
   ⟨"sf.ts".toList, .int .TS_INT, .int .TS_INT, .MapIntVal, .SectNone⟩,
   ⟨"sf.endts".toList, .endTs, .int .FL_FILE_ENDTS_INT, .MapSpecialInt, .SectNone⟩,
   ⟨"sf.proc.oid".toList, .oid [.PROC_OID_HPID_INT, .PROC_OID_CREATETS_INT], .int .PROC_OID_HPID_INT, .MapSpecialStr, .SectProc⟩,
   ⟨"sf.proc.pid".toList, .int .PROC_OID_HPID_INT, .int .PROC_OID_HPID_INT, .MapIntVal, .SectProc⟩,
   ⟨"sf.proc.name".toList, .name .PROC_EXE_STR, .str .PROC_EXE_STR, .MapSpecialStr, .SectProc⟩,
   ⟨"sf.proc.exe".toList, .str .PROC_EXE_STR, .str .PROC_EXE_STR, .MapStrVal, .SectProc⟩,
   ⟨"sf.proc.args".toList, .str .PROC_EXEARGS_STR, .str .PROC_EXEARGS_STR, .MapStrVal, .SectProc⟩,
   ⟨"sf.proc.uid".toList, .int .PROC_UID_INT, .int .PROC_UID_INT, .MapIntVal, .SectProc⟩,
   ⟨"sf.proc.user".toList, .str .PROC_USERNAME_STR, .str .PROC_USERNAME_STR, .MapStrVal, .SectProc⟩,
   ⟨"sf.proc.tid".toList, .int .TID_INT, .int .TID_INT, .MapIntVal, .SectProc⟩,
   ⟨"sf.proc.gid".toList, .int .PROC_GID_INT, .int .PROC_GID_INT, .MapIntVal, .SectProc⟩,
   ⟨"sf.proc.group".toList, .str .PROC_GROUPNAME_STR, .str .PROC_GROUPNAME_STR, .MapStrVal, .SectProc⟩,
   ⟨"sf.proc.createts".toList, .int .PROC_OID_CREATETS_INT, .int .PROC_OID_CREATETS_INT, .MapIntVal, .SectProc⟩,
   ⟨"sf.proc.tty".toList, .int .PROC_TTY_INT, .int .PROC_TTY_INT, .MapBoolVal, .SectProc⟩,
   ⟨"sf.proc.entry".toList, .int .PROC_ENTRY_INT, .int .PROC_ENTRY_INT, .MapBoolVal, .SectProc⟩,
   ⟨"sf.proc.cmdline".toList, .join .PROC_EXE_STR [.PROC_EXEARGS_STR], .str .PROC_EXE_STR, .MapSpecialStr, .SectProc⟩,
   ⟨"sf.proc.aname".toList, .cached .ProcAName, .A_IDS, .MapArrayStr, .SectProc⟩,
   ⟨"sf.proc.aexe".toList, .cached .ProcAExe, .A_IDS, .MapArrayStr, .SectProc⟩,
   ⟨"sf.proc.acmdline".toList, .cached .ProcACmdLine, .A_IDS, .MapArrayStr, .SectProc⟩,
   ⟨"sf.proc.apid".toList, .cached .ProcAPID, .A_IDS, .MapArrayInt, .SectProc⟩,
   ⟨"sf.pproc.oid".toList, .oid [.PROC_POID_HPID_INT, .PROC_POID_CREATETS_INT], .int .PROC_POID_HPID_INT, .MapSpecialStr, .SectPProc⟩,
   ⟨"sf.pproc.pid".toList, .int .PROC_POID_HPID_INT, .int .PROC_POID_HPID_INT, .MapIntVal, .SectPProc⟩,
   ⟨"sf.pproc.name".toList, .cached .PProcName, .PARENT_IDS, .MapSpecialStr, .SectPProc⟩,
   ⟨"sf.pproc.exe".toList, .cached .PProcExe, .PARENT_IDS, .MapSpecialStr, .SectPProc⟩,
   ⟨"sf.pproc.args".toList, .cached .PProcArgs, .PARENT_IDS, .MapSpecialStr, .SectPProc⟩,
   ⟨"sf.pproc.uid".toList, .cached .PProcUID, .PARENT_IDS, .MapSpecialInt, .SectPProc⟩,
   ⟨"sf.pproc.user".toList, .cached .PProcUser, .PARENT_IDS, .MapSpecialStr, .SectPProc⟩,
   ⟨"sf.pproc.gid".toList, .cached .PProcGID, .PARENT_IDS, .MapSpecialInt, .SectPProc⟩,
   ⟨"sf.pproc.group".toList, .cached .PProcGroup, .PARENT_IDS, .MapSpecialStr, .SectPProc⟩,
   ⟨"sf.pproc.createts".toList, .int .PROC_POID_CREATETS_INT, .int .PROC_POID_CREATETS_INT, .MapIntVal, .SectPProc⟩,
   ⟨"sf.pproc.tty".toList, .cached .PProcTTY, .PARENT_IDS, .MapSpecialInt, .SectPProc⟩,
   ⟨"sf.pproc.entry".toList, .cached .PProcEntry, .PARENT_IDS, .MapSpecialInt, .SectPProc⟩,
   ⟨"sf.pproc.cmdline".toList, .cached .PProcCmdLine, .PARENT_IDS, .MapSpecialStr, .SectPProc⟩,
   ⟨"sf.file.name".toList, .name .FILE_PATH_STR, .str .FILE_PATH_STR, .MapSpecialStr, .SectFile⟩,
   ⟨"sf.file.path".toList, .path .FILE_PATH_STR, .str .FILE_PATH_STR, .MapSpecialStr, .SectFile⟩,
   ⟨"sf.file.symlink".toList, .symlink .FILE_PATH_STR, .str .FILE_PATH_STR, .MapSpecialStr, .SectFile⟩,
   ⟨"sf.file.oid".toList, .str .FILE_OID_STR, .str .FILE_OID_STR, .MapStrVal, .SectFile⟩,
   ⟨"sf.file.directory".toList, .dir .FILE_PATH_STR, .str .FILE_PATH_STR, .MapSpecialStr, .SectFile⟩,
   ⟨"sf.file.newname".toList, .name .SEC_FILE_PATH_STR, .str .SEC_FILE_PATH_STR, .MapSpecialStr, .SectFile⟩,
   ⟨"sf.file.newpath".toList, .path .SEC_FILE_PATH_STR, .str .SEC_FILE_PATH_STR, .MapStrVal, .SectFile⟩,
   ⟨"sf.file.newsymlink".toList, .symlink .SEC_FILE_PATH_STR, .str .SEC_FILE_PATH_STR, .MapSpecialStr, .SectFile⟩,
   ⟨"sf.file.newoid".toList, .str .SEC_FILE_OID_STR, .str .SEC_FILE_OID_STR, .MapStrVal, .SectFile⟩,
   ⟨"sf.file.newdirectory".toList, .dir .SEC_FILE_PATH_STR, .str .SEC_FILE_PATH_STR, .MapSpecialStr, .SectFile⟩,
   ⟨"sf.file.type".toList, .fileType .FILE_RESTYPE_INT, .int .FILE_RESTYPE_INT, .MapSpecialStr, .SectFile⟩,
   ⟨"sf.file.is_open_write".toList, .isOpenWrite .FL_FILE_OPENFLAGS_INT, .int .FL_FILE_OPENFLAGS_INT, .MapSpecialBool, .SectFile⟩,
   ⟨"sf.file.is_open_read".toList, .isOpenRead .FL_FILE_OPENFLAGS_INT, .int .FL_FILE_OPENFLAGS_INT, .MapSpecialBool, .SectFile⟩,
   ⟨"sf.file.fd".toList, .int .FL_FILE_FD_INT, .int .FL_FILE_FD_INT, .MapIntVal, .SectFile⟩,
   ⟨"sf.file.openflags".toList, .openFlags .FL_FILE_OPENFLAGS_INT, .int .FL_FILE_OPENFLAGS_INT, .MapArrayStr, .SectFile⟩,
   ⟨"sf.net.proto".toList, .int .FL_NETW_PROTO_INT, .int .FL_NETW_PROTO_INT, .MapIntVal, .SectNet⟩,
   ⟨"sf.net.sport".toList, .int .FL_NETW_SPORT_INT, .int .FL_NETW_SPORT_INT, .MapIntVal, .SectNet⟩,
   ⟨"sf.net.dport".toList, .int .FL_NETW_DPORT_INT, .int .FL_NETW_DPORT_INT, .MapIntVal, .SectNet⟩,
   ⟨"sf.net.port".toList, .port [.FL_NETW_SPORT_INT, .FL_NETW_DPORT_INT], .int .FL_NETW_SPORT_INT, .MapArrayStr, .SectNet⟩,
   ⟨"sf.net.sip".toList, .ip [.FL_NETW_SIP_INT], .int .FL_NETW_SIP_INT, .MapSpecialStr, .SectNet⟩,
   ⟨"sf.net.dip".toList, .ip [.FL_NETW_DIP_INT], .int .FL_NETW_DIP_INT, .MapSpecialStr, .SectNet⟩,
   ⟨"sf.net.ip".toList, .ip [.FL_NETW_SIP_INT, .FL_NETW_DIP_INT], .int .FL_NETW_SIP_INT, .MapArrayStr, .SectNet⟩,
   ⟨"sf.flow.rbytes".toList, .sum [.FL_FILE_NUMRRECVBYTES_INT, .FL_NETW_NUMRRECVBYTES_INT], .int .FL_FILE_NUMRRECVBYTES_INT, .MapSpecialInt, .SectFlow⟩,
   ⟨"sf.flow.rops".toList, .sum [.FL_FILE_NUMRRECVOPS_INT, .FL_NETW_NUMRRECVOPS_INT], .int .FL_FILE_NUMRRECVOPS_INT, .MapSpecialInt, .SectFlow⟩,
   ⟨"sf.flow.wbytes".toList, .sum [.FL_FILE_NUMWSENDBYTES_INT, .FL_NETW_NUMWSENDBYTES_INT], .int .FL_FILE_NUMWSENDBYTES_INT, .MapSpecialInt, .SectFlow⟩,
   ⟨"sf.flow.wops".toList, .sum [.FL_FILE_NUMWSENDOPS_INT, .FL_NETW_NUMWSENDOPS_INT], .int .FL_FILE_NUMWSENDOPS_INT, .MapSpecialInt, .SectFlow⟩,
   ⟨"sf.container.id".toList, .str .CONT_ID_STR, .str .CONT_ID_STR, .MapStrVal, .SectCont⟩,
   ⟨"sf.container.name".toList, .str .CONT_NAME_STR, .str .CONT_NAME_STR, .MapStrVal, .SectCont⟩,
   ⟨"sf.container.imageid".toList, .str .CONT_IMAGEID_STR, .str .CONT_IMAGEID_STR, .MapStrVal, .SectCont⟩,
   ⟨"sf.container.image".toList, .str .CONT_IMAGE_STR, .str .CONT_IMAGE_STR, .MapStrVal, .SectCont⟩,
   ⟨"sf.container.type".toList, .contType .CONT_TYPE_INT, .int .CONT_TYPE_INT, .MapSpecialStr, .SectCont⟩,
   ⟨"sf.container.privileged".toList, .int .CONT_PRIVILEGED_INT, .int .CONT_PRIVILEGED_INT, .MapIntVal, .SectCont⟩,
   ⟨"sf.pod.ts".toList, .int .POD_TS_INT, .int .POD_TS_INT, .MapIntVal, .SectPod⟩,
   ⟨"sf.pod.id".toList, .str .POD_ID_STR, .str .POD_ID_STR, .MapStrVal, .SectPod⟩,
   ⟨"sf.pod.name".toList, .str .POD_NAME_STR, .str .POD_NAME_STR, .MapStrVal, .SectPod⟩,
   ⟨"sf.pod.nodename".toList, .str .POD_NODENAME_STR, .str .POD_NODENAME_STR, .MapStrVal, .SectPod⟩,
   ⟨"sf.pod.namespace".toList, .str .POD_NAMESPACE_STR, .str .POD_NAMESPACE_STR, .MapStrVal, .SectPod⟩,
   ⟨"sf.pod.restartcnt".toList, .int .POD_RESTARTCOUNT_INT, .int .POD_RESTARTCOUNT_INT, .MapIntVal, .SectPod⟩,
   ⟨"sf.pod.hostip".toList, .str .POD_HOSTIP_STR, .str .POD_HOSTIP_STR, .MapStrVal, .SectNone⟩,
   ⟨"sf.pod.hostip+".toList, .intArray .POD_HOSTIP_ANY, .any .POD_HOSTIP_ANY, .MapArrayInt, .SectPod⟩,
   ⟨"sf.pod.internalip".toList, .str .POD_INTERNALIP_STR, .str .POD_INTERNALIP_STR, .MapStrVal, .SectNone⟩,
   ⟨"sf.pod.internalip+".toList, .intArray .POD_INTERNALIP_ANY, .any .POD_INTERNALIP_ANY, .MapArrayInt, .SectPod⟩,
   ⟨"sf.pod.services".toList, .str .POD_SERVICES_STR, .str .POD_SERVICES_STR, .MapStrVal, .SectNone⟩,
   ⟨"sf.pod.services+".toList, .svcArray .POD_SERVICES_ANY, .any .POD_SERVICES_ANY, .MapArraySvc, .SectPod⟩,
   ⟨"sf.ke.action".toList, .action .K8SE_ACTION_INT, .int .K8SE_ACTION_INT, .MapSpecialStr, .SectK8sEvt⟩,
   ⟨"sf.ke.kind".toList, .kind .K8SE_KIND_INT, .int .K8SE_KIND_INT, .MapSpecialStr, .SectK8sEvt⟩,
   ⟨"sf.ke.message".toList, .str .K8SE_MESSAGE_STR, .str .K8SE_MESSAGE_STR, .MapStrVal, .SectK8sEvt⟩,
   ⟨"sf.node.id".toList, .str .SFHE_EXPORTER_STR, .str .SFHE_EXPORTER_STR, .MapStrVal, .SectNode⟩,
   ⟨"sf.node.ip".toList, .str .SFHE_IP_STR, .str .SFHE_IP_STR, .MapStrVal, .SectNode⟩,
   ⟨"sf.meta.schema".toList, .int .SFHE_VERSION_INT, .int .SFHE_VERSION_INT, .MapIntVal, .SectMeta⟩,
   ⟨"sf.meta.tracename".toList, .name .SFHE_FILENAME_STR, .str .SFHE_FILENAME_STR, .MapSpecialStr, .SectMeta⟩]

/-- `getNonExportedMappers` (fieldmapper.go:448-508) with the names of constants.go. -/
def nonExportedMappers : List (Str × Mapper) :=
  [("evt.type".toList, .opFlags),
   ("evt.rawres".toList, .recType),
   ("evt.rawtime".toList, .int .TS_INT),
   ("evt.dir".toList, .consts [">".toList, "<".toList]),
   ("evt.is_open_read".toList, .isOpenRead .FL_FILE_OPENFLAGS_INT),
   ("evt.is_open_write".toList, .isOpenWrite .FL_FILE_OPENFLAGS_INT),
   ("evt.arg.uid".toList, .int .PROC_UID_INT),
   ("fd.typechar".toList, .fileType .FILE_RESTYPE_INT),
   ("fd.directory".toList, .dir .FILE_PATH_STR),
   ("fd.name".toList, .name .FILE_PATH_STR),
   ("fd.filename".toList, .name .FILE_PATH_STR),
   ("fd.proto".toList, .int .FL_NETW_PROTO_INT),
   ("fd.lproto".toList, .int .FL_NETW_PROTO_INT),
   ("fd.l4proto".toList, .int .FL_NETW_PROTO_INT),
   ("fd.rproto".toList, .int .FL_NETW_PROTO_INT),
   ("fd.sproto".toList, .int .FL_NETW_PROTO_INT),
   ("fd.cproto".toList, .int .FL_NETW_PROTO_INT),
   ("fd.sport".toList, .int .FL_NETW_SPORT_INT),
   ("fd.dport".toList, .int .FL_NETW_DPORT_INT),
   ("fd.sip".toList, .ip [.FL_NETW_SIP_INT]),
   ("fd.dip".toList, .ip [.FL_NETW_DIP_INT]),
   ("fd.ip".toList, .ip [.FL_NETW_SIP_INT, .FL_NETW_DIP_INT]),
   ("fd.port".toList, .port [.FL_NETW_SPORT_INT, .FL_NETW_DPORT_INT]),
   ("fd.num".toList, .int .FL_FILE_FD_INT),
   ("user.name".toList, .str .PROC_USERNAME_STR),
   ("proc.pid".toList, .int .PROC_OID_HPID_INT),
   ("proc.tid".toList, .int .TID_INT),
   ("proc.gid".toList, .int .PROC_GID_INT),
   ("proc.uid".toList, .int .PROC_UID_INT),
   ("proc.group".toList, .str .PROC_GROUPNAME_STR),
   ("proc.tty".toList, .cached .PProcTTY),
   ("proc.user".toList, .str .PROC_USERNAME_STR),
   ("proc.exe".toList, .str .PROC_EXE_STR),
   ("proc.name".toList, .name .PROC_EXE_STR),
   ("proc.args".toList, .str .PROC_EXEARGS_STR),
   ("proc.createtime".toList, .int .PROC_POID_CREATETS_INT),
   ("proc.cmdline".toList, .join .PROC_EXE_STR [.PROC_EXEARGS_STR]),
   ("proc.aname".toList, .cached .ProcAName),
   ("proc.apid".toList, .cached .ProcAPID),
   ("proc.ppid".toList, .int .PROC_POID_HPID_INT),
   ("proc.pgid".toList, .cached .PProcGID),
   ("proc.puid".toList, .cached .PProcUID),
   ("proc.pgroup".toList, .cached .PProcGroup),
   ("proc.ptty".toList, .cached .PProcTTY),
   ("proc.puser".toList, .cached .PProcUser),
   ("proc.pexe".toList, .cached .PProcExe),
   ("proc.pargs".toList, .cached .PProcArgs),
   ("proc.pcreatetime".toList, .int .PROC_POID_CREATETS_INT),
   ("proc.pname".toList, .cached .PProcName),
   ("proc.pcmdline".toList, .cached .PProcCmdLine),
   ("container.id".toList, .str .CONT_ID_STR),
   ("container.image.id".toList, .str .CONT_IMAGEID_STR),
   ("container.image".toList, .str .CONT_IMAGE_STR),
   ("container.name".toList, .str .CONT_NAME_STR),
   ("container.type".toList, .contType .CONT_TYPE_INT),
   ("container.privileged".toList, .int .CONT_PRIVILEGED_INT)]

/-- A `FieldMapper` (fieldmapper.go:105-108): a finite map from names to mappers. -/
abbrev Table := List (Str × Mapper)

/-- Lookup in the Go map. -/
def Table.get (t : Table) (attr : Str) : Option Mapper :=
  match t with
  | [] => none
  | (n, m) :: rest => if n = attr then some m else Table.get rest attr

/-- `getMappers` (fieldmapper.go:248-258): the exported entries; a non-exported one only if its
key is new. -/
def getMappers : Table :=
  let exported : Table := exportedMappers.map (fun e => (e.name, e.map))
  exported ++ nonExportedMappers.filter (fun e => (exported.get e.1).isNone)

/-! ### Resolving attributes -/

/-- `FieldMapper.Map` (fieldmapper.go:111-116): a name that is not a field denotes its own text. -/
def mapAttr (L : Lib) (t : Table) (attr : Str) (fr : FlatRec) : FVal :=
  match t.get attr with
  | some m => m.run L fr
  | none => .str attr

/-- `FieldMapper.MapInt` (fieldmapper.go:119-128). -/
def mapInt (L : Lib) (t : Table) (attr : Str) (fr : FlatRec) : Int :=
  match mapAttr L t attr fr with
  | .i64 v => v
  | _ => if (Decimal.parseInt attr).2 then (Decimal.parseInt attr).1 else 0

/-- `cut(s, "[")` (fieldmapper.go:151-157); `none` is `found = false`. -/
def cut : Str → Option (Str × Str)
  | [] => none
  | c :: cs =>
    if c = '[' then some ([], cs)
    else match cut cs with
      | some (b, a) => some (c :: b, a)
      | none => none

/-- Rendering of the mapped value in `MapStr` when there is no JSON path (fieldmapper.go:174-191). -/
def renderPlain (base : Str) : FVal → Str
  | .str v => Strings.trimQuotes v
  | .i64 v =>
    if base = "sf.proc.tty".toList ∨ base = "sf.proc.entry".toList then (if v ≠ 0 then "true".toList else "false".toList)
    else Decimal.formatInt v
  | .i32 v => Decimal.formatInt v
  | .bool b => if b then "true".toList else "false".toList
  | .intArr _ => []
  | .svcArr _ => []

/-- `FieldMapper.MapStr` (fieldmapper.go:161-192). `none` is a run-time panic (slice bounds out of
range at line 171 when the path expression is empty). -/
def mapStr? (L : Lib) (t : Table) (attr : Str) (fr : FlatRec) : Option Str :=
  match cut attr with
  | none => some (renderPlain attr (mapAttr L t attr fr))
  | some (b, path) =>
    match t.get b with
    | none => some (renderPlain b (mapAttr L t b fr))
    | some _ =>
      if path = [] then none
      else
        let jsonpath := path.dropLast
        match mapAttr L t b fr with
        | .str v => if v ≠ [] ∧ jsonpath ≠ [] then some (L.gjson v jsonpath) else some (renderPlain b (.str v))
        | v => some (renderPlain b v)

/-- The value used by the operations; the panic case is outside the scope of the criteria below. -/
def mapStr (L : Lib) (t : Table) (attr : Str) (fr : FlatRec) : Str := (mapStr? L t attr fr).getD []

end Verif.FlatRecord
