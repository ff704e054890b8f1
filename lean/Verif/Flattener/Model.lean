import Verif.Flattener.Filter
import Verif.Processor.Reader
/-
The flattener: from handler calls to flat records on the output channels.
Source: /repo/core/flattener/flattener.go
-/
namespace Verif.Flattener
open Verif.Decimal (Str)
open Verif.SysFlow
open Verif.FlatRecord
open Verif.Processor (Ctx HCall)
open Verif.Filter (Filter semanticHash)
open Verif.Strings (trimSpace)

/-- Library functions used by the flattener, left abstract: `sfgo.GetIPStr`, `json.Marshal` of a service list, and
`xxhash`. -/
structure FLib where
  ipStr : Int → Str
  jsonSvcs : List Service → Str
  xxh : List UInt8 → UInt64

/-- Assignments to the arrays of the record (`fr.Ints[SYSFLOW_IDX][a] = v`, ...). -/
def setI (a : IAttr) (v : Int) (s : Sect) : Sect := { s with ints := fun b => if b = a then v else s.ints b }
def setS (a : SAttr) (v : Str) (s : Sect) : Sect := { s with strs := fun b => if b = a then v else s.strs b }
def setA (a : AAttr) (v : AnyVal) (s : Sect) : Sect := { s with anys := fun b => if b = a then v else s.anys b }

/-- `newFlatRecord` (flattener.go:408-420): one SYSFLOW section of zero values. -/
def zeroSect : Sect := ⟨fun _ => 0, fun _ => [], fun _ => .nil⟩

/-- `1` if true else `0` (flattener.go:275-279, 339-348). -/
def bit (b : Bool) : Int := if b then 1 else 0

/-- `hex.EncodeToString` (flattener.go:404-406). -/
def hexDigit (n : Nat) : Char := if n < 10 then Char.ofNat (48 + n) else Char.ofNat (87 + n)
def hexEncode (bs : List UInt8) : Str := bs.flatMap (fun b => [hexDigit (b.toNat / 16), hexDigit (b.toNat % 16)])

/-- `getIPStr` (flattener.go:387-397): no separator between the addresses. -/
def getIPStr (L : FLib) (ips : List Int) : Str :=
  '[' :: (ips.flatMap (fun ip => '"' :: L.ipStr (wrap32 ip) ++ ['"']) ++ [']'])

/-- `fillHeader` (flattener.go:253-265). -/
def fillHeader (h : Option Header) (s : Sect) : Sect :=
  match h with
  | some hdr => s |> setI .SFHE_VERSION_INT hdr.version |> setS .SFHE_EXPORTER_STR hdr.exporter |> setS .SFHE_IP_STR hdr.ip
      |> setS .SFHE_FILENAME_STR hdr.filename
  | none => s |> setI .SFHE_VERSION_INT 0 |> setS .SFHE_EXPORTER_STR [] |> setS .SFHE_IP_STR []

/-- `fillEntities`, container part (flattener.go:269-288). -/
def fillCont (c : Option Container) (s : Sect) : Sect :=
  match c with
  | some cont => s |> setS .CONT_ID_STR cont.id |> setS .CONT_NAME_STR (trimSpace cont.name)
      |> setS .CONT_IMAGE_STR (trimSpace cont.image) |> setS .CONT_IMAGEID_STR cont.imageid
      |> setI .CONT_TYPE_INT cont.ctype |> setI .CONT_PRIVILEGED_INT (bit cont.privileged)
  | none => s |> setS .CONT_ID_STR [] |> setS .CONT_NAME_STR [] |> setS .CONT_IMAGE_STR [] |> setS .CONT_IMAGEID_STR []
      |> setI .CONT_TYPE_INT 0 |> setI .CONT_PRIVILEGED_INT 0

/-- `fillEntities`, pod part (flattener.go:289-315). -/
def fillPod (L : FLib) (p : Option Pod) (s : Sect) : Sect :=
  match p with
  | some pod => s |> setI .POD_TS_INT pod.ts |> setS .POD_ID_STR pod.id |> setS .POD_NAME_STR (trimSpace pod.name)
      |> setS .POD_NODENAME_STR (trimSpace pod.nodeName) |> setS .POD_NAMESPACE_STR (trimSpace pod.nspace)
      |> setI .POD_RESTARTCOUNT_INT pod.restartCount
      |> setS .POD_HOSTIP_STR (getIPStr L pod.hostIP) |> setA .POD_HOSTIP_ANY (.ints pod.hostIP)
      |> setS .POD_INTERNALIP_STR (getIPStr L pod.internalIP) |> setA .POD_INTERNALIP_ANY (.ints pod.internalIP)
      |> setS .POD_SERVICES_STR (L.jsonSvcs pod.services) |> setA .POD_SERVICES_ANY (.svcs pod.services)
  | none => s |> setI .POD_TS_INT 0 |> setS .POD_ID_STR [] |> setS .POD_NAME_STR [] |> setS .POD_NODENAME_STR []
      |> setS .POD_NAMESPACE_STR [] |> setI .POD_RESTARTCOUNT_INT 0
      |> setS .POD_HOSTIP_STR [] |> setA .POD_HOSTIP_ANY .nil |> setS .POD_INTERNALIP_STR [] |> setA .POD_INTERNALIP_ANY .nil
      |> setS .POD_SERVICES_STR [] |> setA .POD_SERVICES_ANY .nil

/-- `fillEntities`, parent id (flattener.go:320-326). -/
def fillPoid (p : Option OID) (s : Sect) : Sect :=
  match p with
  | some o => s |> setI .PROC_POID_CREATETS_INT o.createTS |> setI .PROC_POID_HPID_INT o.hpid
  | none => s |> setI .PROC_POID_CREATETS_INT 0 |> setI .PROC_POID_HPID_INT 0

/-- `fillEntities`, process part (flattener.go:316-364). -/
def fillProc (p : Option Proc) (s : Sect) : Sect :=
  match p with
  | some proc => s |> setI .PROC_STATE_INT proc.state.toInt |> setI .PROC_OID_CREATETS_INT proc.oid.createTS
      |> setI .PROC_OID_HPID_INT proc.oid.hpid |> fillPoid proc.poid |> setI .PROC_TS_INT proc.ts
      |> setS .PROC_EXE_STR (trimSpace proc.exe) |> setS .PROC_EXEARGS_STR (trimSpace proc.exeArgs)
      |> setI .PROC_UID_INT proc.uid |> setS .PROC_USERNAME_STR proc.userName |> setI .PROC_GID_INT proc.gid
      |> setS .PROC_GROUPNAME_STR proc.groupName |> setI .PROC_TTY_INT (bit proc.tty) |> setI .PROC_ENTRY_INT (bit proc.entry)
      |> setS .PROC_CONTAINERID_STRING_STR (proc.containerId.getD [])
  | none => s |> setI .PROC_STATE_INT 0 |> setI .PROC_OID_CREATETS_INT 0 |> setI .PROC_OID_HPID_INT 0
      |> setI .PROC_POID_CREATETS_INT 0 |> setI .PROC_POID_HPID_INT 0 |> setI .PROC_TS_INT 0
      |> setS .PROC_EXE_STR [] |> setS .PROC_EXEARGS_STR [] |> setI .PROC_UID_INT 0 |> setS .PROC_USERNAME_STR []
      |> setI .PROC_GID_INT 0 |> setS .PROC_GROUPNAME_STR [] |> setI .PROC_TTY_INT 0 |> setI .PROC_ENTRY_INT 0
      |> setS .PROC_CONTAINERID_STRING_STR []

/-- `fillEntities`, file part (flattener.go:365-384). -/
def fillFile (f : Option File) (s : Sect) : Sect :=
  match f with
  | some file => s |> setI .FILE_STATE_INT file.state.toInt |> setI .FILE_TS_INT file.ts |> setI .FILE_RESTYPE_INT file.restype
      |> setS .FILE_OID_STR (hexEncode file.oid) |> setS .FILE_PATH_STR (trimSpace file.path)
      |> setS .FILE_CONTAINERID_STRING_STR (file.containerId.getD [])
  | none => s |> setI .FILE_STATE_INT 0 |> setI .FILE_TS_INT 0 |> setI .FILE_RESTYPE_INT 0 |> setS .FILE_PATH_STR []
      |> setS .FILE_CONTAINERID_STRING_STR [] |> setS .FILE_OID_STR []

/-- `fillEntities` (flattener.go:267-385). -/
def fillEntities (L : FLib) (h : Option Header) (pod : Option Pod) (cont : Option Container) (proc : Option Proc)
    (file : Option File) (s : Sect) : Sect :=
  s |> fillHeader h |> fillCont cont |> fillPod L pod |> fillProc proc |> fillFile file

/-- The finished record: one SYSFLOW section, `Ptree` and `GraphletID` (which the reader never sets). -/
def mkRec (s : Sect) (pt : Option (List Proc)) : FlatRec := ⟨[(.sysflow, s)], pt, 0⟩

/-- `HandleK8sEvt` up to the sends (flattener.go:124-132); no process tree. -/
def flatK8s (c : Ctx) (e : K8sEvt) : FlatRec :=
  mkRec (zeroSect |> setI .SF_REC_TYPE K8S_EVT |> fillHeader c.header |> setI .TS_INT e.ts |> setS .K8SE_MESSAGE_STR e.message
    |> setI .K8SE_KIND_INT e.kind |> setI .K8SE_ACTION_INT e.action) none

/-- `HandleNetFlow` up to `out` (flattener.go:149-169). -/
def flatNetFlow (L : FLib) (c : Ctx) (e : NetFlow) : FlatRec :=
  mkRec (zeroSect |> setI .SF_REC_TYPE NET_FLOW |> fillEntities L c.header c.pod c.cont c.proc none
    |> setI .TS_INT e.ts |> setI .TID_INT e.tid |> setI .OPFLAGS_INT e.opFlags |> setI .FL_NETW_ENDTS_INT e.endTs
    |> setI .FL_NETW_SIP_INT e.sip |> setI .FL_NETW_SPORT_INT e.sport |> setI .FL_NETW_DIP_INT e.dip
    |> setI .FL_NETW_DPORT_INT e.dport |> setI .FL_NETW_PROTO_INT e.proto |> setI .FL_NETW_FD_INT e.fd
    |> setI .FL_NETW_NUMRRECVOPS_INT e.numRRecvOps |> setI .FL_NETW_NUMWSENDOPS_INT e.numWSendOps
    |> setI .FL_NETW_NUMRRECVBYTES_INT e.numRRecvBytes |> setI .FL_NETW_NUMWSENDBYTES_INT e.numWSendBytes) c.ptree

/-- `HandleFileFlow` up to `out` (flattener.go:174-190). -/
def flatFileFlow (L : FLib) (c : Ctx) (e : FileFlow) : FlatRec :=
  mkRec (zeroSect |> setI .SF_REC_TYPE FILE_FLOW |> fillEntities L c.header c.pod c.cont c.proc c.file
    |> setI .TS_INT e.ts |> setI .TID_INT e.tid |> setI .OPFLAGS_INT e.opFlags |> setI .FL_FILE_OPENFLAGS_INT e.openFlags
    |> setI .FL_FILE_ENDTS_INT e.endTs |> setI .FL_FILE_FD_INT e.fd |> setI .FL_FILE_NUMRRECVOPS_INT e.numRRecvOps
    |> setI .FL_FILE_NUMWSENDOPS_INT e.numWSendOps |> setI .FL_FILE_NUMRRECVBYTES_INT e.numRRecvBytes
    |> setI .FL_FILE_NUMWSENDBYTES_INT e.numWSendBytes) c.ptree

/-- The second file of a file event (flattener.go:197-216). -/
def fillNewFile (f : Option File) (s : Sect) : Sect :=
  match f with
  | some nf => s |> setI .SEC_FILE_STATE_INT nf.state.toInt |> setI .SEC_FILE_TS_INT nf.ts |> setI .SEC_FILE_RESTYPE_INT nf.restype
      |> setS .SEC_FILE_OID_STR (hexEncode nf.oid) |> setS .SEC_FILE_PATH_STR (trimSpace nf.path)
      |> setS .SEC_FILE_CONTAINERID_STRING_STR (nf.containerId.getD [])
  | none => s |> setI .SEC_FILE_STATE_INT 0 |> setI .SEC_FILE_TS_INT 0 |> setI .SEC_FILE_RESTYPE_INT 0
      |> setS .SEC_FILE_PATH_STR [] |> setS .SEC_FILE_CONTAINERID_STRING_STR [] |> setS .SEC_FILE_OID_STR []

/-- `HandleFileEvt` up to `out` (flattener.go:195-224). -/
def flatFileEvt (L : FLib) (c : Ctx) (e : FileEvt) : FlatRec :=
  mkRec (zeroSect |> fillNewFile c.newFile |> setI .SF_REC_TYPE FILE_EVT |> fillEntities L c.header c.pod c.cont c.proc c.file
    |> setI .TS_INT e.ts |> setI .TID_INT e.tid |> setI .OPFLAGS_INT e.opFlags |> setI .RET_INT e.ret) c.ptree

/-- `HandleProcEvt` up to `out` (flattener.go:239-249). -/
def flatProcEvt (L : FLib) (c : Ctx) (e : ProcEvt) : FlatRec :=
  mkRec (zeroSect |> setI .SF_REC_TYPE PROC_EVT |> fillEntities L c.header c.pod c.cont c.proc none
    |> setI .TS_INT e.ts |> setI .TID_INT e.tid |> setI .OPFLAGS_INT e.opFlags |> setI .RET_INT e.ret) c.ptree

/-- The flattener (flattener.go:45-49): filter switch, filter, and what has been sent so far on each output channel.
Blocking of the sends is not modelled here. -/
structure State where
  filterOn : Bool
  filter : Option Filter
  outs : List (List FlatRec)

/-- `Init` with `SetOutChan` of `n` channels (flattener.go:67-74, 82-86). -/
def init (on : Bool) (ttl : Int) (n : Nat) : State :=
  ⟨on, if on then some (Filter.newFilter ttl) else none, List.replicate n []⟩

/-- `for _, c := range s.outCh { c <- fr }` (flattener.go:93-95, 133-135). -/
def sendAll (s : State) (fr : FlatRec) : State := { s with outs := s.outs.map (fun q => q ++ [fr]) }

/-- `out` (flattener.go:89-96); `rd` are the clock readings of the call. -/
def out (L : FLib) (s : State) (rd : Nat → Int) (fr : FlatRec) : State :=
  match s.filterOn, s.filter with
  | true, some f =>
    let r := Filter.testAndAdd f (semanticHash L.xxh fr) rd
    let s' := { s with filter := some r.2 }
    if r.1 then s' else sendAll s' fr
  | _, _ => sendAll s fr

/-- A handler call on the flattener (flattener.go:109-251). -/
def handle (L : FLib) (s : State) (rd : Nat → Int) : HCall → State
  | .k8s c e => sendAll s (flatK8s c e)
  | .netFlow c e => out L s rd (flatNetFlow L c e)
  | .fileFlow c e => out L s rd (flatFileFlow L c e)
  | .fileEvt c e => out L s rd (flatFileEvt L c e)
  | .procEvt c e => out L s rd (flatProcEvt L c e)
  | .header _ _ | .cont _ _ | .pod _ _ | .proc _ _ | .file _ _ => s

end Verif.Flattener
