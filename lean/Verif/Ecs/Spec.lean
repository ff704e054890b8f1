import Verif.Ecs.Fields
/-
Specification of the ECS documents: which entries each part of the document has, in terms of the attributes of the record
(`A`, `T`: integer attribute, text attribute without bounding quotes; see Fields.lean).
-/
namespace Verif.Ecs.Spec
open Verif.Decimal (Str)
open Verif.FlatRecord
open Verif.SysFlow (Service Port Proc)
open Verif.Ecs

/-- The map is present and has exactly the listed entries. -/
def Shows (o : Option Data) (l : List (Str × EVal)) : Prop :=
  ∃ m, o = some m ∧ ∀ k v, m.get k = some v ↔ (k, v) ∈ l

/-- The kind of a record (NF, FF, FE, PE, KE, ...). -/
def kind (L : ELib) (fr : FlatRec) : Str := Strings.trimQuotes (L.recType (A fr .SF_REC_TYPE))
def NF : Str := "NF".toList
def FF : Str := "FF".toList
def FE : Str := "FE".toList
def PE : Str := "PE".toList
def KE : Str := "KE".toList

/-- Amounts transferred by a flow (file and network counters are separate attributes, the other is zero). -/
def bytesRead (fr : FlatRec) : Int := wrap64 (A fr .FL_FILE_NUMRRECVBYTES_INT + A fr .FL_NETW_NUMRRECVBYTES_INT)
def opsRead (fr : FlatRec) : Int := wrap64 (A fr .FL_FILE_NUMRRECVOPS_INT + A fr .FL_NETW_NUMRRECVOPS_INT)
def bytesWritten (fr : FlatRec) : Int := wrap64 (A fr .FL_FILE_NUMWSENDBYTES_INT + A fr .FL_NETW_NUMWSENDBYTES_INT)
def opsWritten (fr : FlatRec) : Int := wrap64 (A fr .FL_FILE_NUMWSENDOPS_INT + A fr .FL_NETW_NUMWSENDOPS_INT)

/-! ### Classification -/

/-- The bit of an operation is set in the flags. -/
def Performed (flags : Int) (o : Op) : Prop :=
  ∃ hi lo : Int, flags = hi * 2 ^ (o.bit + 1) + 2 ^ o.bit + lo ∧ 0 ≤ lo ∧ lo < 2 ^ o.bit

/-- `r` is the first operation of the list that was performed (`none`: none was). -/
def First (flags : Int) (ops : List Op) : Option Op → Prop
  | none => ∀ o ∈ ops, ¬ Performed flags o
  | some o => ∃ pre post, ops = pre ++ o :: post ∧ Performed flags o ∧ ∀ p ∈ pre, ¬ Performed flags p

/-- Category, type and action of file events by operation. -/
def fileEvent : Option Op → Str × Str × Str
  | some .mkdir => ("directory".toList, "creation".toList, "directory-create".toList)
  | some .rmdir => ("directory".toList, "deletion".toList, "directory-delete".toList)
  | some .unlink => ("file".toList, "deletion".toList, "file-delete".toList)
  | some .symlink => ("file".toList, "change".toList, "file-link".toList)
  | some .link => ("file".toList, "change".toList, "file-link".toList)
  | some .rename => ("file".toList, "change".toList, "file-rename".toList)
  | _ => ("file".toList, "change".toList, "file-change".toList)

/-- Type of process events by operation; `thread` tells whether the thread is not the main one. -/
def procEvent (thread : Bool) : Option Op → Str
  | some .exit => if thread then "thread-exit".toList else "exit".toList
  | some .clone => if thread then "thread-start".toList else "start".toList
  | some .exec => if thread then "thread-start".toList else "start".toList
  | some .setuid => "change".toList
  | _ => "start".toList

/-- Type of Kubernetes events by action. -/
def k8sEvent (a : Int) (t : Str) : Prop :=
  a = ADDED ∧ t = "creation".toList ∨ a = DELETED ∧ t = "deletion".toList ∨ a = MODIFIED ∧ t = "change".toList ∨
  a = ERROR ∧ t = "error".toList ∨ a ∉ [ADDED, DELETED, MODIFIED, ERROR] ∧ t = "info".toList

/-- Read (written) data: the operation is flagged and something was transferred. -/
def DidRead (fr : FlatRec) : Prop := Performed (A fr .OPFLAGS_INT) .read ∧ (bytesRead fr > 0 ∨ opsRead fr > 0)
def DidWrite (fr : FlatRec) : Prop := Performed (A fr .OPFLAGS_INT) .write ∧ (bytesWritten fr > 0 ∨ opsWritten fr > 0)

/-- Category, type and action of a record. -/
inductive Class (L : ELib) (fr : FlatRec) : Str → Str → Str → Prop where
  | network : kind L fr = NF → Class L fr "network".toList "connection".toList "network-connection-traffic".toList
  | access : kind L fr = FF → ¬ DidRead fr → ¬ DidWrite fr → Class L fr "file".toList "access".toList "file-access".toList
  | read : kind L fr = FF → DidRead fr → ¬ DidWrite fr → Class L fr "file".toList "access".toList "file-access-read".toList
  | write : kind L fr = FF → ¬ DidRead fr → DidWrite fr → Class L fr "file".toList "change".toList "file-access-write".toList
  | readWrite : kind L fr = FF → DidRead fr → DidWrite fr →
      Class L fr "file".toList "change".toList "file-access-read-write".toList
  | fileEvent (o : Option Op) : kind L fr = FE → First (A fr .OPFLAGS_INT) [.mkdir, .rmdir, .unlink, .symlink, .link, .rename] o →
      Class L fr (fileEvent o).1 (fileEvent o).2.1 (fileEvent o).2.2
  | procEvent (o : Option Op) : kind L fr = PE → First (A fr .OPFLAGS_INT) [.exit, .clone, .exec, .setuid] o →
      Class L fr "process".toList (procEvent (A fr .PROC_OID_HPID_INT != A fr .TID_INT) o)
        ("process-".toList ++ procEvent (A fr .PROC_OID_HPID_INT != A fr .TID_INT) o)
  | k8s (t : Str) : kind L fr = KE → k8sEvent (A fr .K8SE_ACTION_INT) t →
      Class L fr "orchestration".toList t (Strings.trimQuotes (L.k8sAction (A fr .K8SE_ACTION_INT)))

/-! ### Event -/

/-- The end of an event: the recorded one, or else the start. -/
def eventEnd (fr : FlatRec) : Int := if endTs fr ≠ 0 then endTs fr else A fr .TS_INT

/-- The severity of matched rules: the greatest of Low (1) and their priorities. -/
def IsSeverity (rules : List Policy.RuleInfo) (n : Nat) : Prop :=
  (n = 1 ∨ ∃ r ∈ rules, n = r.priority.toNat) ∧ 1 ≤ n ∧ ∀ r ∈ rules, r.priority.toNat ≤ n

/-- Entries of the event. -/
def event (L : ELib) (rec : Record) (category type action : Str) (severity : Nat) : List (Str × EVal) :=
  [("category".toList, .str category), ("type".toList, .str type), ("action".toList, .str action),
   ("sf_type".toList, .str (kind L rec.fr)), ("start".toList, .str (L.iso (A rec.fr .TS_INT))),
   ("end".toList, .str (L.iso (eventEnd rec.fr))), ("duration".toList, .int (wrap64 (eventEnd rec.fr - A rec.fr .TS_INT))),
   ("kind".toList, .str (if rec.ctx.isAlert then "alert".toList else "event".toList))] ++
  (if kind L rec.fr = PE ∨ kind L rec.fr = FE then [("sf_ret".toList, .int (ret rec.fr))] else []) ++
  (if kind L rec.fr = KE then [("original".toList, .str (T rec.fr .K8SE_MESSAGE_STR))] else []) ++
  (if rec.ctx.getRules ≠ [] then
    [("reason".toList, .str (List.intercalate ", ".toList (rec.ctx.getRules.map (·.name)))), ("severity".toList, .int severity)]
   else [])

/-! ### The other parts -/

def host (fr : FlatRec) : List (Str × EVal) := [("id".toList, .str (T fr .SFHE_EXPORTER_STR)), ("ip".toList, .str (T fr .SFHE_IP_STR))]

def container (L : ELib) (fr : FlatRec) : List (Str × EVal) :=
  [("id".toList, .str (T fr .CONT_ID_STR)), ("runtime".toList, .str (Strings.trimQuotes (L.contType (A fr .CONT_TYPE_INT)))),
   ("sf_privileged".toList, .bool (A fr .CONT_PRIVILEGED_INT != 0)), ("name".toList, .str (T fr .CONT_NAME_STR))] ++
  (if T fr .CONT_IMAGEID_STR ≠ [] then
    [("image".toList, .obj [("id".toList, .str (T fr .CONT_IMAGEID_STR)), ("name".toList, .str (T fr .CONT_IMAGE_STR))])] else [])

def process (L : ELib) (fr : FlatRec) : List (Str × EVal) :=
  [("executable".toList, .str (T fr .PROC_EXE_STR)), ("args".toList, .str (T fr .PROC_EXEARGS_STR)),
   ("command_line".toList, .str (Strings.trimQuotes (fr.getStr .PROC_EXE_STR .sysflow ++ ' ' :: fr.getStr .PROC_EXEARGS_STR .sysflow))),
   ("pid".toList, .int (A fr .PROC_OID_HPID_INT)), ("start".toList, .str (L.iso (A fr .PROC_OID_CREATETS_INT))),
   ("name".toList, .str (Strings.base (T fr .PROC_EXE_STR))), ("thread".toList, .obj [("id".toList, .int (A fr .TID_INT))]),
   ("parent".toList, .obj
     [("executable".toList, .str (parentText fr (·.exe))), ("args".toList, .str (parentText fr (·.exeArgs))),
      ("command_line".toList, .str (parentText fr commandLine)), ("pid".toList, .int (A fr .PROC_POID_HPID_INT)),
      ("start".toList, .str (L.iso (A fr .PROC_POID_CREATETS_INT))), ("name".toList, .str (Strings.base (parentText fr (·.exe))))])]

def user (fr : FlatRec) : List (Str × EVal) :=
  [("group".toList, .obj (("id".toList, .int (A fr .PROC_GID_INT)) ::
      (if T fr .PROC_GROUPNAME_STR ≠ [] then [("name".toList, .str (T fr .PROC_GROUPNAME_STR))] else []))),
   ("id".toList, .int (A fr .PROC_UID_INT))] ++
  (if T fr .PROC_USERNAME_STR ≠ [] then [("name".toList, .str (T fr .PROC_USERNAME_STR))] else [])

/-- Type of a file: symbolic link if the operation made one, else by the resource type. -/
def fileType (L : ELib) (fr : FlatRec) (t : Str) : Prop :=
  let ft := Strings.trimQuotes (L.fileType (A fr .FILE_RESTYPE_INT))
  Performed (A fr .OPFLAGS_INT) .symlink ∧ t = "symlink".toList ∨
  ¬ Performed (A fr .OPFLAGS_INT) .symlink ∧
    (ft = ['f'] ∧ t = "file".toList ∨ ft = ['d'] ∧ t = "dir".toList ∨ ft = ['u'] ∧ t = "socket".toList ∨
     ft = ['p'] ∧ t = "pipe".toList ∨ ft ∉ [['f'], ['d'], ['u'], ['p']] ∧ t = "unknown".toList)

/-- The path of a file without its link target, or the path of the open descriptor if it has none, and its last component. -/
def storedPath (L : ELib) (fr : FlatRec) : Str := Strings.trimQuotes (L.symPath (fr.getStr .FILE_PATH_STR .sysflow)).1
def filePath (L : ELib) (fr : FlatRec) : Str :=
  if storedPath L fr ≠ [] then storedPath L fr
  else "/proc/".toList ++ Decimal.formatInt (A fr .PROC_OID_HPID_INT) ++ "/fd/".toList ++ Decimal.formatInt (A fr .FL_FILE_FD_INT)
def fileName (L : ELib) (fr : FlatRec) : Str :=
  if storedPath L fr ≠ [] then Strings.base (storedPath L fr) else Decimal.formatInt (A fr .FL_FILE_FD_INT)

/-- Entries of the file; `target` is the path of a link or renaming. -/
def file (L : ELib) (fr : FlatRec) (type : Str) (target : Option Str) : List (Str × EVal) :=
  [("type".toList, .str type)] ++
  (if type = "dir".toList then [("directory".toList, .str (filePath L fr))]
   else [("name".toList, .str (fileName L fr)), ("directory".toList, .str (L.dir (filePath L fr)))] ++
     (if filePath L fr ≠ fileName L fr then [("path".toList, .str (filePath L fr))] else [])) ++
  (match target with
   | some t => [("target_path".toList, .str t)]
   | none => [])

/-- The target path is shown for file events that link or rename (and neither make, remove nor delete). -/
def hasTarget (L : ELib) (fr : FlatRec) : Prop :=
  kind L fr = FE ∧ ∃ o, First (A fr .OPFLAGS_INT) [.mkdir, .rmdir, .unlink, .symlink, .link, .rename] (some o) ∧
    o ∈ [Op.symlink, Op.link, Op.rename]
def targetPath (L : ELib) (fr : FlatRec) : Str := Strings.trimQuotes (L.symPath (fr.getStr .SEC_FILE_PATH_STR .sysflow)).1

def fileAction (fr : FlatRec) : List (Str × EVal) :=
  [("bytes_read".toList, .int (bytesRead fr)), ("read_ops".toList, .int (opsRead fr)),
   ("bytes_written".toList, .int (bytesWritten fr)), ("write_ops".toList, .int (opsWritten fr))]

def sip (L : ELib) (fr : FlatRec) : Str := Strings.trimQuotes (L.ipStr (wrap32 (A fr .FL_NETW_SIP_INT)))
def dip (L : ELib) (fr : FlatRec) : Str := Strings.trimQuotes (L.ipStr (wrap32 (A fr .FL_NETW_DIP_INT)))

def network (L : ELib) (fr : FlatRec) : List (Str × EVal) :=
  [("bytes".toList, .int (wrap64 (bytesRead fr + bytesWritten fr))),
   ("community_id".toList, .str (L.communityId (sip L fr) (dip L fr) (A fr .FL_NETW_SPORT_INT % 65536) (A fr .FL_NETW_DPORT_INT % 65536)
     (A fr .FL_NETW_PROTO_INT % 256))),
   ("iana_number".toList, .str (Decimal.formatInt (A fr .FL_NETW_PROTO_INT))),
   ("protocol".toList, .str (L.protoName (A fr .FL_NETW_PROTO_INT)))]
/-- One end of a connection with what it sent. -/
def endpoint (ip : Str) (port bytes packets : Int) : List (Str × EVal) :=
  [("ip".toList, .str ip), ("port".toList, .int port), ("address".toList, .str ip), ("bytes".toList, .int bytes),
   ("packets".toList, .int packets)]

def orchestrator (fr : FlatRec) : List (Str × EVal) :=
  [("namespace".toList, .str (T fr .POD_NAMESPACE_STR)),
   ("resource".toList, .obj [("type".toList, .str "pod".toList), ("name".toList, .str (T fr .POD_NAME_STR))]),
   ("type".toList, .str "kubernetes".toList)]
/-- Of a Kubernetes event: what its message says. -/
def k8sOrchestrator (L : ELib) (fr : FlatRec) : List (Str × EVal) :=
  [("namespace".toList, .str (L.msg (T fr .K8SE_MESSAGE_STR) "items.0.namespace".toList)),
   ("resource".toList, .obj [("type".toList, .str (L.lower (L.msg (T fr .K8SE_MESSAGE_STR) "kind".toList))),
     ("name".toList, .str (L.msg (T fr .K8SE_MESSAGE_STR) "items.0.name".toList))]),
   ("type".toList, .str "kubernetes".toList)]

/-- Texts of addresses. -/
def addresses (L : ELib) (l : List Int) : EVal := .strs (l.map (fun ip => L.ipStr (wrap32 ip)))
def pod (L : ELib) (fr : FlatRec) (hosts internals : List Int) : List (Str × EVal) :=
  [("ts".toList, .str (L.iso (A fr .POD_TS_INT))), ("id".toList, .str (T fr .POD_ID_STR)), ("name".toList, .str (T fr .POD_NAME_STR)),
   ("nodename".toList, .str (T fr .POD_NODENAME_STR)), ("namespace".toList, .str (T fr .POD_NAMESPACE_STR)),
   ("hostip".toList, addresses L hosts), ("internalip".toList, addresses L internals),
   ("restartcnt".toList, .int (A fr .POD_RESTARTCOUNT_INT))]
def port (p : Port) : List (Str × EVal) :=
  [("port".toList, .int p.port), ("targetport".toList, .int p.targetPort), ("nodeport".toList, .int p.nodePort), ("proto".toList, .str p.proto)]
def service (L : ELib) (s : Service) : List (Str × EVal) :=
  [("id".toList, .str s.id), ("name".toList, .str s.name), ("namespace".toList, .str s.nspace), ("clusterip".toList, addresses L s.clusterIP),
   ("ports".toList, .objs (s.portList.map port))]

/-- The record has a pod. -/
def HasPod (fr : FlatRec) : Prop := T fr .POD_ID_STR ≠ []

/-- The kinds of records that are classified. -/
def Known (L : ELib) (fr : FlatRec) : Prop := kind L fr ∈ [NF, FF, FE, PE, KE]

/-- The bytes of the identifying attributes of a record. -/
def idBytes (L : ELib) (fr : FlatRec) : List UInt8 :=
  Utf8.bytes (T fr .SFHE_EXPORTER_STR) ++ Utf8.bytes (T fr .CONT_ID_STR) ++
  ([IAttr.TS_INT, .TID_INT, .PROC_OID_CREATETS_INT, .OPFLAGS_INT].flatMap (fun a => Filter.le64 (A fr a))) ++
  (if kind L fr = FF ∨ kind L fr = FE then Utf8.bytes (T fr .FILE_OID_STR) else []) ++
  (if kind L fr = NF then
    [IAttr.FL_NETW_SIP_INT, .FL_NETW_SPORT_INT, .FL_NETW_DIP_INT, .FL_NETW_DPORT_INT, .FL_NETW_PROTO_INT].flatMap (fun a => Filter.le64 (A fr a))
   else []) ++
  (if kind L fr = KE then
    ([IAttr.K8SE_ACTION_INT, .K8SE_KIND_INT].flatMap (fun a => Filter.le64 (A fr a))) ++ Utf8.bytes (T fr .K8SE_MESSAGE_STR)
   else [])

/-- The document of a record. -/
structure Doc (c : Conf) (L : ELib) (rec : Record) (d : Rec) : Prop where
  id : d.id = L.hash (idBytes L rec.fr)
  ts : d.ts = L.iso (A rec.fr .TS_INT)
  agent : d.agentType = "SysFlow".toList ∧ d.agentVersion = c.version ∧ d.ecsVersion = c.ecsVersion
  host : Shows (some d.host) (host rec.fr)
  event : Known L rec.fr → ∃ category type action severity, Class L rec.fr category type action ∧
    IsSeverity rec.ctx.getRules severity ∧ Shows d.event (event L rec category type action severity)
  noEvent : ¬ Known L rec.fr → d.event = none
  tags : d.tags = rec.ctx.getTags ++ rec.ctx.getRules.flatMap (fun r => r.tags.flatten)
  process : kind L rec.fr ≠ KE → Shows d.process (process L rec.fr)
  user : kind L rec.fr ≠ KE → Shows d.user (user rec.fr)
  container : kind L rec.fr ≠ KE → T rec.fr .CONT_ID_STR ≠ [] → Shows d.container (container L rec.fr)
  noContainer : kind L rec.fr = KE ∨ T rec.fr .CONT_ID_STR = [] → d.container = none
  noProcess : kind L rec.fr = KE → d.process = none ∧ d.user = none
  k8s : kind L rec.fr = KE → Shows d.orchestrator (k8sOrchestrator L rec.fr)
  pod : kind L rec.fr ≠ KE → HasPod rec.fr → Shows d.orchestrator (orchestrator rec.fr) ∧
    ∃ hosts internals services, rec.fr.getIntArray .POD_HOSTIP_ANY .sysflow = some hosts ∧
      rec.fr.getIntArray .POD_INTERNALIP_ANY .sysflow = some internals ∧ rec.fr.getSvcArray .POD_SERVICES_ANY .sysflow = some services ∧
      Shows d.pod (pod L rec.fr hosts internals) ∧ d.service = services.map (service L)
  noPod : kind L rec.fr = KE ∨ ¬ HasPod rec.fr → d.pod = none ∧ d.service = []
  noOrchestrator : kind L rec.fr ≠ KE → ¬ HasPod rec.fr → d.orchestrator = none
  file : kind L rec.fr = FF ∨ kind L rec.fr = FE → ∃ type, fileType L rec.fr type ∧
    (hasTarget L rec.fr → Shows d.file (file L rec.fr type (some (targetPath L rec.fr)))) ∧
    (¬ hasTarget L rec.fr → Shows d.file (file L rec.fr type none))
  noFile : ¬ (kind L rec.fr = FF ∨ kind L rec.fr = FE) → d.file = none
  fileAction : kind L rec.fr = FF → (bytesRead rec.fr > 0 ∨ opsRead rec.fr > 0 ∨ bytesWritten rec.fr > 0 ∨ opsWritten rec.fr > 0) →
    Shows d.fileAction (fileAction rec.fr)
  noFileAction : kind L rec.fr ≠ FF ∨
    ¬ (bytesRead rec.fr > 0 ∨ opsRead rec.fr > 0 ∨ bytesWritten rec.fr > 0 ∨ opsWritten rec.fr > 0) → d.fileAction = none
  network : kind L rec.fr = NF → Shows d.network (network L rec.fr) ∧
    Shows d.source (endpoint (sip L rec.fr) (A rec.fr .FL_NETW_SPORT_INT) (bytesWritten rec.fr) (opsWritten rec.fr)) ∧
    Shows d.destination (endpoint (dip L rec.fr) (A rec.fr .FL_NETW_DPORT_INT) (bytesRead rec.fr) (opsRead rec.fr))
  noNetwork : kind L rec.fr ≠ NF → d.network = none ∧ d.source = none ∧ d.destination = none

end Verif.Ecs.Spec
