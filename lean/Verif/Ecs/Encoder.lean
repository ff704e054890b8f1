import Verif.FlatRecord.Ops
import Verif.Flattener.Filter
/-
The ECS encoder of the exporter.
Source: /repo/core/exporter/encoders/ecs.go, ecsconstants.go, /repo/core/exporter/utils/utils.go.
`JSONData` (a Go map) is a list of keys and values without repeated keys; the rendering of the record by
`encoding/json` is in Ecs/Text.lean. `none` is a run-time panic.
-/
namespace Verif.Ecs
open Verif.Decimal (Str)
open Verif.FlatRecord
open Verif.SysFlow (Service Port)

/-- Values stored in `JSONData`. -/
inductive EVal where
  | str (s : Str)
  | int (n : Int)
  | bool (b : Bool)
  | strs (l : List Str)
  | obj (m : List (Str × EVal))
  | objs (l : List (List (Str × EVal)))

/-- `JSONData` (ecs.go:47). -/
abbrev Data := List (Str × EVal)

/-- Map lookup. -/
def Data.get (d : Data) (k : Str) : Option EVal := (d.find? (fun e => e.1 == k)).map Prod.snd
/-- Map assignment. -/
def Data.set (d : Data) (k : Str) (v : EVal) : Data :=
  if d.any (fun e => e.1 == k) then d.map (fun e => if e.1 == k then (k, v) else e) else d ++ [(k, v)]

/-- Library functions: `iso` is `utils.ToIsoTimeStr` (utils.go:56-61), `protoName` is `sfgo.GetProto`, `communityId` the
base-64 community id of a flow tuple (ecs.go:214-221), `hash` the hexadecimal xxhash (ecs.go:167, 200), `msg m p` is
`gjson.Parse(m).Get(p).String()` (ecs.go:352-358). All abstract. -/
structure ELib extends Lib where
  iso : Int → Str
  protoName : Int → Str
  communityId : Str → Str → Int → Int → Int → Str
  hash : List UInt8 → Str
  msg : Str → Str → Str

/-- Configuration: `config.Version`, `config.EcsVersion`. -/
structure Conf where
  version : Str
  ecsVersion : Str

/-- Operation flags (`sfgo.OP_...`): each constant is a single bit. The bit numbers are those of sfgo (assumption; only their
being distinct matters). -/
inductive Op where
  | clone | exec | exit | setuid | read | write | mkdir | rmdir | link | unlink | symlink | rename
deriving DecidableEq, Repr

def Op.bit : Op → Nat
  | .clone => 0 | .exec => 1 | .exit => 2 | .setuid => 3 | .read => 8 | .write => 9 | .mkdir => 15 | .rmdir => 16
  | .link => 17 | .unlink => 18 | .symlink => 19 | .rename => 20

/-- `opFlags & OP == OP`. -/
def has (flags : Int) (o : Op) : Bool := flags / 2 ^ o.bit % 2 == 1

/-- `MapStr`/`MapInt`/`MapIntArray`/`MapSvcArray` of a field. -/
def ms (L : ELib) (fr : FlatRec) (n : Str) : Str := mapStr L.toLib getMappers n fr
def mi (L : ELib) (fr : FlatRec) (n : Str) : Int := mapInt L.toLib getMappers n fr
/-- `MapIntArray` (fieldmapper.go:132-139). -/
def mia (L : ELib) (fr : FlatRec) (n : Str) : Option (List Int) :=
  match mapAttr L.toLib getMappers n fr with
  | .intArr l => l
  | _ => none
/-- `MapSvcArray` (fieldmapper.go:142-149). -/
def msa (L : ELib) (fr : FlatRec) (n : Str) : Option (List Service) :=
  match mapAttr L.toLib getMappers n fr with
  | .svcArr l => l
  | _ => none

/-- `rec.GetInt(sfgo.EV_PROC_OPFLAGS_INT, ...)`. -/
def opFlags (fr : FlatRec) : Int := fr.getInt .OPFLAGS_INT .sysflow

/-- `ECSRecord` (ecs.go:50-74); a nil map is `none`. -/
structure Rec where
  id : Str
  ts : Str
  agentType : Str
  agentVersion : Str
  ecsVersion : Str
  event : Option Data := none
  host : Data
  container : Option Data := none
  orchestrator : Option Data := none
  pod : Option Data := none
  service : List Data := []
  file : Option Data := none
  fileAction : Option Data := none
  network : Option Data := none
  source : Option Data := none
  destination : Option Data := none
  process : Option Data := none
  user : Option Data := none
  tags : List Str := []

/-- The bytes hashed by `encodeID` (ecs.go:166-200). -/
def idInput (L : ELib) (fr : FlatRec) : List UInt8 :=
  let t := ms L fr "sf.type".toList
  let i := fun a => Filter.le64 (fr.getInt a .sysflow)
  Utf8.bytes (ms L fr "sf.node.id".toList) ++ Utf8.bytes (ms L fr "sf.container.id".toList) ++
  i .TS_INT ++ i .TID_INT ++ i .PROC_OID_CREATETS_INT ++ i .OPFLAGS_INT ++
  (if t = "FF".toList ∨ t = "FE".toList then Utf8.bytes (ms L fr "sf.file.oid".toList)
   else if t = "NF".toList then
     i .FL_NETW_SIP_INT ++ i .FL_NETW_SPORT_INT ++ i .FL_NETW_DIP_INT ++ i .FL_NETW_DPORT_INT ++ i .FL_NETW_PROTO_INT
   else if t = "KE".toList then
     i .K8SE_ACTION_INT ++ i .K8SE_KIND_INT ++ Utf8.bytes (ms L fr "sf.ke.message".toList)
   else [])

/-- `encodeID` (ecs.go:166-201). -/
def encodeID (L : ELib) (fr : FlatRec) : Str := L.hash (idInput L fr)

/-- `encodeEvent` (ecs.go:499-528). -/
def encodeEvent (L : ELib) (rec : Record) (category eventType action : Str) : Data :=
  let start := mi L rec.fr "sf.ts".toList
  let end0 := mi L rec.fr "sf.endts".toList
  let en := if end0 = 0 then start else end0
  let sfType := ms L rec.fr "sf.type".toList
  let sfRet := mi L rec.fr "sf.ret".toList
  let event : Data :=
    [("category".toList, .str category), ("type".toList, .str eventType), ("action".toList, .str action),
     ("sf_type".toList, .str sfType), ("start".toList, .str (L.iso start)), ("end".toList, .str (L.iso en)),
     ("duration".toList, .int (wrap64 (en - start)))]
  let event := event.set "kind".toList (.str (if rec.ctx.isAlert then "alert".toList else "event".toList))
  if sfType = "PE".toList ∨ sfType = "FE".toList then event.set "sf_ret".toList (.int sfRet) else event

/-- `encodeFileType` (ecs.go:565-582). -/
def encodeFileType (ft : Str) : Str :=
  if ft = "f".toList then "file".toList
  else if ft = "d".toList then "dir".toList
  else if ft = "u".toList then "socket".toList
  else if ft = "p".toList then "pipe".toList
  else "unknown".toList

/-- `encodeFile` (ecs.go:531-563). -/
def encodeFile (L : ELib) (fr : FlatRec) : Data :=
  let ft := ms L fr "sf.file.type".toList
  let fpath0 := ms L fr "sf.file.path".toList
  let fd := mi L fr "sf.file.fd".toList
  let pid := mi L fr "sf.proc.pid".toList
  let fileType := if has (opFlags fr) .symlink then "symlink".toList else encodeFileType ft
  let name := if fpath0 ≠ [] then Strings.base fpath0 else Decimal.formatInt fd
  let fpath := if fpath0 ≠ [] then fpath0
    else "/proc/".toList ++ Decimal.formatInt pid ++ "/fd/".toList ++ Decimal.formatInt fd
  let file : Data := [("type".toList, .str fileType)]
  if fileType = "dir".toList then file.set "directory".toList (.str fpath)
  else
    let file := (file.set "name".toList (.str name)).set "directory".toList (.str (L.dir fpath))
    if fpath ≠ name then file.set "path".toList (.str fpath) else file

/-- `encodeNetworkFlow` (ecs.go:204-240). -/
def encodeNetworkFlow (L : ELib) (rec : Record) (ecs : Rec) : Rec :=
  let fr := rec.fr
  let rbytes := mi L fr "sf.flow.rbytes".toList
  let rops := mi L fr "sf.flow.rops".toList
  let wbytes := mi L fr "sf.flow.wbytes".toList
  let wops := mi L fr "sf.flow.wops".toList
  let sip := ms L fr "sf.net.sip".toList
  let dip := ms L fr "sf.net.dip".toList
  let sport := mi L fr "sf.net.sport".toList
  let dport := mi L fr "sf.net.dport".toList
  let proto := mi L fr "sf.net.proto".toList
  { ecs with
    network := some [("bytes".toList, .int (wrap64 (rbytes + wbytes))),
      ("community_id".toList, .str (L.communityId sip dip (sport % 65536) (dport % 65536) (proto % 256))),
      ("iana_number".toList, .str (Decimal.formatInt proto)), ("protocol".toList, .str (L.protoName proto))]
    source := some [("ip".toList, .str sip), ("port".toList, .int sport), ("address".toList, .str sip),
      ("bytes".toList, .int wbytes), ("packets".toList, .int wops)]
    destination := some [("ip".toList, .str dip), ("port".toList, .int dport), ("address".toList, .str dip),
      ("bytes".toList, .int rbytes), ("packets".toList, .int rops)]
    event := some (encodeEvent L rec "network".toList "connection".toList
      ("network".toList ++ '-' :: "connection-traffic".toList)) }

/-- `encodeFileFlow` (ecs.go:243-269). -/
def encodeFileFlow (L : ELib) (rec : Record) (ecs : Rec) : Rec :=
  let fr := rec.fr
  let flags := opFlags fr
  let rbytes := mi L fr "sf.flow.rbytes".toList
  let rops := mi L fr "sf.flow.rops".toList
  let wbytes := mi L fr "sf.flow.wbytes".toList
  let wops := mi L fr "sf.flow.wops".toList
  let category := "file".toList
  let eventType := "access".toList
  let action := category ++ '-' :: eventType
  let action := if has flags .read = true ∧ (rbytes > 0 ∨ rops > 0) then action ++ '-' :: "read".toList else action
  let wr := has flags .write = true ∧ (wbytes > 0 ∨ wops > 0)
  let eventType := if wr then "change".toList else eventType
  let action := if wr then action ++ '-' :: "write".toList else action
  { ecs with
    event := some (encodeEvent L rec category eventType action)
    file := some (encodeFile L fr)
    fileAction := if rbytes > 0 ∨ rops > 0 ∨ wbytes > 0 ∨ wops > 0 then
        some [("bytes_read".toList, .int rbytes), ("read_ops".toList, .int rops), ("bytes_written".toList, .int wbytes),
          ("write_ops".toList, .int wops)]
      else ecs.fileAction }

/-- `encodeFileEvent` (ecs.go:272-298). -/
def encodeFileEvent (L : ELib) (rec : Record) (ecs : Rec) : Rec :=
  let flags := opFlags rec.fr
  let targetPath := ms L rec.fr "sf.file.newpath".toList
  let file := encodeFile L rec.fr
  let fileC := "file".toList
  let dirC := "directory".toList
  if has flags .mkdir then
    { ecs with file := some file, event := some (encodeEvent L rec dirC "creation".toList (dirC ++ '-' :: "create".toList)) }
  else if has flags .rmdir then
    { ecs with file := some file, event := some (encodeEvent L rec dirC "deletion".toList (dirC ++ '-' :: "delete".toList)) }
  else if has flags .unlink then
    { ecs with file := some file, event := some (encodeEvent L rec fileC "deletion".toList (fileC ++ '-' :: "delete".toList)) }
  else if has flags .symlink || has flags .link then
    { ecs with
      file := some (file.set "target_path".toList (.str targetPath))
      event := some (encodeEvent L rec fileC "change".toList (fileC ++ '-' :: "link".toList)) }
  else if has flags .rename then
    { ecs with
      file := some (file.set "target_path".toList (.str targetPath))
      event := some (encodeEvent L rec fileC "change".toList (fileC ++ '-' :: "rename".toList)) }
  else
    { ecs with file := some file, event := some (encodeEvent L rec fileC "change".toList (fileC ++ '-' :: "change".toList)) }

/-- `encodeProcessEvent` (ecs.go:301-324). -/
def encodeProcessEvent (L : ELib) (rec : Record) (ecs : Rec) : Rec :=
  let flags := opFlags rec.fr
  let pid := mi L rec.fr "sf.proc.pid".toList
  let tid := mi L rec.fr "sf.proc.tid".toList
  let category := "process".toList
  let eventType :=
    if has flags .exit then (if pid ≠ tid then "thread-exit".toList else "exit".toList)
    else if has flags .clone || has flags .exec then (if pid ≠ tid then "thread-start".toList else "start".toList)
    else if has flags .setuid then "change".toList
    else "start".toList
  { ecs with event := some (encodeEvent L rec category eventType (category ++ '-' :: eventType)) }

/-- `sfgo.K8sAction` values (assumption: these numbers; only their being distinct matters). -/
def ADDED : Int := 0
def DELETED : Int := 1
def MODIFIED : Int := 2
def ERROR : Int := 3

/-- `k8sActionToEventType` (ecs.go:326-340). Simplified: the code reads the section at position `SYSFLOW_SRC` (0) of the
record without searching for the source, and panics if it has no such section; the flattener always puts the SysFlow section
there. -/
def k8sActionToEventType (fr : FlatRec) : Str :=
  let a := fr.getInt .K8SE_ACTION_INT .sysflow
  if a = ADDED then "creation".toList
  else if a = DELETED then "deletion".toList
  else if a = MODIFIED then "change".toList
  else if a = ERROR then "error".toList
  else "info".toList

/-- `encodeK8sEvent` (ecs.go:343-361). -/
def encodeK8sEvent (L : ELib) (rec : Record) (ecs : Rec) : Rec :=
  let action := ms L rec.fr "sf.ke.action".toList
  let msgStr := ms L rec.fr "sf.ke.message".toList
  { ecs with
    event := some ((encodeEvent L rec "orchestration".toList (k8sActionToEventType rec.fr) action).set "original".toList (.str msgStr))
    orchestrator := some [("namespace".toList, .str (L.msg msgStr "items.0.namespace".toList)),
      ("resource".toList, .obj [("type".toList, .str (L.lower (L.msg msgStr "kind".toList))),
        ("name".toList, .str (L.msg msgStr "items.0.name".toList))]),
      ("type".toList, .str "kubernetes".toList)] }

/-- `encodeOrchestrator` (ecs.go:364-373). -/
def encodeOrchestrator (L : ELib) (fr : FlatRec) : Data :=
  [("namespace".toList, .str (ms L fr "sf.pod.namespace".toList)),
   ("resource".toList, .obj [("type".toList, .str "pod".toList), ("name".toList, .str (ms L fr "sf.pod.name".toList))]),
   ("type".toList, .str "kubernetes".toList)]

/-- `utils.ToIPStrArray` (utils.go:64-70); a nil pointer panics. -/
def ipStrs (L : ELib) (l : List Int) : List Str := l.map (fun ip => L.ipStr (wrap32 ip))

/-- `encodePortList` (ecs.go:409-420). -/
def encodePort (p : Port) : Data :=
  [("port".toList, .int p.port), ("targetport".toList, .int p.targetPort), ("nodeport".toList, .int p.nodePort),
   ("proto".toList, .str p.proto)]

/-- One entry of `encodeService` (ecs.go:395-406). -/
def encodeService (L : ELib) (s : Service) : Data :=
  [("id".toList, .str s.id), ("name".toList, .str s.name), ("namespace".toList, .str s.nspace),
   ("clusterip".toList, .strs (ipStrs L s.clusterIP)), ("ports".toList, .objs (s.portList.map encodePort))]

/-- `encodePod` (ecs.go:376-392). The comparison of `services` with `sfgo.Zeros.Any` is one of a pointer with a nil interface,
which is always unequal, so a nil pointer panics as the addresses do. -/
def encodePod (L : ELib) (fr : FlatRec) (ecs : Rec) : Option Rec :=
  match mia L fr "sf.pod.hostip+".toList, mia L fr "sf.pod.internalip+".toList, msa L fr "sf.pod.services+".toList with
  | some hs, some is, some ss =>
    some { ecs with
      pod := some [("ts".toList, .str (L.iso (mi L fr "sf.pod.ts".toList))), ("id".toList, .str (ms L fr "sf.pod.id".toList)),
        ("name".toList, .str (ms L fr "sf.pod.name".toList)), ("nodename".toList, .str (ms L fr "sf.pod.nodename".toList)),
        ("namespace".toList, .str (ms L fr "sf.pod.namespace".toList)), ("hostip".toList, .strs (ipStrs L hs)),
        ("internalip".toList, .strs (ipStrs L is)), ("restartcnt".toList, .int (mi L fr "sf.pod.restartcnt".toList))]
      service := if ss.length > 0 then ss.map (encodeService L) else ecs.service }
  | _, _, _ => none

/-- `encodeContainer` (ecs.go:423-443). -/
def encodeContainer (L : ELib) (fr : FlatRec) : Option Data :=
  let cid := ms L fr "sf.container.id".toList
  if cid ≠ [] then
    let container : Data :=
      [("id".toList, .str cid), ("runtime".toList, .str (ms L fr "sf.container.type".toList)),
       ("sf_privileged".toList, .bool (mi L fr "sf.container.privileged".toList != 0)),
       ("name".toList, .str (ms L fr "sf.container.name".toList))]
    let imageid := ms L fr "sf.container.imageid".toList
    some (if imageid ≠ [] then
        container.set "image".toList (.obj [("id".toList, .str imageid), ("name".toList, .str (ms L fr "sf.container.image".toList))])
      else container)
  else none

/-- `encodeHost` (ecs.go:446-451). -/
def encodeHost (L : ELib) (fr : FlatRec) : Data :=
  [("id".toList, .str (ms L fr "sf.node.id".toList)), ("ip".toList, .str (ms L fr "sf.node.ip".toList))]

/-- `encodeUser` (ecs.go:454-472). -/
def encodeUser (L : ELib) (fr : FlatRec) : Data :=
  let gname := ms L fr "sf.proc.group".toList
  let group : Data := [("id".toList, .int (mi L fr "sf.proc.gid".toList))]
  let group := if gname ≠ [] then group.set "name".toList (.str gname) else group
  let uname := ms L fr "sf.proc.user".toList
  let user : Data := [("group".toList, .obj group), ("id".toList, .int (mi L fr "sf.proc.uid".toList))]
  if uname ≠ [] then user.set "name".toList (.str uname) else user

/-- `encodeProcess` (ecs.go:475-496). -/
def encodeProcess (L : ELib) (fr : FlatRec) : Data :=
  let exe := ms L fr "sf.proc.exe".toList
  let process : Data :=
    [("executable".toList, .str exe), ("args".toList, .str (ms L fr "sf.proc.args".toList)),
     ("command_line".toList, .str (ms L fr "sf.proc.cmdline".toList)), ("pid".toList, .int (mi L fr "sf.proc.pid".toList)),
     ("start".toList, .str (L.iso (mi L fr "sf.proc.createts".toList))), ("name".toList, .str (Strings.base exe)),
     ("thread".toList, .obj [("id".toList, .int (mi L fr "sf.proc.tid".toList))])]
  let pexe := ms L fr "sf.pproc.exe".toList
  let parent : Data :=
    [("executable".toList, .str pexe), ("args".toList, .str (ms L fr "sf.pproc.args".toList)),
     ("command_line".toList, .str (ms L fr "sf.pproc.cmdline".toList)), ("pid".toList, .int (mi L fr "sf.pproc.pid".toList)),
     ("start".toList, .str (L.iso (mi L fr "sf.pproc.createts".toList))), ("name".toList, .str (Strings.base pexe))]
  process.set "parent".toList (.obj parent)

/-- `strings.Join(ss, sep)` (Go standard library). -/
def joinSep (sep : Str) : List Str → Str
  | [] => []
  | [w] => w
  | w :: ws => w ++ sep ++ joinSep sep ws

/-- `utils.Max` (utils.go:40-45). -/
def max' (x y : Nat) : Nat := if x < y then y else x

/-- The loop over the rules (ecs.go:143-151): reasons, tags and priority. Tags of rules are lists of strings (`extracTags`,
ecs.go:584-595; other types are not modelled). -/
def ruleLoop : List Str → List Str → Nat → List Policy.RuleInfo → List Str × List Str × Nat
  | reasons, tags, prio, [] => (reasons, tags, prio)
  | reasons, tags, prio, r :: rs => ruleLoop (reasons ++ [r.name]) (tags ++ r.tags.flatten) (max' prio r.priority.toNat) rs

/-- The record before rules and tags (ecs.go:106-137). -/
def encodeBase (c : Conf) (L : ELib) (rec : Record) : Option Rec :=
  let fr := rec.fr
  let ecs : Rec :=
    { id := encodeID L fr, host := encodeHost L fr, agentVersion := c.version, agentType := "SysFlow".toList,
      ecsVersion := c.ecsVersion, ts := L.iso (mi L fr "sf.ts".toList) }
  let sfType := ms L fr "sf.type".toList
  let r1 : Option Rec :=
    if sfType ≠ "KE".toList then
      let ecs := { ecs with container := encodeContainer L fr }
      let r : Option Rec :=
        if ms L fr "sf.pod.id".toList ≠ [] then encodePod L fr { ecs with orchestrator := some (encodeOrchestrator L fr) }
        else some ecs
      r.map (fun ecs => { ecs with process := some (encodeProcess L fr), user := some (encodeUser L fr) })
    else some { ecs with orchestrator := some (encodeOrchestrator L fr) }
  r1.map (fun ecs =>
    if sfType = "NF".toList then encodeNetworkFlow L rec ecs
    else if sfType = "FF".toList then encodeFileFlow L rec ecs
    else if sfType = "FE".toList then encodeFileEvent L rec ecs
    else if sfType = "PE".toList then encodeProcessEvent L rec ecs
    else if sfType = "KE".toList then encodeK8sEvent L rec ecs
    else ecs)

/-- `encode` (ecs.go:105-161). Assigning to the event of a record of an unknown type (nil map) panics. -/
def encode (c : Conf) (L : ELib) (rec : Record) : Option Rec :=
  match encodeBase c L rec with
  | none => none
  | some ecs =>
    let tags := rec.ctx.getTags
    let rules := rec.ctx.getRules
    if rules.length > 0 then
      match ecs.event with
      | none => none
      | some ev =>
        let r := ruleLoop [] tags Policy.Priority.low.toNat rules
        let ecs := { ecs with
          event := some ((ev.set "reason".toList (.str (joinSep ", ".toList r.1))).set "severity".toList (.int r.2.2)) }
        some (if r.2.1.length > 0 then { ecs with tags := r.2.1 } else ecs)
    else some (if tags.length > 0 then { ecs with tags := tags } else ecs)

end Verif.Ecs
