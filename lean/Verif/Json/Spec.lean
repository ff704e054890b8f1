import Verif.Json.Reader
import Verif.FlatRecord.Ops
/-
Specification of the exported JSON document of a record (what a user of the JSON schema expects), independent of how
the encoder walks its tables.
-/
namespace Verif.Json.Spec
open Verif.Decimal (Str)
open Verif.FlatRecord
open Verif.SysFlow (Service Port Proc)
open Verif.Json

/-- JSON text, number and text without bounding quotes. -/
def text (s : Str) : JVal := .str (cps s)
def num (n : Int) : JVal := .num (Utf8.bytes (Decimal.formatInt n))
def field (s : Str) : JVal := text (Strings.trimQuotes s)

/-- Dotted notation of an IPv4 address stored in network byte order in the low 32 bits. -/
def dotted (ip : Int) : Str :=
  Decimal.formatInt (ip % 256) ++ '.' :: Decimal.formatInt (ip / 256 % 256) ++ '.' ::
    Decimal.formatInt (ip / 65536 % 256) ++ '.' :: Decimal.formatInt (ip / 16777216 % 256)

/-- Executable and arguments separated by a space. -/
def commandLine (p : Proc) : Str :=
  let exe := Strings.trimQuotes p.exe
  let args := Strings.trimQuotes p.exeArgs
  if args = [] then exe else exe ++ ' ' :: args

def port (p : Port) : JVal :=
  .obj [(cps "port".toList, num p.port), (cps "targetport".toList, num p.targetPort),
    (cps "nodeport".toList, num p.nodePort), (cps "proto".toList, text p.proto)]

def service (s : Service) : JVal :=
  .obj [(cps "id".toList, text s.id), (cps "name".toList, text s.name), (cps "namespace".toList, text s.nspace),
    (cps "clusterIP".toList, .arr (s.clusterIP.map (fun ip => text (dotted ip)))),
    (cps "ports".toList, .arr (s.portList.map port))]

/-- The parent in a chain of processes. -/
def parent : List Proc → Option Proc
  | _ :: p :: _ => some p
  | _ => none

/-- What is written for text attributes of an unknown parent (the schema would call for an empty text; the code
writes two quote characters). -/
def noText : JVal := .str [0x22, 0x22]

def parentText (pt : List Proc) (f : Proc → Str) : JVal :=
  match parent pt with
  | some p => text (f p)
  | none => noText
def parentInt (pt : List Proc) (f : Proc → Int) : JVal :=
  match parent pt with
  | some p => num (f p)
  | none => num 0
def parentBool (pt : List Proc) (f : Proc → Bool) : JVal :=
  match parent pt with
  | some p => .bool (f p)
  | none => .bool false

/-- Attributes of the ancestor chain `pt` (the process first). -/
def ancestry (pt : List Proc) : RecAttr → JVal
  | .PProcName => parentText pt (fun p => Strings.trimQuotes (Strings.base p.exe))
  | .PProcExe => parentText pt (fun p => Strings.trimQuotes p.exe)
  | .PProcArgs => parentText pt (fun p => Strings.trimQuotes p.exeArgs)
  | .PProcUID => parentInt pt (fun p => p.uid)
  | .PProcUser => parentText pt (fun p => Strings.trimQuotes p.userName)
  | .PProcGID => parentInt pt (fun p => p.gid)
  | .PProcGroup => parentText pt (fun p => Strings.trimQuotes p.groupName)
  | .PProcTTY => parentBool pt (fun p => p.tty)
  | .PProcEntry => parentBool pt (fun p => p.entry)
  | .PProcCmdLine => parentText pt commandLine
  | .ProcAName => .arr (pt.map (fun p => field (Strings.base p.exe)))
  | .ProcAExe => .arr (pt.map (fun p => field p.exe))
  | .ProcACmdLine => .arr (pt.map (fun p => text (commandLine p)))
  | .ProcAPID => .arr (pt.map (fun p => num p.oid.hpid))

/-- The fields shown as Booleans although stored as integers. -/
def isFlagField (n : Str) : Bool := n == "sf.proc.tty".toList || n == "sf.proc.entry".toList

/-- The value a scalar mapper gives for a record, as JSON. -/
def scalar : FVal → JVal
  | .str s => field s
  | .i64 n => num n
  | .i32 n => num n
  | .bool b => .bool b
  | _ => .null

/-- The JSON value of an exported field of a record: scalar fields have the value rule conditions see, list-valued
fields are arrays. `sf.file.newpath` is the stored path (symbolic link notation included). `splitIPs` tells whether
`sf.net.ip` is written as two addresses or as one text. -/
def value (L : Lib) (splitIPs : Bool) (fr : FlatRec) (e : FieldEntry) : JVal :=
  match e.map with
  | .opFlags => .arr ((L.opFlags (wrap32 (fr.getInt .OPFLAGS_INT .sysflow)) (fr.getInt .SF_REC_TYPE .sysflow)).map text)
  | .openFlags a => .arr ((L.openFlags (fr.getInt a .sysflow)).map text)
  | .port as => .arr (as.map (fun a => num (fr.getInt a .sysflow)))
  | .ip [a] => field (L.ipStr (wrap32 (fr.getInt a .sysflow)))
  | .ip as =>
    if splitIPs then .arr (as.map (fun a => text (dotted (fr.getInt a .sysflow))))
    else .arr [text (Strings.join ',' (as.map (fun a => L.ipStr (wrap32 (fr.getInt a .sysflow)))))]
  | .intArray a => .arr (((fr.getIntArray a .sysflow).getD []).map (fun ip => text (dotted ip)))
  | .svcArray a => .arr (((fr.getSvcArray a .sysflow).getD []).map service)
  | .cached a => ancestry (fr.ptree.getD []) a
  | .int a => if isFlagField e.name then .bool (fr.getInt a .sysflow == 1) else num (fr.getInt a .sysflow)
  | .path a => if e.name = "sf.file.newpath".toList then field (fr.getStr a .sysflow) else scalar (e.map.run L fr)
  | _ => scalar (e.map.run L fr)

/-! ### The document -/

/-- Components of a field name. -/
def parts (e : FieldEntry) : List Str := Strings.split '.' e.name

/-- The key of a field: the last component of its name (the suffix `+` marks the array variant of a field). -/
def key (e : FieldEntry) : Str :=
  let n := (parts e).getLastD []
  if Strings.hasSuffix n "+".toList then n.dropLast else n

/-- Insertion sort by name (lexicographic in the character codes). -/
def insertByName (a : FieldEntry) : List FieldEntry → List FieldEntry
  | [] => [a]
  | b :: bs => if cps a.name < cps b.name then a :: b :: bs else b :: insertByName a bs
def byName (l : List FieldEntry) : List FieldEntry := l.foldr insertByName []

/-- The exported fields outside sections, and those of a section, by name. -/
def general : List FieldEntry := byName (exportedMappers.filter (fun e => (parts e).length == 2))
def fieldsOf (s : SectType) : List FieldEntry :=
  byName (exportedMappers.filter (fun e => (parts e).length == 3 && e.sect == s))

/-- Sections in the order of the document. -/
def order : List SectType :=
  [.SectCont, .SectFile, .SectFlow, .SectK8sEvt, .SectMeta, .SectNet, .SectNode, .SectPod, .SectPProc, .SectProc]

def title : SectType → Str
  | .SectCont => "container".toList
  | .SectFile => "file".toList
  | .SectFlow => "flow".toList
  | .SectK8sEvt => "k8s".toList
  | .SectMeta => "meta".toList
  | .SectNet => "net".toList
  | .SectNode => "node".toList
  | .SectPod => "pod".toList
  | .SectPProc => "pproc".toList
  | .SectProc => "proc".toList
  | .SectNone => []

/-- The kind of a record: "PE", "FE", "FF", "NF", "KE". -/
def kind (L : Lib) (fr : FlatRec) : Str := Strings.trimQuotes (L.recType (fr.getInt .SF_REC_TYPE .sysflow))

/-- Has the record a pod, container, parent? -/
def hasPod (fr : FlatRec) : Prop := Strings.trimQuotes (fr.getStr .POD_ID_STR .sysflow) ≠ []
def hasContainer (fr : FlatRec) : Prop := Strings.trimQuotes (fr.getStr .CONT_ID_STR .sysflow) ≠ []
def hasParent (fr : FlatRec) : Prop := fr.getInt .PROC_POID_HPID_INT .sysflow ≠ 0

/-- Which sections a record has. -/
def Present (L : Lib) (fr : FlatRec) (s : SectType) : Prop :=
  let k := kind L fr
  match s with
  | .SectNode => True
  | .SectMeta => True
  | .SectK8sEvt => k = "KE".toList
  | .SectProc => k ≠ "KE".toList
  | .SectPProc => k ≠ "KE".toList ∧ hasParent fr
  | .SectCont => k ≠ "KE".toList ∧ hasContainer fr
  | .SectPod => k ≠ "KE".toList ∧ hasPod fr
  | .SectFile => k = "FF".toList ∨ k = "FE".toList
  | .SectFlow => k = "FF".toList ∨ k = "NF".toList
  | .SectNet => k = "NF".toList
  | .SectNone => False

instance (L : Lib) (fr : FlatRec) (s : SectType) : Decidable (Present L fr s) := by
  unfold Present hasPod hasContainer hasParent
  cases s <;> simp only <;> infer_instance

def member (L : Lib) (splitIPs : Bool) (fr : FlatRec) (e : FieldEntry) : List Nat × JVal :=
  (cps (key e), value L splitIPs fr e)

def sectionMember (L : Lib) (splitIPs : Bool) (fr : FlatRec) (s : SectType) : List Nat × JVal :=
  (cps (title s), .obj ((fieldsOf s).map (member L splitIPs fr)))

def policy (r : Policy.RuleInfo) : JVal :=
  .obj [(cps "id".toList, text r.name), (cps "desc".toList, text r.desc), (cps "priority".toList, num r.priority.toNat)]

/-- All tags: those of the record, then those of the rules in order. -/
def allTags (c : FlatRecord.Ctx) : List Str := c.getTags ++ c.getRules.flatMap (fun r => r.tags.flatten)

/-- The document of a record. -/
def document (L : Lib) (splitIPs : Bool) (version : Bytes) (rec : Record) : JVal :=
  .obj ((cps "version".toList, .num version) ::
    (general.map (member L splitIPs rec.fr) ++
     (order.filter (fun s => Present L rec.fr s)).map (sectionMember L splitIPs rec.fr) ++
     (if rec.ctx.getRules = [] then [] else [(cps "policies".toList, .arr (rec.ctx.getRules.map policy))]) ++
     (if allTags rec.ctx = [] then [] else [(cps "tags".toList, .arr ((allTags rec.ctx).map text))])))

/-! ### Assumptions on the dependency -/

/-- Characters that need no escaping. -/
def PlainText (s : Str) : Prop :=
  ∀ c ∈ s, 32 ≤ c.toNat ∧ c.toNat < 128 ∧ c ≠ '"' ∧ c ≠ '&' ∧ c ≠ '<' ∧ c ≠ '>' ∧ c ≠ '\\'

/-- The `sfgo` functions give flag names without special characters, and only network flows are named "NF". -/
structure LibOk (L : Lib) : Prop where
  opFlags : ∀ n t, ∀ s ∈ L.opFlags n t, PlainText s
  openFlags : ∀ n, ∀ s ∈ L.openFlags n, PlainText s
  netFlow : ∀ n, Strings.trimQuotes (L.recType n) = "NF".toList ↔ n = NET_FLOW

/-- The schema version is a JSON number. -/
def VersionOk (v : Bytes) : Prop := (∀ c ∈ v, isNumChar c = true) ∧ isNumber v = true

/-- The records for which the encoder writes well-formed JSON: Kubernetes events; otherwise the ancestor chain is
known, and a pod, if present, has at most one address of each kind, at most one service, and that service at most one
address. -/
def Clean (L : Lib) (fr : FlatRec) : Prop :=
  kind L fr = "KE".toList ∨
  (fr.ptree ≠ none ∧
    (hasPod fr → ∃ hs is ss,
      fr.getIntArray .POD_HOSTIP_ANY .sysflow = some hs ∧ hs.length ≤ 1 ∧
      fr.getIntArray .POD_INTERNALIP_ANY .sysflow = some is ∧ is.length ≤ 1 ∧
      fr.getSvcArray .POD_SERVICES_ANY .sysflow = some ss ∧ ss.length ≤ 1 ∧
      ∀ s ∈ ss, s.clusterIP.length ≤ 1))

end Verif.Json.Spec
