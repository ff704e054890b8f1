import Verif.Json.Escape
import Verif.FlatRecord.Ops
/-
The JSON encoder of the exporter.
Source: /repo/core/exporter/encoders/json.go:77-677, jsonconstants.go, constants.go;
field order: /repo/core/policyengine/source/flatrecord/fieldmapper.go:218-246.
Everything the encoder writes through `jwriter` is a byte string here; `none` is a run-time panic.
-/
namespace Verif.Json
open Verif.Decimal (Str)
open Verif.FlatRecord
open Verif.SysFlow (Service Port Proc)

/-- The bytes of a text constant. -/
def tx (s : Str) : Bytes := Utf8.bytes s

def cCOMMA : UInt8 := 0x2C
def cQUOTE : UInt8 := 0x22
def cBCURLY : UInt8 := 0x7B
def cECURLY : UInt8 := 0x7D
def cBSQ : UInt8 := 0x5B
def cESQ : UInt8 := 0x5D
def cPERIOD : UInt8 := 0x2E
def cSPACE : UInt8 := 0x20
/-- `QUOTE_COLON` (jsonconstants.go:36). -/
def quoteColon : Bytes := [0x22, 0x3A]
/-- `QUOTE_COLON_CURLY` (jsonconstants.go:37). -/
def quoteColonCurly : Bytes := [0x22, 0x3A, 0x7B]
/-- `END_CURLY_COMMA` (jsonconstants.go:39). -/
def endCurlyComma : Bytes := [0x7D, 0x2C]
/-- `EMPTY_STRING` (jsonconstants.go:49): the Go constant `"\"\""`, i.e. a text of two quotes. -/
def EMPTY_STRING : Str := "\"\"".toList

/-- Parameters: the abstract library functions, `config.JSONSchemaVersion` (written raw), and whether the `sfgo`
constants `FL_NETW_SIP_INT` and `FL_FILE_OPENFLAGS_INT` are the same number, as the code of json.go:528-535
suggests (the dependency is not available; the theorems hold either way). -/
structure Env where
  L : Lib
  version : Bytes
  sipAlias : Bool

/-- `Writer.Int64`/`Writer.Int32`. -/
def int (n : Int) : Bytes := tx (Decimal.formatInt n)
/-- `Writer.Bool`. -/
def bool (b : Bool) : Bytes := if b then tTrue else tFalse
/-- `Writer.String`. -/
def string (s : Str) : Bytes := quote (tx s)

/-! ### Values -/

/-- The loop body of `mapStrArray` (json.go:373-384) on the remaining elements; note that the elements are written
without escaping. -/
def rawElems : List Str → Bytes
  | [] => []
  | [s] => cQUOTE :: tx s ++ [cQUOTE]
  | s :: ss => (cQUOTE :: tx s ++ [cQUOTE]) ++ cCOMMA :: rawElems ss

/-- `mapStrArray` (json.go:373-386). -/
def mapStrArray (ss : List Str) : Bytes := cBSQ :: rawElems ss ++ [cESQ]

/-- `mapOpFlags` (json.go:366-371). -/
def mapOpFlags (e : Env) (fr : FlatRec) (a : IAttr) : Bytes :=
  mapStrArray (e.L.opFlags (wrap32 (fr.getInt a .sysflow)) (fr.getInt .SF_REC_TYPE .sysflow))

/-- `ip >> k & 0xFF` on an `int64`. -/
def octet (ip : Int) (k : Nat) : Int := (ip / (2 ^ k : Nat)) % 256

/-- `mapIPStr` (json.go:388-396). -/
def mapIPStr (ip : Int) : Bytes :=
  int (octet ip 0) ++ cPERIOD :: int (octet ip 8) ++ cPERIOD :: int (octet ip 16) ++ cPERIOD :: int (octet ip 24)

/-- `mapIPs` (json.go:398-410). -/
def mapIPs (fr : FlatRec) : Bytes :=
  cBSQ :: cQUOTE :: mapIPStr (fr.getInt .FL_NETW_SIP_INT .sysflow) ++ cQUOTE :: cCOMMA :: cQUOTE ::
    mapIPStr (fr.getInt .FL_NETW_DIP_INT .sysflow) ++ [cQUOTE, cESQ]

/-- `mapIPArray` (json.go:412-420): no separator between the elements. -/
def mapIPArray (ips : List Int) : Bytes :=
  cBSQ :: ips.flatMap (fun ip => cQUOTE :: mapIPStr ip ++ [cQUOTE]) ++ [cESQ]

/-- `mapOpenFlags` (json.go:422-425) with the attribute already read from the record. -/
def mapOpenFlags (e : Env) (flags : Int) : Bytes := mapStrArray (e.L.openFlags flags)

/-- `mapPorts` (json.go:427-435). -/
def mapPorts (fr : FlatRec) : Bytes :=
  cBSQ :: int (fr.getInt .FL_NETW_SPORT_INT .sysflow) ++ cCOMMA :: int (fr.getInt .FL_NETW_DPORT_INT .sysflow) ++ [cESQ]

/-- `writeStrField` (json.go:437-442). -/
def writeStrField (name val : Str) : Bytes := cQUOTE :: tx name ++ quoteColon ++ string val
/-- `writeIntField` (json.go:444-449). -/
def writeIntField (name : Str) (val : Int) : Bytes := cQUOTE :: tx name ++ quoteColon ++ int val
/-- `writeIntArrayField` (json.go:451-456). -/
def writeIntArrayField (name : Str) (val : List Int) : Bytes := cQUOTE :: tx name ++ quoteColon ++ mapIPArray val

/-- The body of an entry of `mapPortList` between the braces (json.go:465-471). -/
def portBody (p : Port) : Bytes :=
  writeIntField "port".toList p.port ++ cCOMMA :: writeIntField "targetport".toList p.targetPort ++
    cCOMMA :: writeIntField "nodeport".toList p.nodePort ++ cCOMMA :: writeStrField "proto".toList p.proto

/-- The loop of `mapPortList` (json.go:463-478). -/
def portElems : List Port → Bytes
  | [] => []
  | [p] => cBCURLY :: portBody p ++ [cECURLY]
  | p :: ps => (cBCURLY :: portBody p ++ endCurlyComma) ++ portElems ps

/-- `mapPortList` (json.go:458-480). -/
def mapPortList (ps : List Port) : Bytes :=
  cQUOTE :: tx "ports".toList ++ quoteColon ++ cBSQ :: portElems ps ++ [cESQ]

/-- One entry of `mapSvcArray` (json.go:484-495). -/
def svcObj (s : Service) : Bytes :=
  cBCURLY :: writeStrField "id".toList s.id ++ cCOMMA :: writeStrField "name".toList s.name ++
    cCOMMA :: writeStrField "namespace".toList s.nspace ++ cCOMMA :: writeIntArrayField "clusterIP".toList s.clusterIP ++
    cCOMMA :: mapPortList s.portList ++ [cECURLY]

/-- `mapSvcArray` (json.go:481-497): no separator between the entries. -/
def mapSvcArray (ss : List Service) : Bytes := cBSQ :: ss.flatMap svcObj ++ [cESQ]

/-- The command line written between quotes (json.go:613-626, 649-661). -/
def cmdLineJSON (p : Proc) : Bytes :=
  let exe := Strings.trimQuotes p.exe
  let args := Strings.trimQuotes p.exeArgs
  cQUOTE :: escape (tx exe) ++ (if args.length > 0 then cSPACE :: escape (tx args) else []) ++ [cQUOTE]

/-- A list of values with a comma after all but the last (json.go:628-636 and the like). -/
def sepElems {A : Type} (f : A → Bytes) : List A → Bytes
  | [] => []
  | [a] => f a
  | a :: as => f a ++ cCOMMA :: sepElems f as

/-- `if len(ptree) > 1 { w(ptree[1]) } else { d }`. -/
def parentOr (w : Proc → Bytes) (d : Bytes) : List Proc → Bytes
  | _ :: p :: _ => w p
  | _ => d

/-- `setCachedValueToJSON` (json.go:556-677): nothing is written when `Ptree` is nil. -/
def cachedJSON (fr : FlatRec) (a : RecAttr) : Bytes :=
  match fr.ptree with
  | none => []
  | some pt =>
    match a with
    | .PProcName => parentOr (fun p => string (Strings.trimQuotes (Strings.base p.exe))) (string EMPTY_STRING) pt
    | .PProcExe => parentOr (fun p => string (Strings.trimQuotes p.exe)) (string EMPTY_STRING) pt
    | .PProcArgs => parentOr (fun p => string (Strings.trimQuotes p.exeArgs)) (string EMPTY_STRING) pt
    | .PProcUID => parentOr (fun p => int p.uid) (int 0) pt
    | .PProcUser => parentOr (fun p => string (Strings.trimQuotes p.userName)) (string EMPTY_STRING) pt
    | .PProcGID => parentOr (fun p => int p.gid) (int 0) pt
    | .PProcGroup => parentOr (fun p => string (Strings.trimQuotes p.groupName)) (string EMPTY_STRING) pt
    | .PProcTTY => parentOr (fun p => bool p.tty) (bool false) pt
    | .PProcEntry => parentOr (fun p => bool p.entry) (bool false) pt
    | .PProcCmdLine => parentOr cmdLineJSON (string EMPTY_STRING) pt
    | .ProcAName => cBSQ :: sepElems (fun p => string (Strings.trimQuotes (Strings.base p.exe))) pt ++ [cESQ]
    | .ProcAExe => cBSQ :: sepElems (fun p => string (Strings.trimQuotes p.exe)) pt ++ [cESQ]
    | .ProcACmdLine => cBSQ :: sepElems cmdLineJSON pt ++ [cESQ]
    | .ProcAPID => cBSQ :: sepElems (fun p => int p.oid.hpid) pt ++ [cESQ]

/-- `fv.Entry.AuxAttr` (set for the cached attributes only; otherwise the zero value, which is not used). -/
def auxAttr (fv : FieldEntry) : RecAttr :=
  match fv.map with
  | .cached a => a
  | _ => .PProcName

/-- `r.GetStr(fv.Entry.FlatIndex, ...)`; an index of another array is not modelled (panic). -/
def idxStr (fr : FlatRec) : FlatIdx → Option Str
  | .str a => some (fr.getStr a .sysflow)
  | _ => none
/-- `r.GetInt(fv.Entry.FlatIndex, ...)`; likewise. -/
def idxInt (fr : FlatRec) : FlatIdx → Option Int
  | .int a => some (fr.getInt a .sysflow)
  | _ => none

/-- The `MapArrayStr`/`MapArrayInt` case of `MapJSON` (json.go:522-549). -/
def mapArray (e : Env) (fr : FlatRec) (fv : FieldEntry) : Option Bytes :=
  if fv.flatIndex = .int .OPFLAGS_INT then some (mapOpFlags e fr .OPFLAGS_INT)
  else if fv.flatIndex = .int .FL_FILE_OPENFLAGS_INT ∨ (e.sipAlias = true ∧ fv.flatIndex = .int .FL_NETW_SIP_INT) then
    if fr.getInt .SF_REC_TYPE .sysflow = NET_FLOW then some (mapIPs fr)
    else (idxInt fr fv.flatIndex).map (mapOpenFlags e)
  else if fv.flatIndex = .int .FL_NETW_SPORT_INT then some (mapPorts fr)
  else if fv.flatIndex = .any .POD_HOSTIP_ANY then (fr.getIntArray .POD_HOSTIP_ANY .sysflow).map mapIPArray
  else if fv.flatIndex = .any .POD_INTERNALIP_ANY then (fr.getIntArray .POD_INTERNALIP_ANY .sysflow).map mapIPArray
  else match fv.map.run e.L fr with
    | .str v => some (cBSQ :: string v ++ [cESQ])
    | _ => none

/-- `MapJSON` (json.go:500-553). -/
def mapJSON (e : Env) (fr : FlatRec) (fv : FieldEntry) : Option Bytes :=
  if fv.flatIndex = .A_IDS ∨ fv.flatIndex = .PARENT_IDS then some (cachedJSON fr (auxAttr fv))
  else match fv.mtype with
    | .MapStrVal => (idxStr fr fv.flatIndex).map (fun v => string (Strings.trimQuotes v))
    | .MapIntVal => (idxInt fr fv.flatIndex).map int
    | .MapBoolVal => (idxInt fr fv.flatIndex).map (fun n => bool (n == 1))
    | .MapSpecialStr =>
      match fv.map.run e.L fr with
      | .str v => some (string (Strings.trimQuotes v))
      | _ => none
    | .MapSpecialInt =>
      match fv.map.run e.L fr with
      | .i64 v => some (int v)
      | _ => none
    | .MapSpecialBool =>
      match fv.map.run e.L fr with
      | .bool v => some (bool v)
      | _ => none
    | .MapArrayStr => mapArray e fr fv
    | .MapArrayInt => mapArray e fr fv
    | .MapArraySvc =>
      match fv.flatIndex with
      | .any a => (fr.getSvcArray a .sysflow).map mapSvcArray
      | _ => none

/-! ### Field order -/

/-- `FieldSects`: `strings.Split(name, ".")` (fieldmapper.go:234). -/
def fieldSects (fv : FieldEntry) : List Str := Strings.split '.' fv.name

/-- `strings.Compare(a, b) < 0` (the names are ASCII). -/
def strLt : Str → Str → Bool
  | _, [] => false
  | [], _ :: _ => true
  | a :: as, b :: bs => a.toNat < b.toNat || (a.toNat == b.toNat && strLt as bs)

/-- The order of `FieldValues` (fieldmapper.go:239-245). -/
def fieldLt (a b : FieldEntry) : Bool :=
  let ka := (fieldSects a).length
  let kb := (fieldSects b).length
  if ka = kb then strLt a.name b.name else ka < kb

def insertField (a : FieldEntry) : List FieldEntry → List FieldEntry
  | [] => [a]
  | b :: bs => if fieldLt a b then a :: b :: bs else b :: insertField a bs

/-- `FieldValues` (fieldmapper.go:226-246): the exported mappers sorted. The names are distinct, so the result does
not depend on the iteration order of the Go map nor on the sorting algorithm. -/
def fieldValues : List FieldEntry := exportedMappers.foldr insertField []

/-! ### The record -/

/-- `name[:len(name)-1]` if it ends in `+` (json.go:350-355). -/
def attrName (n : Str) : Str := if Strings.hasSuffix n "+".toList then n.dropLast else n

/-- `writeAttribute` (json.go:348-358); `fieldID` is in range wherever it is called. -/
def writeAttribute (e : Env) (fr : FlatRec) (fv : FieldEntry) (fieldID : Nat) : Option Bytes :=
  match (fieldSects fv)[fieldID]? with
  | none => none
  | some n => (mapJSON e fr fv).map (fun v => cQUOTE :: tx (attrName n) ++ quoteColon ++ v)

/-- `writeSectionBegin` (json.go:360-364). -/
def writeSectionBegin (s : Str) : Bytes := cQUOTE :: tx s ++ quoteColonCurly

/-- Names of record types (`sfgo.TyKEStr`, ...). -/
def TyKE : Str := "KE".toList
def TyNF : Str := "NF".toList
def TyFF : Str := "FF".toList
def TyFE : Str := "FE".toList

/-- The values computed before the loop (json.go:83-90). -/
structure Hdr where
  sftype : Str
  pprocExists : Bool
  ctExists : Bool
  pdExists : Bool

def hdr (e : Env) (fr : FlatRec) : Hdr where
  sftype := mapStr e.L getMappers "sf.type".toList fr
  pprocExists := mapInt e.L getMappers "sf.pproc.pid".toList fr != 0
  ctExists := mapStr e.L getMappers "sf.container.id".toList fr != []
  pdExists := mapStr e.L getMappers "sf.pod.id".toList fr != []

/-- The two `switch fv.Entry.Section` (json.go:98-142, 144-285): the title of a section and whether it is written.
All cases are copies of one another with these two parameters, so one step function models them. `none`: no case. -/
def section? (h : Hdr) (s : SectType) : Option (Str × Bool) :=
  if h.sftype = TyKE then
    match s with
    | .SectK8sEvt => some ("k8s".toList, true)
    | .SectNode => some ("node".toList, true)
    | .SectMeta => some ("meta".toList, true)
    | _ => none
  else
    match s with
    | .SectProc => some ("proc".toList, true)
    | .SectPProc => some ("pproc".toList, h.pprocExists)
    | .SectNet => some ("net".toList, h.sftype == TyNF)
    | .SectFile => some ("file".toList, h.sftype == TyFF || h.sftype == TyFE)
    | .SectFlow => some ("flow".toList, h.sftype == TyFF || h.sftype == TyNF)
    | .SectCont => some ("container".toList, h.ctExists)
    | .SectPod => some ("pod".toList, h.pdExists)
    | .SectNode => some ("node".toList, true)
    | .SectMeta => some ("meta".toList, true)
    | _ => none

/-- Loop state (json.go:82, 91): `BEGIN_STATE` is `none`. -/
structure W where
  out : Bytes
  state : Option SectType
  existed : Bool

/-- One iteration of the loop over the fields (json.go:93-288). -/
def fieldStep (e : Env) (h : Hdr) (fr : FlatRec) (w : W) (fv : FieldEntry) : Option W :=
  if (fieldSects fv).length = 2 then
    (writeAttribute e fr fv 1).map (fun a => { w with out := w.out ++ a ++ [cCOMMA] })
  else if (fieldSects fv).length = 3 then
    match section? h fv.sect with
    | none => some w
    | some (title, present) =>
      if w.state ≠ some fv.sect then
        let out := if w.state ≠ none ∧ w.existed = true then w.out ++ endCurlyComma else w.out
        if present then
          (writeAttribute e fr fv 2).map (fun a => ⟨out ++ writeSectionBegin title ++ a, some fv.sect, true⟩)
        else some ⟨out, some fv.sect, false⟩
      else if present then
        (writeAttribute e fr fv 2).map (fun a => { w with out := w.out ++ cCOMMA :: a })
      else some w
  else some w

/-- The loop. -/
def fieldLoop (e : Env) (h : Hdr) (fr : FlatRec) : W → List FieldEntry → Option W
  | w, [] => some w
  | w, fv :: fvs =>
    match fieldStep e h fr w fv with
    | none => none
    | some w' => fieldLoop e h fr w' fvs

/-- One policy entry (json.go:295-301). -/
def policyObj (r : Policy.RuleInfo) : Bytes :=
  cBCURLY :: cQUOTE :: tx "id".toList ++ quoteColon ++ string r.name ++ cCOMMA :: cQUOTE :: tx "desc".toList ++ quoteColon ++
    string r.desc ++ cCOMMA :: cQUOTE :: tx "priority".toList ++ quoteColon ++ int r.priority.toNat ++ [cECURLY]

/-- The loop over the rules (json.go:294-305). -/
def policyElems : List Policy.RuleInfo → Bytes
  | [] => []
  | [r] => policyObj r
  | r :: rs => policyObj r ++ cCOMMA :: policyElems rs

/-- `rtags` (json.go:307-314). -/
def ruleTags (rules : List Policy.RuleInfo) : List Str := rules.flatMap (fun r => r.tags.flatMap id)

/-- The policies array (json.go:290-318). -/
def policies (rules : List Policy.RuleInfo) : Bytes :=
  if rules.length > 0 then cCOMMA :: cQUOTE :: tx "policies".toList ++ quoteColon ++ cBSQ :: policyElems rules ++ [cESQ] else []

/-- A loop over tags (json.go:325-338): `cur` is `currentTag`, `num` is `numTags`. -/
def tagLoop (num : Nat) : Nat → List Str → Bytes
  | _, [] => []
  | cur, t :: ts => string t ++ (if cur + 1 < num then [cCOMMA] else []) ++ tagLoop num (cur + 1) ts

/-- The tags array (json.go:320-340). -/
def tags (ctxTags rtags : List Str) : Bytes :=
  let num := rtags.length + ctxTags.length
  if num > 0 then
    cCOMMA :: cQUOTE :: tx "tags".toList ++ quoteColon ++ cBSQ :: tagLoop num 0 ctxTags ++
      tagLoop num ctxTags.length rtags ++ [cESQ]
  else []

/-- `encode` (json.go:78-346). -/
def encode (e : Env) (rec : Record) : Option Bytes :=
  let start : Bytes := cBCURLY :: cQUOTE :: tx "version".toList ++ quoteColon ++ e.version ++ [cCOMMA]
  match fieldLoop e (hdr e rec.fr) rec.fr ⟨start, none, true⟩ fieldValues with
  | none => none
  | some w =>
    some (w.out ++ [cECURLY] ++ policies rec.ctx.getRules ++ tags rec.ctx.getTags (ruleTags rec.ctx.getRules) ++ [cECURLY])

end Verif.Json
