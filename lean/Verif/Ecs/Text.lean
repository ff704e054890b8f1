import Verif.Ecs.Props
import Verif.Json.Values
/-
The text of ECS documents: the rendering of `ECSRecord` by `encoding/json`, as the file and console transports ask for it.
Sources: /repo/core/exporter/encoders/ecs.go:47-74 (the type and its tags), /repo/core/exporter/transports/file.go:57-61, terminal.go:49-52 (`json.Marshal`).
`encoding/json` (Go standard library, version 1.19 per /repo/.github/workflows/ci.yaml:38) is given its documented behaviour: fields of structs in order, `omitempty` leaves out empty
texts, maps and slices (but not structs), keys of maps in increasing order, texts escaped as by `Json.quote` (control characters, `"`, `\`, `<`, `>`, `&`, U+2028, U+2029).
-/
namespace Verif.Ecs
open Verif.Decimal (Str)
open Verif.Json (Bytes JVal cps commas)

/-! ### Model -/

/-- `[a,b,...]`. -/
def arrText (l : List Bytes) : Bytes := 0x5B :: commas l ++ [0x5D]

/-- `{"k":v,...}`. -/
def objText (l : List (Str × Bytes)) : Bytes := 0x7B :: commas (l.map (fun e => Json.string e.1 ++ 0x3A :: e.2)) ++ [0x7D]

/-- Comparison of keys: by code points, which is the order of their UTF-8 bytes. -/
def keyBefore (a b : Str) : Bool := decide (cps a < cps b)

/-- Sorting the members of a map by key (encoding/json's mapEncoder). The library sorts before rendering the values, which is the same. -/
def insertMember (x : Str × Bytes) : List (Str × Bytes) → List (Str × Bytes)
  | [] => [x]
  | y :: ys => if keyBefore y.1 x.1 then y :: insertMember x ys else x :: y :: ys
def sortMembers (l : List (Str × Bytes)) : List (Str × Bytes) := l.foldr insertMember []

mutual
/-- `json.Marshal` of a value in `JSONData` (ecs.go:47; values assigned in ecs.go:204-583). -/
def EVal.json : EVal → Bytes
  | .str s => Json.string s
  | .int n => Json.int n
  | .bool b => Json.bool b
  | .strs l => arrText (l.map Json.string)
  | .obj m => objText (sortMembers (memberTexts m))
  | .objs l => arrText (objTexts l)
/-- The members of a map. -/
def memberTexts : List (Str × EVal) → List (Str × Bytes)
  | [] => []
  | (k, v) :: es => (k, v.json) :: memberTexts es
/-- The maps of a slice. -/
def objTexts : List (List (Str × EVal)) → List Bytes
  | [] => []
  | m :: l => objText (sortMembers (memberTexts m)) :: objTexts l
end

/-- A field of type string with `omitempty`. -/
def textField (k : String) (s : Str) : List (Str × Bytes) := if s = [] then [] else [(k.toList, Json.string s)]

/-- A field of type `JSONData` with `omitempty`: left out if nil or empty. -/
def mapField (k : String) (m : Option Data) : List (Str × Bytes) :=
  match m with
  | none => []
  | some m => if m = [] then [] else [(k.toList, (EVal.obj m).json)]

/-- The field `Event` (ecs.go:59) has no `omitempty`: a nil map is `null`. -/
def textOfEvent : Option Data → Bytes
  | none => Json.tNull
  | some m => (EVal.obj m).json

/-- The fields of `ECSRecord` in order, with their tags (ecs.go:50-74). `ID` is not written. -/
def recFields (d : Rec) : List (Str × Bytes) :=
  [("@timestamp".toList, Json.string d.ts),
   ("agent".toList, objText (textField "type" d.agentType ++ textField "version" d.agentVersion)),
   ("ecs".toList, objText (textField "version" d.ecsVersion)),
   ("event".toList, textOfEvent d.event),
   ("host".toList, (EVal.obj d.host).json)] ++
  mapField "container" d.container ++ mapField "orchestrator" d.orchestrator ++ mapField "pod" d.pod ++
  (if d.service = [] then [] else [("service".toList, (EVal.objs d.service).json)]) ++
  mapField "file" d.file ++ mapField "sf_file_action" d.fileAction ++ mapField "network" d.network ++ mapField "source" d.source ++
  mapField "destination" d.destination ++ mapField "process" d.process ++ mapField "user" d.user ++
  (if d.tags = [] then [] else [("tags".toList, (EVal.strs d.tags).json)])

/-- `json.Marshal(d)` for an ECS record (file.go:57). -/
def recText (d : Rec) : Bytes := objText (recFields d)

/-! ### Specification -/

/-- A JSON value says what an entry of the document holds: texts, numbers, truth values, lists, and maps whose members are exactly the entries, in
increasing order of their names (hence each once). -/
inductive Says : EVal → JVal → Prop where
  | str (s : Str) : Says (.str s) (.str (cps s))
  | int (n : Int) : Says (.int n) (.num (Utf8.bytes (Decimal.formatInt n)))
  | bool (b : Bool) : Says (.bool b) (.bool b)
  | strs (l : List Str) : Says (.strs l) (.arr (l.map (fun s => .str (cps s))))
  | obj (m : List (Str × EVal)) (ms : List (List Nat × JVal)) (g : Str × EVal → JVal) : (∀ e ∈ m, Says e.2 (g e)) →
      ms.Perm (m.map (fun e => (cps e.1, g e))) → ms.Pairwise (fun a b => a.1 < b.1) → Says (.obj m) (.obj ms)
  | objs (l : List (List (Str × EVal))) (g : List (Str × EVal) → JVal) : (∀ m ∈ l, Says (.obj m) (g m)) → Says (.objs l) (.arr (l.map g))

/-- The document has a member of this name, which says this. -/
def Member (ms : List (List Nat × JVal)) (k : String) (v : EVal) : Prop := ∃ j, (cps k.toList, j) ∈ ms ∧ Says v j

/-- It has no member of this name. -/
def NoMember (ms : List (List Nat × JVal)) (k : String) : Prop := ∀ j, (cps k.toList, j) ∉ ms

/-- An optional part: present with its entries, or absent. -/
def Part (ms : List (List Nat × JVal)) (k : String) (m : Option Data) : Prop :=
  (∀ x, m = some x → x ≠ [] → Member ms k (.obj x)) ∧ (m = none ∨ m = some [] → NoMember ms k)

/-- Texts that are not empty, with their names. -/
def present (l : List (String × Str)) : List (Str × EVal) := (l.filter (fun e => e.2 ≠ [])).map (fun e => (e.1.toList, EVal.str e.2))

/-- The names of the parts. -/
def partNames : List String :=
  ["@timestamp", "agent", "ecs", "event", "host", "container", "orchestrator", "pod", "service", "file", "sf_file_action", "network", "source",
   "destination", "process", "user", "tags"]

/-- A JSON document shows an ECS record: it has these members and no others, none twice. -/
structure ShowsRec (d : Rec) (ms : List (List Nat × JVal)) : Prop where
  once : (ms.map Prod.fst).Nodup
  only : ∀ e ∈ ms, ∃ k ∈ partNames, e.1 = cps k.toList
  ts : Member ms "@timestamp" (.str d.ts)
  agent : Member ms "agent" (.obj (present [("type", d.agentType), ("version", d.agentVersion)]))
  ecs : Member ms "ecs" (.obj (present [("version", d.ecsVersion)]))
  event : (∀ x, d.event = some x → Member ms "event" (.obj x)) ∧ (d.event = none → (cps "event".toList, .null) ∈ ms)
  host : Member ms "host" (.obj d.host)
  container : Part ms "container" d.container
  orchestrator : Part ms "orchestrator" d.orchestrator
  pod : Part ms "pod" d.pod
  service : (d.service ≠ [] → Member ms "service" (.objs d.service)) ∧ (d.service = [] → NoMember ms "service")
  file : Part ms "file" d.file
  fileAction : Part ms "sf_file_action" d.fileAction
  network : Part ms "network" d.network
  source : Part ms "source" d.source
  destination : Part ms "destination" d.destination
  process : Part ms "process" d.process
  user : Part ms "user" d.user
  tags : (d.tags ≠ [] → Member ms "tags" (.strs d.tags)) ∧ (d.tags = [] → NoMember ms "tags")

end Verif.Ecs
