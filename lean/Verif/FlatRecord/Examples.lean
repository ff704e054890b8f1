import Verif.FlatRecord.Resolve
/-! Concrete cases meeting the hypotheses of the theorems about flat records. -/
namespace Verif.FlatRecord
open Verif.Decimal (Str)
open Verif.SysFlow
open Verif.Policy

/-- A sample library: record types and flags as short texts. -/
def demoLib : Lib where
  recType n := if n = PROC_EVT then "PE".toList else if n = NET_FLOW then "NF".toList else "FF".toList
  opFlags _ _ := ["EXEC".toList]
  fileType _ := ['f']
  isOpenWrite n := n == 1
  isOpenRead n := n == 0
  openFlags _ := []
  ipStr _ := "1.2.3.4".toList
  contType _ := "DOCKER".toList
  k8sAction _ := []
  k8sComponent _ := []
  symPath s := (s, [])
  dir s := s
  oidHash _ := []
  gjson v p := v ++ p
  lower := id
  equalFold l r := l == r
  regexp re := if re = [] then none else some (fun s => if Strings.contains s re then re else [])

def demoSect : Sect where
  ints a := if a = .SF_REC_TYPE then PROC_EVT else if a = .PROC_UID_INT then 1000 else if a = .PROC_TTY_INT then 1 else 0
  strs a := if a = .PROC_EXE_STR then "/bin/bash".toList else []
  anys _ := .nil

def demoProc (exe : String) (pid : Int) : Proc where
  state := .created
  oid := ⟨7, pid⟩
  poid := none
  ts := 0
  exe := exe.toList
  exeArgs := "-c ls".toList
  uid := 5
  userName := "root".toList
  gid := 6
  groupName := "root".toList
  tty := true
  entry := false
  containerId := none

def demoRec : Record := newRecord ⟨[(.process, ⟨fun _ => 3, fun _ => [], fun _ => .nil⟩), (.sysflow, demoSect)],
  some [demoProc "/bin/bash" 12, demoProc "/usr/sbin/sshd" 1], 0⟩

/-- Not a field, as far as these examples need. -/
theorem notField (x : Str) (h : getMappers.get x = none) : ¬ IsField getMappers x := (get_none_iff _ _).1 h

-- C20: sshd is an ancestor
example : ((flatOps demoLib getMappers).compare "sf.proc.aname".toList "sshd".toList .Eq).pred demoRec = true :=
  (ancestor_name_matches demoLib demoRec _ "sshd".toList rfl (by simp) (by decide +kernel) (notField _ (by decide +kernel))
    (by decide) (by decide) (by decide)).2 ⟨demoProc "/usr/sbin/sshd" 1, by simp, by decide +kernel⟩

-- C13/C17: a comparison of a field with a quoted literal
example : SomeMatch demoLib.toCaseLib .Eq (mapStr demoLib getMappers "sf.proc.name".toList demoRec.fr)
    (mapStr demoLib getMappers "'bash'".toList demoRec.fr) := by
  rw [← string_comparison demoLib getMappers _ _ .Eq (by decide)]; decide +kernel

-- C17: integer and Boolean fields
example : mapStr? demoLib getMappers "sf.proc.uid".toList demoRec.fr = some "1000".toList ∧
    mapStr? demoLib getMappers "sf.proc.tty".toList demoRec.fr = some "true".toList ∧
    mapInt demoLib getMappers "sf.proc.uid".toList demoRec.fr = 1000 ∧
    mapInt demoLib getMappers "42".toList demoRec.fr = 42 ∧
    mapStr? demoLib getMappers "sf.proc.exe[".toList demoRec.fr = none ∧
    mapStr? demoLib getMappers "a[b]".toList demoRec.fr = some ['a'] ∧
    mapStr? demoLib getMappers "sf.proc.exe[x]".toList demoRec.fr = some "/bin/bashx".toList := by
  decide +kernel

-- C17: `Text` instances
example : Text (BoolField "sf.proc.uid".toList) (.i64 1000) "1000".toList :=
  .number 1000 _ (by unfold BoolField; decide) (by decide) (by decide)
example : Text False (.str "'x y'".toList) "x y".toList := .quoted '\'' '\'' "x y".toList rfl rfl

-- C19
example : SectionOf demoRec.fr .sysflow demoSect :=
  ⟨[(.process, ⟨fun _ => 3, fun _ => [], fun _ => .nil⟩)], [], rfl, by simp⟩

/-- A rule restricted to process events. -/
def demoRule : Rule Record :=
  { name := ['r'], prefilter := ["PE".toList], condition := (flatOps demoLib getMappers).compare "sf.type".toList "PE".toList .Eq }

-- C18: the rule fires on the sample record, and its condition implies its prefilter on it
example : Engine.Fires (flatInterp demoLib false [demoRule] [] (fun _ => none) (fun _ => none) true) demoRec demoRule := by
  decide +kernel
example : "PE".toList ∈ demoRule.prefilter ∧ mapStr demoLib getMappers "sf.type".toList demoRec.fr = "PE".toList := by
  decide +kernel

-- C18: the hypothesis of `prefilter_redundant` holds for this rule on every record
example : ∀ rule ∈ [demoRule], ∀ r : Record, rule.condition.pred r = true → rule.prefilter = [] ∨
    mapStr demoLib getMappers "sf.type".toList r.fr ∈ rule.prefilter := by
  intro rule hr r hc
  simp only [List.mem_singleton] at hr
  subst hr
  right
  have hc' := (string_comparison demoLib getMappers _ _ .Eq (by decide) r).1 hc
  have hq : ∀ n, (∀ c ∈ demoLib.recType n, Strings.isQuote c = false) ∧ ',' ∉ demoLib.recType n := by
    intro n
    simp only [demoLib]
    split
    · decide
    · split <;> decide
  have ht := type_text demoLib r.fr _ rfl (hq _).1
  have hl : mapStr demoLib getMappers "PE".toList r.fr = "PE".toList := by
    unfold mapStr
    rw [literal_as_text demoLib getMappers _ (notField _ (by decide +kernel)) (by decide) r.fr "PE".toList
      (.plain _ (by decide) (by decide))]; rfl
  rw [ht, hl, single_valued_comparison _ _ _ _ (hq _).2 (by decide)] at hc'
  rw [ht, hc']
  decide

-- the engine theorems apply to this engine
example : Engine.Stable (flatInterp demoLib false [demoRule] [] (fun _ => none) (fun _ => none) true) (fun r => r.fr) :=
  flat_stable demoLib false [demoRule] [] _ _ true (by intro r hr; simp at hr; subst hr; exact .compare (ops := flatOps demoLib getMappers) "sf.type".toList "PE".toList .Eq) (by simp)

-- C21: a history with all kinds of operations
example : (ctxAfter [.addTags [['a']], .addRules [{ name := ['x'] }], .setHashes .file { md5 := ['1'] }, .setTags [['b']],
    .addRules [{ name := ['y'] }], .setHashes .file { md5 := ['2'] }, .addTags [['c']]]).getTags = [['b'], ['c']] := by decide

end Verif.FlatRecord
