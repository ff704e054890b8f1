import Verif.Falco.Props
import Verif.FlatRecord.Examples
/-
Concrete policies meeting the hypotheses of the Falco theorems.
-/
namespace Verif.Falco
open Verif.Decimal (Str)
open Verif.Policy
open Verif.FlatRecord

/-- A policy with nested lists and macros used before they are defined. -/
def demoDecls : List Decl :=
  [ .rule { name := "shell".toList, desc := "d".toList, cond := [[.ref "is_shell".toList, .not (.ref "trusted".toList)]],
            severity := some "Warning".toList, tags := some "[a,b]".toList, enabled := some "true".toList },
    .list "shells".toList "[bash,\"sh\",more]".toList,
    .list "more".toList "[zsh]".toList,
    .mac "is_shell".toList [[.inList "sf.proc.name".toList [.atom "shells".toList]]],
    .mac "trusted".toList [[.binop .eq "sf.proc.uid".toList "0".toList], [.ref "nope".toList]],
    .filter { id := "f".toList, cond := [[.exist "sf.file.path".toList]], enabled := some "false".toList } ]

/-- The policy compiles (hypothesis of the C26 theorems): one rule, one filter. -/
example : ((compile (flatOps demoLib getMappers) 10 [.ok demoDecls]).map
    (Option.map (fun p => (p.1.map (·.toRuleInfo), p.2.map (fun f => (f.name, f.enabled)))))) =
    some (some ([{ name := "shell".toList, desc := "d".toList, priority := .medium, tags := [["a".toList, "b".toList]] }],
      [("f".toList, false)])) := by decide +kernel

/-- Its nested list expands as expected (C24). -/
example : reduceList (demoDecls.foldl define {}).lists 5 "shells".toList =
    some ["bash".toList, "sh".toList, "zsh".toList] := by decide +kernel

/-- A condition whose compilation returns, so `Compiles` is satisfiable (C22, C23), and its value is that of
the text on a record of a bash process. -/
example : ∃ c, Compiles (flatOps demoLib getMappers) (demoDecls.foldl define {})
    [[.ref "is_shell".toList, .not (.ref "trusted".toList)]] c :=
  ⟨_, 10, rfl⟩

/-- A macro that refers to itself through another: compilation does not return (C23). -/
example : ¬ ∃ c, Compiles (flatOps demoLib getMappers)
    { macros := [("a".toList, [[.ref "b".toList]]), ("b".toList, [[.not (.ref "a".toList)]])] } [[.ref "a".toList]] c := by
  rw [falco_compiles_iff_acyclic]
  intro h
  refine h ⟨.mac "a".toList, .mac "a".toList, ⟨_, .head _, _, .head _, .var _⟩, .refl, ?_⟩
  refine Relation.TransGen.head (b := .mac "b".toList) (.mac _ [[.ref "b".toList]] _ rfl ⟨_, .head _, _, .head _, .var _⟩) ?_
  refine Relation.TransGen.single (.mac _ [[.not (.ref "a".toList)]] _ rfl ⟨_, .head _, _, .head _, .not _ _ (.var _)⟩)

/-- The empty list of the C25 finding: both hypotheses are met. -/
example : (define {} (.list "none".toList "[]".toList)).lists.get "none".toList = some (extractList "[]".toList) ∧
    (define {} (.list "none".toList "[]".toList)).lists.get [] = none := by decide

end Verif.Falco
