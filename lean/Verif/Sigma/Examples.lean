import Verif.Sigma.Props
import Verif.FlatRecord.Examples
/-
The engine on compiled Sigma rules, and concrete rules meeting the hypotheses of the Sigma theorems.
-/
namespace Verif.Sigma
open Verif.Decimal (Str)
open Verif.Policy
open Verif.FlatRecord

/-- C27/C30: on every flat record the engine adds exactly the compiled Sigma rules that fire on it, in order. -/
theorem sigma_engine (L : Lib) (glob : Str → Str → Bool) (files : List RuleFile) (cfg : ConfigFile) (rules : List (Rule Record))
    (hc : compile L.toCaseLib (flatOps L getMappers) glob files cfg = some (some rules)) (e : Bool)
    (bi us : Engine.ActionMap Record) (o : Bool)
    (ha : ∀ a f, (bi a = some f ∨ us a = some f) → ∀ r, (f r).1.fr = r.fr)
    (ha' : ∀ a f, (bi a = some f ∨ us a = some f) → ∀ r, (f r).1.ctx.getRules = r.ctx.getRules) (r : Record) :
    let pi := flatInterp L e rules [] bi us o
    (pi.work r).1.ctx.getRules = r.ctx.getRules ++
      (if Engine.Dropped pi r then [] else (rules.filter (fun x => decide (Engine.Fires pi r x))).map (·.toRuleInfo)) := by
  refine flat_record_rules L e rules [] bi us o ?_ ha ha' r
  intro rule hr
  obtain ⟨fm, _, hlen, hsite⟩ := sigma_rules _ _ _ _ _ _ hc
  obtain ⟨i, hi, hget⟩ := List.mem_iff_getElem.1 hr
  have hs := List.getElem?_eq_getElem (l := (parsed files).flatMap (fun r => r.conditions.map (fun e => (r, e)))) (i := i) (by omega)
  obtain ⟨rule', hr', h⟩ := hsite i _ _ hs
  rw [List.getElem?_eq_getElem hi, Option.some.injEq] at hr'
  have : rule' = rule := by rw [← hr', hget]
  subst this
  exact sigma_built _ _ _ _ _ _ h.2.2.2.2.2.2.2

/-- A rule with two searches, one using a mapped field, `windash` and `contains`. -/
def demoRule : SigmaRule where
  id := "id-1".toList
  level := "high".toList
  tags := ["t1".toList, "t2".toList]
  searches := [("sel".toList, { matchers := [[{ field := "Image".toList, modifiers := ["endswith".toList], values := ["bash".toList, "sh".toList] }],
                 [{ field := "sf.proc.args".toList, modifiers := ["windash".toList, "contains".toList], values := ["-c".toList] }]] }),
               ("filter".toList, { matchers := [[{ field := "sf.proc.uid".toList, values := ["0".toList] }]] })]
  conditions := [.and [.ident "sel".toList, .not (.oneOfPattern "filter".toList)], .allOfThem]

def demoConfig : FieldMappings := [("Image".toList, ["sf.proc.exe".toList])]

/-- The hypothesis of the C30 theorems: compilation succeeds and yields a rule per condition. -/
example : ((compile demoLib.toCaseLib (flatOps demoLib getMappers) (fun p n => p == n) [.unparsable, .ok demoRule] (.ok demoConfig)).map
    (Option.map (List.map (·.toRuleInfo)))) = some (some
      [{ name := "id-1".toList, desc := [], priority := .high, tags := [["t1".toList], ["t2".toList]] },
       { name := "id-1".toList, desc := [], priority := .high, tags := [["t1".toList], ["t2".toList]] }]) := by decide +kernel

/-- The hypothesis of `sigma_condition`, and a search that holds on a record of bash run by uid 1000. -/
example : (demoRule.searches.map (·.1)).Nodup ∧
    ((visitExpr (flatOps demoLib getMappers) demoConfig (fun p n => p == n) demoRule.searches
      (.and [.not (.oneOfPattern "filter".toList), .ident "sel".toList])).map (·.eval demoRec)).isSome = true ∧
    ((visitMatcher (flatOps demoLib getMappers) demoConfig
      { field := "Image".toList, modifiers := ["endswith".toList], values := ["bash".toList, "sh".toList] }).map (·.eval demoRec)) = some true ∧
    ((visitMatcher (flatOps demoLib getMappers) demoConfig
      { field := "Image".toList, modifiers := ["endswith".toList, "all".toList], values := ["bash".toList, "zsh".toList] }).map (·.eval demoRec)) = some false := by
  decide +kernel

/-- The unimplemented modifiers panic (C28). -/
example : visitMatcher (flatOps demoLib getMappers) [] ⟨"a".toList, ["cidr".toList], ["10.0.0.0/8".toList]⟩ = none :=
  (sigma_matcher_panics_iff _ _ _).2 ⟨by simp, .inr (.inl (.head _))⟩

/-- The hypothesis of the C28 findings about modifiers is met. -/
example : (visitMatcher (flatOps demoLib getMappers) [] ⟨"sf.proc.exe".toList, ["re".toList], ["x".toList]⟩).isSome = true ∧
    (visitMatcher (flatOps demoLib getMappers) [] ⟨"sf.proc.exe".toList, ["wide".toList, "base64".toList], ["x".toList]⟩).isSome = true ∧
    (visitSearch (flatOps demoLib getMappers) [] { matchers := [[⟨"a".toList, [], [['1']]⟩], [⟨"b".toList, [], [['2']]⟩]] }).isSome = true := by
  decide +kernel

/-- base64 of "foo" (C29). -/
example : base64 "foo".toList 0 = some "Zm9v".toList ∧ base64 "fo".toList 0 = some "Zm8=".toList ∧
    transform "-foo".toList (WinDashFlag.set Base64Flag) = some ["L2Zvbw==".toList] := by decide +kernel

end Verif.Sigma
