import Verif.Whole.OtelRuns
import Verif.Otel.Series
import Verif.Otel.ReadBack
/-
C31, C32, C84, C114, C121: the theorems about OpenTelemetry records applied to the sample record and the sample policy.
Sources: /repo/core/policyengine/source/otel/operations.go, /repo/core/policyengine/source/otel/contextualizer.go
-/
namespace Verif.OtelRun
open Verif.Decimal (Str)
open Verif.Policy
open Verif.Otel
open Verif.Falco (simpleStr simple_rule)

/-- C31: of the two values called `level` the unset one is passed over, so the record has a level of 5. -/
example : ∃ v, Decides "level".toList (attributes [("host".toList, .str "h1".toList), ("ports".toList, .arr [.int 3, .str "ssh".toList])] demoLogs.scopes) v ∧ Matches Otel.demoLib v " 6 ".toList .Lt :=
  (otel_compare Otel.demoLib "level".toList " 6 ".toList .Lt demoLogs _ rfl true (by decide +kernel)).1 rfl

/-- C31: it has no user, so no comparison with its user is true. -/
example : compare? Otel.demoLib "user".toList "u".toList .Eq demoLogs = some false :=
  otel_absent Otel.demoLib "user".toList "u".toList .Eq demoLogs _ rfl (by decide +kernel)

/-- C31: it has a level. -/
example : ∃ b, exists? "level".toList demoLogs = some b ∧ (b = true ↔ ∃ v, ("level".toList, v) ∈ attributes [("host".toList, .str "h1".toList), ("ports".toList, .arr [.int 3, .str "ssh".toList])] demoLogs.scopes) :=
  otel_exists "level".toList demoLogs _ rfl

example : exists? "level".toList demoLogs = some true ∧ exists? "user".toList demoLogs = some false := by decide +kernel

/-- C31: what follows the first set value of an attribute does not matter. -/
example (rest : List KV) : cmpKVs Otel.demoLib "a".toList "1".toList .Eq ([("b".toList, .int 2)] ++ ("a".toList, .str "1".toList) :: rest) =
    cmpKVs Otel.demoLib "a".toList "1".toList .Eq [("a".toList, .str "1".toList)] :=
  otel_first_decides Otel.demoLib _ _ .Eq _ rest [] _ (by decide +kernel) (by intro h; cases h)

/-- C31: an expression that does not compile is reported, and true of no record. -/
example (L : Otel.Lib) (h : L.regexp "(".toList = none) : (regExp? L "host".toList "(".toList).2 = true ∧ (regExp? L "host".toList "(".toList).1 demoLogs = some false :=
  (otel_regexp L "host".toList "(".toList demoLogs _ rfl).1 h

/-- Two rules with one tag. -/
def aInfo : RuleInfo := { name := "a".toList, desc := [], tags := [["t".toList]] }
def bInfo : RuleInfo := { name := "b".toList, desc := [], tags := [["t".toList]] }

/-- C32: noting two rules one after the other in the sample record gives one new scope with both names, and the tag twice. -/
example : addAll id demoLogs [[aInfo], [bInfo]] = some { demoLogs with scopes := demoLogs.scopes ++ [processorScope ["a".toList, "b".toList] ["t".toList, "t".toList]] } :=
  otel_tags_repeated id (fun l => .refl l) demoLogs demo_fresh aInfo bInfo "t".toList rfl rfl

/-- C32: both at once: the tag once. -/
example : addRules? id demoLogs [aInfo, bInfo] = some { demoLogs with scopes := demoLogs.scopes ++ [processorScope ["a".toList, "b".toList] ["t".toList]] } :=
  (otel_enrich_first id demoLogs [aInfo, bInfo] demo_fresh).trans (by rw [show id (tagSet [aInfo, bInfo]) = ["t".toList] by decide +kernel]; rfl)

/-- C32: three histories of notes. -/
example : addAll id demoLogs [[aInfo], [], [bInfo, aInfo]] = some { demoLogs with scopes := demoLogs.scopes ++ [processorScope ["a".toList, "b".toList, "a".toList] ["t".toList, "t".toList]] } :=
  (otel_enrich_history id demoLogs [[aInfo], [], [bInfo, aInfo]] demo_fresh (List.cons_ne_nil _ _)).trans
    (by rw [show [[aInfo], [], [bInfo, aInfo]].flatMap (fun rs => id (tagSet rs)) = ["t".toList, "t".toList] by decide +kernel]; rfl)

/-- C32: a record that came with a scope of the processor's name, behind another one. -/
def twiceSeen : ResourceLogs := { demoLogs with scopes := demoLogs.scopes ++ [processorScope ["x".toList] ["y".toList]] }

example : addRules? id twiceSeen [aInfo] = some { demoLogs with scopes := demoLogs.scopes ++ [processorScope ["x".toList, "a".toList] ["y".toList, "t".toList]] } :=
  (otel_enrich_again id twiceSeen [aInfo] demoLogs.scopes [] (processorScope ["x".toList] ["y".toList]) _ [] _ _ rfl demo_fresh rfl rfl rfl).trans
    (by rw [show id (tagSet [aInfo]) = ["t".toList] by decide +kernel]; rfl)

/-- C32: the rest of it is as it was. -/
example (rl' : ResourceLogs) (h : addRules? id twiceSeen [aInfo] = some rl') : rl'.resource = demoLogs.resource := (otel_enrich_only_adds id twiceSeen rl' [aInfo] h).1

/-- C32: an engine with the rule of the sample policy and a filter that is true of no record: the record leaves it with the rule noted. -/
def hostRules : List (Rule ResourceLogs) := [{ name := "r".toList, desc := [], condition := (otelOps Otel.demoLib).compare "host".toList "h1".toList .Eq, tags := [["t".toList]] }]

theorem hostRules_read : ∀ rule ∈ hostRules, Reads Otel.demoLib rule.condition := by
  intro rule h
  rw [List.mem_singleton.1 h]
  exact .compare _ _ _ (by decide)

example : Engine.Stable (otelInterp id true hostRules [] (fun _ => none) (fun _ => none) true) view :=
  otel_stable Otel.demoLib id true hostRules [] _ _ true hostRules_read (fun a f h => by rcases h with h | h <;> cases h)

example : ((otelInterp id true hostRules [] (fun _ => none) (fun _ => none) true).work demoLogs).1 = { demoLogs with scopes := demoLogs.scopes ++ [processorScope ["r".toList] ["t".toList]] } := by
  refine (otel_engine Otel.demoLib id true hostRules [] _ _ true hostRules_read (fun a f h => by rcases h with h | h <;> cases h) demoLogs demo_fresh).trans ?_
  have hf : hostRules.filter (fun x => decide (Engine.Fires (otelInterp id true hostRules [] (fun _ => none) (fun _ => none) true) demoLogs x)) = hostRules :=
    List.filter_eq_self.2 (fun x hx => by rw [List.mem_singleton.1 hx]; decide +kernel)
  have hd : ¬ Engine.Dropped (otelInterp id true hostRules [] (fun _ => none) (fun _ => none) true) demoLogs := by decide +kernel
  rw [hf, if_neg (by
    rintro (h | h)
    · exact hd h
    · cases h), show hostRules.flatMap (fun x => id (tagSet [x.toRuleInfo])) = ["t".toList] by decide +kernel]
  rfl

/-- C84: on the sample record, also with rules noted, no condition on its own attributes panics. -/
example : ∃ rl', addAll id demoLogs [[aInfo], [bInfo]] = some rl' ∧ compare? Otel.demoLib "level".toList "5".toList .Lt rl' ≠ none := by
  obtain ⟨rl', h1, h2⟩ := otel_no_panic Otel.demoLib id demoLogs demo_whole demo_fresh [[aInfo], [bInfo]]
  exact ⟨rl', h1, (h2 "level".toList (.inr ⟨by decide, by decide⟩)).2.1 _ _⟩

/-- C114: the engine with the sample policy on the sample record in which another engine has noted a rule: now both rules are noted, and the record is passed on. -/
example (mid : ResourceLogs) (hm : Noted demoLogs [aInfo] mid) : ∃ n rules filters, Falco.compile (otelOps Otel.demoLib) n ([hostText].map (Falco.fileOf simpleStr)) = some (some (rules, filters)) ∧
    let out := (otelInterp id false rules filters (fun _ => none) (fun _ => none) true).work mid
    Noted demoLogs [aInfo, Falco.infoOf hostRule] out.1 ∧ Engine.outs out.2 = [out.1] := by
  obtain ⟨n, rules, filters, h1, h2⟩ := otel_engine_again Otel.demoLib simple_rule [hostText] [[.rule hostRule]] (.cons host_parses .nil) host_acyclic host_foreign (fun x hx => by cases hx)
  obtain ⟨h3, h4⟩ := h2 id false true (fun _ => none) (fun _ => none) (fun l => .refl l) (fun a f h => by rcases h with h | h <;> cases h) demoLogs demo_whole demo_fresh [aInfo] mid hm
  have hnf : ¬ OFiltered Otel.demoLib demoLogs [[.rule hostRule]] := by
    rintro ⟨x, hx, -⟩
    cases hx
  have ha : applicable Otel.demoLib demoLogs [[.rule hostRule]] = [Falco.infoOf hostRule] := (demo_wanted 1 ([], [])).2
  rw [if_neg hnf, ha] at h3
  have h4 := h4 rfl
  rw [if_neg hnf, if_pos (.inr (by rw [ha]; exact List.cons_ne_nil _ _))] at h4
  exact ⟨n, rules, filters, h1, h3, h4⟩

end Verif.OtelRun
