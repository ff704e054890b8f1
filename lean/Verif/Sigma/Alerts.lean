import Verif.Sigma.Examples
import Verif.Sigma.Glob
import Verif.Falco.StreamAlerts
/-
C88: from Sigma rule files to alerts.
Sources: /repo/core/policyengine/policy/sigma/compiler.go, /repo/core/policyengine/engine/interpreter.go
-/
namespace Verif.Sigma
open Verif.Decimal (Str)
open Verif.Policy
open Verif.FlatRecord
open Verif.Falco (ShowsTable table_agree forall₂_filter_map forall₂_exists Agree Benign)

/-! ### Specification -/

/-- A condition of a rule, with its rule. -/
abbrev Site := SigmaRule × SearchExpr

/-- The conditions of the rules that could be parsed, in order: a rule file holds one rule, a rule several conditions. -/
def sites (files : List RuleFile) : List Site := (parsed files).flatMap (fun r => r.conditions.map (fun e => (r, e)))

/-- The condition is true of the record: its searches mean what `SearchHolds` says, its patterns what `Matches` says (C87). -/
def Applies (L : Lib) (fm : FieldMappings) (r : Record) (x : Site) : Prop :=
  Holds pathMatch x.1.searches (fun s => SearchHolds (flatOps L getMappers) fm s r) x.2

/-- What is said about the record then: the rule's id, description, level and tags. -/
def infoOf (C : CaseLib) (r : SigmaRule) : RuleInfo where
  name := r.id
  desc := r.description
  tags := r.tags.map (fun t => [t])
  priority := getPriority C r.level

/-- A rule with which the compiler copes: search names are distinct (they are the keys of a map), and no field matcher with values uses the modifiers
`base64Offset` or `cidr` or a field mapped to no name. -/
structure Supported (fm : FieldMappings) (r : SigmaRule) : Prop where
  names : (r.searches.map (·.1)).Nodup
  matchers : ∀ n s, (n, s) ∈ r.searches → s.keywords = [] → ∀ em ∈ s.matchers, ∀ m ∈ em,
    m.values ≠ [] → "base64Offset".toList ∉ m.modifiers ∧ "cidr".toList ∉ m.modifiers ∧ fm.get m.field ≠ some []

/-- The configuration file says this: it is absent, which means no mappings, or parsed. -/
def Configures (cfg : ConfigFile) (fm : FieldMappings) : Prop := (cfg = .absent ∧ fm = []) ∨ cfg = .ok fm

/-! ### Compilation succeeds -/

theorem search_compiles (ops : Operations R) (fm : FieldMappings) (s : Search)
    (h : s.keywords = [] → ∀ em ∈ s.matchers, ∀ m ∈ em, m.values ≠ [] → "base64Offset".toList ∉ m.modifiers ∧ "cidr".toList ∉ m.modifiers ∧ fm.get m.field ≠ some []) :
    visitSearch ops fm s ≠ none := by
  unfold visitSearch
  by_cases hk : s.keywords = []
  · rw [if_neg (by simpa using hk)]
    rw [ne_eq, Option.map_eq_none_iff, seqMap_none_iff]
    rintro ⟨m, hm, hn⟩
    obtain ⟨em, hem, hm⟩ := List.mem_flatten.1 hm
    obtain ⟨h1, h2⟩ := (sigma_matcher_panics_iff ops fm m).1 hn
    obtain ⟨h3, h4, h5⟩ := h hk em hem m hm h1
    rcases h2 with h | h | h
    · exact h3 h
    · exact h4 h
    · exact h5 h
  · rw [if_pos hk]; intro h; cases h

mutual
theorem expr_compiles (ops : Operations R) (fm : FieldMappings) (glob : Str → Str → Bool) (S : GoMap Search) (h : ∀ n s, (n, s) ∈ S → visitSearch ops fm s ≠ none) :
    ∀ e, visitExpr ops fm glob S e ≠ none
  | .ident n => by
    rw [visitExpr]
    cases hg : S.get n with
    | none => simp
    | some s => exact h n s (get_mem S n s hg)
  | .and es => by
    rw [visitExpr, ne_eq, Option.map_eq_none_iff]
    exact exprs_compile ops fm glob S h es
  | .or es => by
    rw [visitExpr, ne_eq, Option.map_eq_none_iff]
    exact exprs_compile ops fm glob S h es
  | .not e => by
    rw [visitExpr, ne_eq, Option.map_eq_none_iff]
    exact expr_compiles ops fm glob S h e
  | .oneOfThem => by
    rw [visitExpr, ne_eq, Option.map_eq_none_iff, seqMap_none_iff]
    rintro ⟨p, hp, hn⟩
    exact h p.1 p.2 hp hn
  | .oneOfPattern q => by
    rw [visitExpr, ne_eq, Option.map_eq_none_iff, seqMap_none_iff]
    rintro ⟨p, hp, hn⟩
    exact h p.1 p.2 (List.mem_filter.1 hp).1 hn
  | .allOfThem => by
    rw [visitExpr, ne_eq, Option.map_eq_none_iff, seqMap_none_iff]
    rintro ⟨p, hp, hn⟩
    exact h p.1 p.2 hp hn
  | .allOfPattern q => by
    rw [visitExpr, ne_eq, Option.map_eq_none_iff, seqMap_none_iff]
    rintro ⟨p, hp, hn⟩
    exact h p.1 p.2 (List.mem_filter.1 hp).1 hn
  | .other => by rw [visitExpr]; simp
theorem exprs_compile (ops : Operations R) (fm : FieldMappings) (glob : Str → Str → Bool) (S : GoMap Search) (h : ∀ n s, (n, s) ∈ S → visitSearch ops fm s ≠ none) :
    ∀ es, visitExprs ops fm glob S es ≠ none
  | [] => by rw [visitExprs]; simp
  | e :: es => by
    rw [visitExprs]
    cases h1 : visitExpr ops fm glob S e with
    | none => exact absurd h1 (expr_compiles ops fm glob S h e)
    | some c =>
      cases h2 : visitExprs ops fm glob S es with
      | none => exact absurd h2 (exprs_compile ops fm glob S h es)
      | some cs => simp
end

/-- **C88** Supported rules in readable files compile. -/
theorem sigma_compiles (C : CaseLib) (ops : Operations R) (glob : Str → Str → Bool) (files : List RuleFile) (cfg : ConfigFile) (fm : FieldMappings)
    (hf : .unreadable ∉ files) (hcfg : Configures cfg fm) (hs : ∀ r, .ok r ∈ files → Supported fm r) :
    ∃ rules, compile C ops glob files cfg = some (some rules) := by
  have hread : readRules files = some (parsed files) := by
    cases hr : readRules files with
    | none =>
      exfalso
      clear hs
      induction files with
      | nil => cases hr
      | cons f fs ih =>
        have hf' : RuleFile.unreadable ∉ fs := fun h => hf (by simp [h])
        cases f with
        | unreadable => exact hf (by simp)
        | unparsable => exact ih hf' hr
        | ok r =>
          rw [readRules, Option.map_eq_none_iff] at hr
          exact ih hf' hr
    | some rs => rw [readRules_eq files rs hr]
  have hc : readConfig cfg = some fm := by
    rcases hcfg with ⟨rfl, rfl⟩ | rfl <;> rfl
  have hmem : ∀ r, r ∈ parsed files → .ok r ∈ files := by
    clear hread hf hs
    intro r
    induction files with
    | nil => intro h; cases h
    | cons f fs ih =>
      intro h
      cases f with
      | ok q =>
        rw [parsed] at h
        rcases List.mem_cons.1 h with rfl | h
        · simp
        · exact List.mem_cons_of_mem _ (ih h)
      | unreadable => exact List.mem_cons_of_mem _ (ih h)
      | unparsable => exact List.mem_cons_of_mem _ (ih h)
  cases h : compile C ops glob files cfg with
  | none =>
    exfalso
    unfold compile at h
    rw [hread, hc] at h
    dsimp only at h
    rw [Option.map_eq_none_iff, seqMap_none_iff] at h
    obtain ⟨r, hr, h⟩ := h
    unfold compileRule at h
    rw [Option.map_eq_none_iff, seqMap_none_iff] at h
    obtain ⟨e, _, h⟩ := h
    refine expr_compiles ops fm glob r.searches (fun n s hm => ?_) e h
    exact search_compiles ops fm s ((hs r (hmem r hr)).matchers n s hm)
  | some o =>
    cases o with
    | none =>
      exfalso
      rcases (sigma_errors C ops glob files cfg).1 h with h | h | h
      · exact hf h
      · rcases hcfg with ⟨h', _⟩ | h' <;> (rw [h] at h'; cases h')
      · rcases hcfg with ⟨h', _⟩ | h' <;> (rw [h] at h'; cases h')
    | some rules => exact ⟨rules, rfl⟩

/-! ## C88 -/

open Classical in
/-- **C88** From compiled Sigma rules to alerts. Whatever the rules: once they have compiled, the engine attaches to every record exactly the rules with a condition that is true of the record, once for each such
condition, in order of files and conditions; in alert mode the record is passed on, once, exactly when some condition is true, in enrich mode always. -/
theorem sigma_compiled_to_alerts (L : Lib) (files : List RuleFile) (cfg : ConfigFile) (fm : FieldMappings) (hcfg : Configures cfg fm)
    (hs : ∀ r, .ok r ∈ files → (r.searches.map (·.1)).Nodup) (rules : List (Rule Record)) (hcomp : compile L.toCaseLib (flatOps L getMappers) pathMatch files cfg = some (some rules))
    (enrich hasOut : Bool) (bi us : Engine.ActionMap Record) (hb : Benign bi us) (r : Record) :
    let out := (flatInterp L enrich rules [] bi us hasOut).work r
    out.1.ctx.getRules = r.ctx.getRules ++ ((sites files).filter (fun x => decide (Applies L fm r x))).map (fun x => infoOf L.toCaseLib x.1) ∧
    (hasOut = true → Engine.outs out.2 = if enrich = true ∨ ∃ x ∈ sites files, Applies L fm r x then [out.1] else []) := by
  have ha := fun a f hf r => (hb a f hf r).1
  obtain ⟨fm', hc, hlen, hsite⟩ := sigma_rules _ _ _ _ _ _ hcomp
  have hfm : fm' = fm := by
    rcases hcfg with ⟨rfl, rfl⟩ | rfl
    · cases hc; rfl
    · cases hc; rfl
  subst hfm
  have hmem : ∀ q, q ∈ parsed files → .ok q ∈ files := by
    clear hsite hlen hs hcomp
    intro q
    induction files with
    | nil => intro h; cases h
    | cons f fs ih =>
      intro h
      cases f with
      | ok y =>
        rw [parsed] at h
        rcases List.mem_cons.1 h with rfl | h
        · simp
        · exact List.mem_cons_of_mem _ (ih h)
      | unreadable => exact List.mem_cons_of_mem _ (ih h)
      | unparsable => exact List.mem_cons_of_mem _ (ih h)
  -- the rules correspond to the conditions
  have hrel : List.Forall₂ (fun (x : Site) (rule : Rule Record) => x.1 ∈ parsed files ∧ rule.toRuleInfo = infoOf L.toCaseLib x.1 ∧
      visitExpr (flatOps L getMappers) fm' pathMatch x.1.searches x.2 = some rule.condition) (sites files) rules := by
    rw [List.forall₂_iff_get]
    refine ⟨hlen.symm, fun i h1 h2 => ?_⟩
    obtain ⟨rule, e1, e2, e3, e4, e5, e6, e7, e8, e9⟩ := hsite i (sites files)[i].1 (sites files)[i].2 (List.getElem?_eq_getElem h1)
    rw [List.getElem?_eq_getElem h2, Option.some.injEq] at e1
    simp only [List.get_eq_getElem]
    rw [e1]
    refine ⟨?_, ?_, e9⟩
    · have hm : (sites files)[i] ∈ sites files := List.getElem_mem _
      obtain ⟨q, hq, hm⟩ := List.mem_flatMap.1 hm
      obtain ⟨y, _, hm⟩ := List.mem_map.1 hm
      rw [← hm]; exact hq
    · have : rule.toRuleInfo = ⟨rule.name, rule.desc, rule.actions, rule.tags, rule.priority, rule.prefilter, rule.enabled⟩ := rfl
      rw [this, e2, e3, e4, e5, e6, e7, e8]
      rfl
  have hbuilt : ∀ rule ∈ rules, Built (flatOps L getMappers) rule.condition := by
    clear hcomp hsite hlen
    generalize sites files = xs at hrel
    induction hrel with
    | nil => intro rule h; cases h
    | cons h _ ih =>
      intro rule hm
      rcases List.mem_cons.mp hm with rfl | hm
      · exact sigma_built _ _ _ _ _ _ h.2.2
      · exact ih rule hm
  have hrule : ∀ (x : Site) (rule : Rule Record), (x.1 ∈ parsed files ∧ rule.toRuleInfo = infoOf L.toCaseLib x.1 ∧
      visitExpr (flatOps L getMappers) fm' pathMatch x.1.searches x.2 = some rule.condition) →
      (Applies L fm' r x ↔ Engine.Fires (flatInterp L enrich rules [] bi us hasOut) r rule) ∧ infoOf L.toCaseLib x.1 = rule.toRuleInfo := by
    rintro x rule ⟨h0, h1, h2⟩
    refine ⟨?_, h1.symm⟩
    have e1 : rule.enabled = true := by rw [show rule.enabled = rule.toRuleInfo.enabled from rfl, h1]; rfl
    have e2 : rule.prefilter = [] := by rw [show rule.prefilter = rule.toRuleInfo.prefilter from rfl, h1]; rfl
    have e3 := sigma_condition _ _ _ _ (hs x.1 (hmem _ h0)) r _ _ h2
    unfold Applies Engine.Fires
    rw [← e3, e1]
    show _ ↔ _ ∧ isApplicable L getMappers r rule = true ∧ _
    rw [FlatRecord.prefilter_iff, e2]
    show _ ↔ true = true ∧ _ ∧ rule.condition.eval r = true
    simp
  have hnd : ¬ Engine.Dropped (flatInterp L enrich rules [] bi us hasOut) r := by
    rintro ⟨f, hf, _⟩
    cases hf
  refine ⟨?_, ?_⟩
  · refine (flat_record_rules L enrich rules [] bi us hasOut hbuilt ha (fun a f hf r => (hb a f hf r).2) r).trans ?_
    rw [if_neg hnd, forall₂_filter_map (P := Applies L fm' r) (Q := Engine.Fires (flatInterp L enrich rules [] bi us hasOut) r)
        (f := fun x => infoOf L.toCaseLib x.1) (g := fun rule => rule.toRuleInfo) hrule hrel]
  · intro ho
    have hfire := forall₂_exists (P := Applies L fm' r) (Q := Engine.Fires (flatInterp L enrich rules [] bi us hasOut) r) (fun x rule h => (hrule x rule h).1) hrel
    obtain ⟨h1, h2⟩ := Engine.record_disposition _ (fun r => r.fr) (flat_stable L enrich rules [] bi us hasOut hbuilt ha) ho r
    by_cases hx : enrich = true ∨ ∃ x ∈ sites files, Applies L fm' r x
    · rw [if_pos hx]
      exact h1 ⟨hnd, hx.imp id (fun h => hfire.mp h)⟩
    · rw [if_neg hx]
      exact h2 (fun h => hx (h.2.imp id (fun h => hfire.mpr h)))

open Classical in
/-- **C88** From Sigma rule files to alerts. Whatever the rules: if the files can be read and the compiler copes with the rules, they compile, and the engine then attaches to
every record exactly the rules with a condition that is true of the record, once for each such condition, in order of files and conditions; in alert mode the record is passed on,
once, exactly when some condition is true, in enrich mode always. Rules that cannot be parsed say nothing. -/
theorem sigma_files_to_alerts (L : Lib) (files : List RuleFile) (cfg : ConfigFile) (fm : FieldMappings)
    (hf : .unreadable ∉ files) (hcfg : Configures cfg fm) (hs : ∀ r, .ok r ∈ files → Supported fm r) :
    ∃ rules, compile L.toCaseLib (flatOps L getMappers) pathMatch files cfg = some (some rules) ∧
      ∀ (enrich hasOut : Bool) (bi us : Engine.ActionMap Record), Benign bi us → ∀ r : Record,
        let out := (flatInterp L enrich rules [] bi us hasOut).work r
        out.1.ctx.getRules = r.ctx.getRules ++ ((sites files).filter (fun x => decide (Applies L fm r x))).map (fun x => infoOf L.toCaseLib x.1) ∧
        (hasOut = true → Engine.outs out.2 = if enrich = true ∨ ∃ x ∈ sites files, Applies L fm r x then [out.1] else []) := by
  obtain ⟨rules, hcomp⟩ := sigma_compiles L.toCaseLib (flatOps L getMappers) pathMatch files cfg fm hf hcfg hs
  exact ⟨rules, hcomp, fun enrich hasOut bi us hb r => sigma_compiled_to_alerts L files cfg fm hcfg (fun r hr => (hs r hr).names) rules hcomp enrich hasOut bi us hb r⟩

/-- The demonstration rule is supported. -/
theorem demo_supported : Supported demoConfig demoRule := by
  refine ⟨by decide, ?_⟩
  intro n s hm _ em hem m hmm _
  have h : ((demoRule.searches.flatMap (·.2.matchers)).flatten.all (fun m => decide ("base64Offset".toList ∉ m.modifiers) && decide ("cidr".toList ∉ m.modifiers) &&
      decide (demoConfig.get m.field ≠ some ([] : List Str)))) = true := by decide +kernel
  have := List.all_eq_true.1 h m (List.mem_flatten.2 ⟨em, List.mem_flatMap.2 ⟨(n, s), hm, hem⟩, hmm⟩)
  rw [Bool.and_eq_true, Bool.and_eq_true] at this
  exact ⟨of_decide_eq_true this.1.1, of_decide_eq_true this.1.2, of_decide_eq_true this.2⟩

example : ∃ rules, compile demoLib.toCaseLib (flatOps demoLib getMappers) pathMatch [.unparsable, .ok demoRule] (.ok demoConfig) = some (some rules) ∧ rules.length = 2 := by
  obtain ⟨rules, h, _⟩ := sigma_files_to_alerts demoLib [.unparsable, .ok demoRule] (.ok demoConfig) demoConfig (by simp) (.inr rfl) (by
    intro r hr
    have : r = demoRule := by simpa using hr
    rw [this]; exact demo_supported)
  refine ⟨rules, h, ?_⟩
  obtain ⟨_, _, hl, _⟩ := sigma_rules _ _ _ _ _ _ h
  exact hl

/-- **C87** (finding) "all of pattern" with a pattern that denotes the name of no search, e.g. because it is misspelt or ill formed, is true of every record, and "not 1 of
pattern" as well. -/
theorem unmatched_pattern_fires {R : Type u} (ops : Operations R) (fm : FieldMappings) (S : GoMap Search) (hS : (S.map (·.1)).Nodup) (p : Str)
    (hp : ∀ n s, (n, s) ∈ S → ¬ ∃ es, PatText p es ∧ Matches es n) (e : SearchExpr) (he : e = .allOfPattern p ∨ e = .not (.oneOfPattern p)) :
    ∃ c, visitExpr ops fm pathMatch S e = some c ∧ ∀ r, c.eval r = true := by
  have hnone : ∀ n s, (n, s) ∈ S → ¬ pathMatch p n = true := fun n s h hm => hp n s h (pattern_sound p n hm)
  have hf : S.filter (fun q => pathMatch p q.1) = [] := List.filter_eq_nil_iff.2 (fun q hq => hnone q.1 q.2 hq)
  have hc : ∃ c, visitExpr ops fm pathMatch S e = some c := by
    rcases he with rfl | rfl
    · rw [visitExpr, hf]; exact ⟨_, rfl⟩
    · rw [visitExpr, visitExpr, hf]; exact ⟨_, rfl⟩
  obtain ⟨c, hc⟩ := hc
  refine ⟨c, hc, fun r => (sigma_condition ops fm pathMatch S hS r e c hc).2 ?_⟩
  rcases he with rfl | rfl
  · rw [Holds]
    intro n s h hm
    exact absurd hm (hnone n s h)
  · rw [Holds, Holds]
    rintro ⟨n, s, h, hm, _⟩
    exact hnone n s h hm

example : ∀ n s, (n, s) ∈ [("selection".toList, ({} : Search))] → ¬ ∃ es, PatText "filter*".toList es ∧ Matches es n := by
  intro n s h
  have : n = "selection".toList := by
    rw [List.mem_singleton] at h
    exact congrArg Prod.fst h
  subst this
  rw [← pattern_iff _ _ (by decide)]
  decide

end Verif.Sigma
