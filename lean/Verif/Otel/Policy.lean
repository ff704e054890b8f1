import Verif.Otel.Enrich
import Verif.Otel.Examples
import Verif.Falco.Mentions
/-
C84: from policy files to what the policy engine makes of OpenTelemetry logs.
Sources: /repo/core/policyengine/policyengine_otel.go:26-36, /repo/core/policyengine/policy/falco/compiler.go, /repo/core/policyengine/engine/interpreter.go:155-184,
/repo/core/policyengine/source/otel/{operations,contextualizer,prefilter}.go
-/
namespace Verif.Otel
open Verif.Decimal (Str)
open Verif.Policy
open Verif.Falco (RuleDecl FilterDecl Decl Env Site sites asRule asFilter siteCond infoOf enabledOf ExprVal GPolicy ltokens StrRule Cyclic MentionsE)

/-! ### Specification -/

/-- The attributes of a record in lookup order. -/
def attrsOf (rl : ResourceLogs) : List KV := attributes (rl.resource.getD []) rl.scopes

/-- The comparison `k op x` holds of a record: some value decides it and matches. -/
def Holds (L : Lib) (k x : Str) (op : Operator) (rl : ResourceLogs) : Prop := ∃ v, Decides k (attrsOf rl) v ∧ Matches L v x op

/-- A regular expression applied to an attribute finds something in it: in the first attribute of that name, which is a text. -/
def Finds (L : Lib) (k re : Str) (rl : ResourceLogs) : Prop :=
  ∃ find, L.regexp re = some find ∧ ∃ pre post s, attrsOf rl = pre ++ (k, .str s) :: post ∧ (∀ p ∈ pre, p.1 ≠ k) ∧ find s ≠ []

open Classical in
/-- What the operations of the policy language mean for a record. -/
noncomputable def meaning (L : Lib) : Operations ResourceLogs where
  exist k := ⟨fun rl => decide (∃ v, (k, v) ∈ attrsOf rl)⟩
  compare k x op := ⟨fun rl => decide (Holds L k x op rl)⟩
  foldAny k xs op := ⟨fun rl => decide (∃ x ∈ xs, Holds L k x op rl)⟩
  foldAll k xs op := ⟨fun rl => decide (∀ x ∈ xs, Holds L k x op rl)⟩
  regExp k re := (⟨fun rl => decide (Finds L k re rl)⟩, (L.regexp re).isNone)

/-- A value without holes: no absent value in it, no empty array. -/
inductive Whole : Value → Prop
  | unset : Whole .unset
  | str (s : Str) : Whole (.str s)
  | bool (b : Bool) : Whole (.bool b)
  | bytes (bs : List UInt8) : Whole (.bytes bs)
  | double (d : UInt64) : Whole (.double d)
  | int (n : Int) : Whole (.int n)
  | arr (vs : List Value) : vs ≠ [] → .missing ∉ vs → Whole (.arr vs)
  | kvlist (kvs : List KV) : (∀ p ∈ kvs, Whole p.2) → Whole (.kvlist kvs)

/-- A record that has a resource and only such values. -/
def WholeLogs (rl : ResourceLogs) : Prop := rl.resource ≠ none ∧ ∀ p ∈ attrsOf rl, Whole p.2

/-- An attribute the processor does not write. -/
def Foreign (k : Str) : Prop := k ≠ "sf.processor.rules".toList ∧ k ≠ "sf.processor.tags".toList

/-- The rule declaration applies to a record: it is enabled and its condition is true under the definitions in force. (Prefilters play no role for OpenTelemetry logs.) -/
def OApplies (L : Lib) (rl : ResourceLogs) (x : RuleDecl × Env) : Prop :=
  enabledOf x.1.enabled = true ∧ ExprVal (meaning L) x.2 rl x.1.cond true

/-- Some enabled filter declaration is true of the record. -/
def OFiltered (L : Lib) (rl : ResourceLogs) (dss : List (List Decl)) : Prop :=
  ∃ x ∈ (sites dss).filterMap asFilter, enabledOf x.1.enabled = true ∧ ExprVal (meaning L) x.2 rl x.1.cond true

open Classical in
/-- The rules that apply to a record, in order of declaration. -/
noncomputable def applicable (L : Lib) (rl : ResourceLogs) (dss : List (List Decl)) : List RuleInfo :=
  (((sites dss).filterMap asRule).filter (fun x => decide (OApplies L rl x))).map (fun x => infoOf x.1)

/-- `out` is `rl` with these rules noted in it: `rl` itself if there are none; otherwise one scope is added at the end, which lists the names of the rules, in order, and their tags,
rule by rule, each tag of a rule once. -/
def Noted (rl : ResourceLogs) (rules : List RuleInfo) (out : ResourceLogs) : Prop :=
  (rules = [] → out = rl) ∧
  (rules ≠ [] → ∃ tags : List (List Str), List.Forall₂ (fun (x : RuleInfo) ts => ts.Nodup ∧ ∀ t, t ∈ ts ↔ t ∈ x.tags.flatten) rules tags ∧
    out = { rl with scopes := rl.scopes ++ [processorScope (rules.map (·.name)) tags.flatten] })

/-! ### Operations on records without holes -/

theorem whole_decides {k : Str} {kvs : List KV} {v : Value} (h : Decides k kvs v) (hw : ∀ p ∈ kvs, p.1 = k → Whole p.2) : Whole v := by
  induction h with
  | here pre post v _ _ _ => exact hw (k, v) (by simp) rfl
  | nested pre post kvs v _ h ih =>
    have := hw (k, .kvlist kvs) (by simp) rfl
    cases this with
    | kvlist _ h => exact ih (fun p hp _ => h p hp)

theorem whole_compare (L : Lib) (k x : Str) (op : Operator) (rl : ResourceLogs) (hr : rl.resource ≠ none) (hw : ∀ p ∈ attrsOf rl, p.1 = k → Whole p.2) :
    compare? L k x op rl ≠ none := by
  intro h
  rcases (otel_compare_panics_iff L k x op rl).1 h with h | ⟨res, v, h1, h2, h3⟩
  · exact hr h
  · have : attrsOf rl = attributes res rl.scopes := by unfold attrsOf; rw [h1]; rfl
    have hv := whole_decides h2 (by rw [← this]; exact hw)
    rcases h3 with rfl | ⟨vs, rfl, hp⟩
    · cases hv
    · cases hv with
      | arr _ h1 h2 =>
        cases op <;> simp only [ArrayPanics] at hp
        case Contains => obtain ⟨pre, post, rfl, _⟩ := hp; exact h2 (by simp)
        case IContains => obtain ⟨pre, post, rfl, _⟩ := hp; exact h2 (by simp)
        case Startswith => rcases hp with rfl | ⟨rest, rfl⟩; exact h1 rfl; exact h2 (by simp)
        case IStartswith => rcases hp with rfl | ⟨rest, rfl⟩; exact h1 rfl; exact h2 (by simp)
        case Endswith => rcases hp with rfl | ⟨rest, rfl⟩; exact h1 rfl; exact h2 (by simp)
        case IEndswith => rcases hp with rfl | ⟨rest, rfl⟩; exact h1 rfl; exact h2 (by simp)

theorem whole_exists (k : Str) (rl : ResourceLogs) (hr : rl.resource ≠ none) : exists? k rl ≠ none := by
  obtain ⟨res, hres⟩ := Option.ne_none_iff_exists'.1 hr
  obtain ⟨b, hb, _⟩ := otel_exists k rl res hres
  rw [hb]; simp

theorem whole_folds (L : Lib) (k : Str) (xs : List Str) (op : Operator) (rl : ResourceLogs) (hr : rl.resource ≠ none) (hw : ∀ p ∈ attrsOf rl, p.1 = k → Whole p.2) :
    foldAny? L k xs op rl ≠ none ∧ foldAll? L k xs op rl ≠ none := by
  obtain ⟨res, hres⟩ := Option.ne_none_iff_exists'.1 hr
  have hc : ∀ x, cmpKVs L k x op (attributes res rl.scopes) ≠ none := by
    intro x
    have := whole_compare L k x op rl hr hw
    unfold compare? at this
    rw [(otel_attribute_order rl).1 res hres] at this
    exact this
  unfold foldAny? foldAll?
  rw [(otel_attribute_order rl).1 res hres]
  dsimp only
  constructor
  · induction xs with
    | nil => simp [foldAnyLoop]
    | cons x xs ih =>
      rw [foldAnyLoop]
      cases h : cmpKVs L k x op (attributes res rl.scopes) with
      | none => exact absurd h (hc x)
      | some b => cases b <;> simp_all
  · induction xs with
    | nil => simp [foldAllLoop]
    | cons x xs ih =>
      rw [foldAllLoop]
      cases h : cmpKVs L k x op (attributes res rl.scopes) with
      | none => exact absurd h (hc x)
      | some b => cases b <;> simp_all

theorem whole_regexp (L : Lib) (k re : Str) (rl : ResourceLogs) (hr : rl.resource ≠ none) (hw : ∀ p ∈ attrsOf rl, p.1 = k → Whole p.2) :
    (regExp? L k re).1 rl ≠ none := by
  obtain ⟨res, hres⟩ := Option.ne_none_iff_exists'.1 hr
  unfold regExp?
  cases L.regexp re with
  | none => simp
  | some find =>
    dsimp only
    rw [(otel_attribute_order rl).1 res hres]
    have e : attrsOf rl = attributes res rl.scopes := by unfold attrsOf; rw [hres]; rfl
    rw [e] at hw
    dsimp only
    generalize attributes res rl.scopes = kvs at hw
    induction kvs with
    | nil => simp [regExpLoop]
    | cons p kvs ih =>
      obtain ⟨q, v⟩ := p
      unfold regExpLoop
      by_cases h : q = k
      · subst h
        have := hw (q, v) (by simp) rfl
        cases v <;> first | (cases this; done) | simp
      · simp only [ne_eq, h, not_false_eq_true, if_true]
        exact ih (fun p hp => hw p (List.mem_cons_of_mem _ hp))

/-- On a record without holes the operations mean what they should. -/
theorem whole_meaning (L : Lib) (rl : ResourceLogs) (hw : WholeLogs rl) : Falco.AgreeOn (otelOps L) (meaning L) rl (fun _ => True) := by
  classical
  obtain ⟨hr, hw⟩ := hw
  obtain ⟨res, hres⟩ := Option.ne_none_iff_exists'.1 hr
  have e : attrsOf rl = attributes res rl.scopes := by unfold attrsOf; rw [hres]; rfl
  have hcmp : ∀ k x op, compare? L k x op rl = some true ↔ Holds L k x op rl := by
    intro k x op
    obtain ⟨b, hb⟩ := Option.ne_none_iff_exists'.1 (whole_compare L k x op rl hr (fun p hp _ => hw p hp))
    have := otel_compare L k x op rl res hres b hb
    rw [hb, Option.some.injEq, this]
    unfold Holds
    rw [e]
  have beq : ∀ (o : Option Bool) (p : Prop) [Decidable p], (o = some true ↔ p) → (o == some true) = decide p := by
    intro o p _ h
    by_cases hp : p
    · rw [h.2 hp]; simp [hp]
    · have : o ≠ some true := fun h' => hp (h.1 h')
      simp [hp, this]
  refine ⟨fun k _ => ?_, fun k x op _ => ?_, fun k xs op _ => ?_⟩
  · show (exists? k rl == some true) = decide _
    refine beq _ _ ?_
    obtain ⟨b, hb, hiff⟩ := otel_exists k rl res hres
    rw [hb, Option.some.injEq, hiff, e]
  · exact beq _ _ (hcmp k x op)
  · show (foldAny? L k xs op rl == some true) = decide _
    refine beq _ _ ?_
    obtain ⟨b, hb⟩ := Option.ne_none_iff_exists'.1 (whole_folds L k xs op rl hr (fun p hp _ => hw p hp)).1
    rw [hb, Option.some.injEq, (otel_folds L k xs op rl b).1 hb]
    simp only [hcmp]

/-! ## C84 -/

/-- **C84** No panic: on a record without holes that arrives without the processor's scope, attaching rules succeeds however often it is done, and afterwards every
operation on attributes that the processor does not write, and before also on those it writes, returns. -/
theorem otel_no_panic (L : Lib) (order : List Str → List Str) (rl : ResourceLogs) (hw : WholeLogs rl) (hf : Fresh rl.scopes) (rss : List (List RuleInfo)) :
    ∃ rl', addAll order rl rss = some rl' ∧ ∀ k, (rss = [] ∨ Foreign k) →
      exists? k rl' ≠ none ∧ (∀ x op, compare? L k x op rl' ≠ none) ∧ (∀ xs op, foldAny? L k xs op rl' ≠ none) ∧
      (∀ xs op, foldAll? L k xs op rl' ≠ none) ∧ ∀ re, (regExp? L k re).1 rl' ≠ none := by
  obtain ⟨hr, hw⟩ := hw
  have key : ∀ rl' : ResourceLogs, rl'.resource ≠ none → ∀ k, (∀ p ∈ attrsOf rl', p.1 = k → Whole p.2) →
      exists? k rl' ≠ none ∧ (∀ x op, compare? L k x op rl' ≠ none) ∧ (∀ xs op, foldAny? L k xs op rl' ≠ none) ∧
      (∀ xs op, foldAll? L k xs op rl' ≠ none) ∧ ∀ re, (regExp? L k re).1 rl' ≠ none :=
    fun rl' h1 k h2 => ⟨whole_exists k rl' h1, fun x op => whole_compare L k x op rl' h1 h2, fun xs op => (whole_folds L k xs op rl' h1 h2).1,
      fun xs op => (whole_folds L k xs op rl' h1 h2).2, fun re => whole_regexp L k re rl' h1 h2⟩
  by_cases hne : rss = []
  · subst hne
    exact ⟨rl, rfl, fun k _ => key rl hr k (fun p hp _ => hw p hp)⟩
  · refine ⟨_, otel_enrich_history order rl rss hf hne, fun k hk => ?_⟩
    refine key { rl with scopes := rl.scopes ++ [processorScope (rss.flatten.map (·.name)) (rss.flatMap (fun rs => order (tagSet rs)))] } hr k ?_
    have hk := hk.resolve_left hne
    rintro p hp rfl
    have : attrsOf { rl with scopes := rl.scopes ++ [processorScope (rss.flatten.map (·.name)) (rss.flatMap (fun rs => order (tagSet rs)))] } =
        attrsOf rl ++ scopeAttributes (processorScope (rss.flatten.map (·.name)) (rss.flatMap (fun rs => order (tagSet rs)))) := by
      unfold attrsOf attributes
      dsimp only
      rw [List.flatMap_append, List.append_assoc, List.flatMap_cons, List.flatMap_nil, List.append_nil]
    rw [this] at hp
    rcases List.mem_append.1 hp with hp | hp
    · exact hw p hp
    · simp only [scopeAttributes, processorScope, List.flatMap_nil, List.append_nil, List.mem_cons, List.not_mem_nil, or_false] at hp
      rcases hp with rfl | rfl
      · exact absurd rfl hk.1
      · exact absurd rfl hk.2

theorem noted_of {order : List Str → List Str} (ho : ∀ l, (order l).Perm l) (rl : ResourceLogs) (rules : List RuleInfo) :
    Noted rl rules (if rules = [] then rl else
      { rl with scopes := rl.scopes ++ [processorScope (rules.map (·.name)) (rules.flatMap (fun x => order (tagSet [x])))] }) := by
  refine ⟨fun h => by rw [if_pos h], fun h => ?_⟩
  rw [if_neg h]
  refine ⟨rules.map (fun x => order (tagSet [x])), ?_, by rw [List.flatMap_def]⟩
  clear h
  induction rules with
  | nil => exact .nil
  | cons x xs ih =>
    refine .cons ⟨(ho _).nodup_iff.2 (otel_tags [x]).1, fun t => ?_⟩ ih
    rw [(ho _).mem_iff, (otel_tags [x]).2]
    simp [List.mem_flatten]

open Classical in
/-- **C84** Policy files whose texts are declarations of the rule language, in which no definition refers back to itself and no rule reads the attributes the processor writes, are compiled;
and the engine then notes in every record without holes that arrives without the processor's scope exactly the declared rules, in order of declaration, that are enabled and whose condition is true
of the record under the definitions in force, changing nothing else; unless an enabled filter is true of it, when the record stays as it is and is not passed on. In alert mode the
record is passed on, once, exactly when some rule is noted. -/
theorem otel_policy_texts_to_alerts (L : Lib) {str : Str → Option Nat} (hs : StrRule str) (texts : List Str) (dss : List (List Decl))
    (ht : List.Forall₂ (fun s ds => GPolicy (ltokens str s) ds) texts dss)
    (hc : ∀ x ∈ sites dss, ∀ e, siteCond x = some e → ¬ Cyclic x.2 e)
    (hk : ∀ x ∈ (sites dss).filterMap asRule, ∀ k, MentionsE x.2 k x.1.cond → Foreign k) :
    ∃ n rules filters, Falco.compile (otelOps L) n (texts.map (Falco.fileOf str)) = some (some (rules, filters)) ∧
      ∀ (order : List Str → List Str) (enrich hasOut : Bool) (bi us : Engine.ActionMap ResourceLogs), (∀ l, (order l).Perm l) →
        (∀ a f, (bi a = some f ∨ us a = some f) → ∀ r, (f r).1 = r) → ∀ rl : ResourceLogs, WholeLogs rl → Fresh rl.scopes →
        let out := (otelInterp order enrich rules filters bi us hasOut).work rl
        Noted rl (if OFiltered L rl dss then [] else applicable L rl dss) out.1 ∧
        (hasOut = true → Engine.outs out.2 =
          if OFiltered L rl dss then [] else if enrich = true ∨ applicable L rl dss ≠ [] then [out.1] else []) := by
  have hfiles : texts.map (Falco.fileOf str) = dss.map Falco.File.ok := by
    clear hc hk
    induction ht with
    | nil => rfl
    | cons h _ ih =>
      rw [List.map_cons, List.map_cons, ih, (Falco.policy_accepted_iff hs _ _).mpr h]
  obtain ⟨n, rules, filters, hcomp⟩ := Falco.falco_policy_terminates (otelOps L) dss (by
    intro earlier before d after later e hd he
    have hsite : (d, Falco.envAt earlier (before ++ d :: after) before) ∈ sites dss := by
      rw [hd]
      unfold sites Falco.envAt
      rw [Falco.sitesFrom_append, Falco.sitesFrom, Falco.fileSites_split]
      exact List.mem_append_right _ (List.mem_append_left _ (List.mem_append_right _ List.mem_cons_self))
    refine hc _ hsite e ?_
    cases d with
    | rule d => exact he
    | filter d => exact he
    | _ => cases he)
  refine ⟨n, rules, filters, by rw [hfiles]; exact hcomp, ?_⟩
  intro order enrich hasOut bi us ho ha rl hw hf
  obtain ⟨hr, hfi⟩ := Falco.compile_sites (otelOps L) n dss rules filters hcomp
  have hag := whole_meaning L rl hw
  have hreads : ∀ rule ∈ rules, Reads L rule.condition := by
    clear hcomp hfi
    generalize (sites dss).filterMap asRule = xs at hr hk
    induction hr with
    | nil => intro rule h; cases h
    | @cons x r1 _ _ h _ ih =>
      intro rule hm
      rcases List.mem_cons.mp hm with rfl | hm
      · exact Falco.falco_closed (otelOps L) x.2 Foreign (Reads L) .tt .ff .and .or .not (fun k hk => .exist k hk) (fun k x op hk => .compare k x op hk)
          (fun k vs op hk => .foldAny k vs op hk) _ _ h.2 (hk x (by simp))
      · exact ih (fun y hy => hk y (by simp [hy])) rule hm
  have hrule : ∀ (x : RuleDecl × Env) (rule : Rule ResourceLogs), Falco.RuleAt (otelOps L) x rule →
      (OApplies L rl x ↔ Engine.Fires (otelInterp order enrich rules filters bi us hasOut) rl rule) ∧ infoOf x.1 = rule.toRuleInfo := by
    rintro x rule ⟨h1, h2⟩
    refine ⟨?_, h1.symm⟩
    have e1 : rule.enabled = enabledOf x.1.enabled := by rw [show rule.enabled = rule.toRuleInfo.enabled from rfl, h1]; rfl
    have e3 := Falco.falco_condition_meaning _ _ _ _ h2 rl true
    unfold OApplies Engine.Fires
    rw [← e1, ← Falco.exprVal_agreeOn hag x.2 x.1.cond true (fun _ _ => trivial), e3]
    show _ ↔ _ ∧ isApplicable rl rule = true ∧ _
    unfold isApplicable
    simp only [true_and]
    rfl
  have hdrop : OFiltered L rl dss ↔ Engine.Dropped (otelInterp order enrich rules filters bi us hasOut) rl := by
    unfold OFiltered Engine.Dropped
    refine Falco.forall₂_exists ?_ hfi
    rintro x f ⟨h1, h2⟩
    rw [h1, ← Falco.exprVal_agreeOn hag x.2 x.1.cond true (fun _ _ => trivial), Falco.falco_condition_meaning _ _ _ _ h2 rl true]
    rfl
  have hmap : applicable L rl dss = (rules.filter (fun x => decide (Engine.Fires (otelInterp order enrich rules filters bi us hasOut) rl x))).map (·.toRuleInfo) :=
    Falco.forall₂_filter_map (P := OApplies L rl) (Q := Engine.Fires (otelInterp order enrich rules filters bi us hasOut) rl)
        (f := fun x => infoOf x.1) (g := fun rule => rule.toRuleInfo) hrule hr
  have hst := otel_stable L order enrich rules filters bi us hasOut hreads ha
  refine ⟨?_, ?_⟩
  · have h := otel_engine L order enrich rules filters bi us hasOut hreads ha rl hf
    dsimp only at h
    rw [h]
    by_cases hd : OFiltered L rl dss
    · rw [if_pos hd, if_pos (.inl (hdrop.mp hd))]
      exact ⟨fun _ => rfl, fun h => absurd rfl h⟩
    · rw [if_neg hd]
      have := noted_of ho rl (applicable L rl dss)
      have hd' := fun h => hd (hdrop.mpr h)
      by_cases he : rules.filter (fun x => decide (Engine.Fires (otelInterp order enrich rules filters bi us hasOut) rl x)) = []
      · rw [if_pos (.inr he)]
        have he' : applicable L rl dss = [] := by rw [hmap, he]; rfl
        rw [if_pos he'] at this
        exact this
      · rw [if_neg (by rintro (h | h); exact hd' h; exact he h)]
        have he' : applicable L rl dss ≠ [] := by rw [hmap]; exact fun h => he (List.map_eq_nil_iff.1 h)
        rw [if_neg he'] at this
        rw [hmap, List.map_map, List.flatMap_map] at this
        rw [hmap]
        exact this
  · intro hout
    obtain ⟨h1, h2⟩ := Engine.record_disposition _ view hst hout rl
    have hex : applicable L rl dss ≠ [] ↔ ∃ x ∈ rules, Engine.Fires (otelInterp order enrich rules filters bi us hasOut) rl x := by
      rw [hmap]
      simp [List.filter_eq_nil_iff]
    by_cases hd : OFiltered L rl dss
    · rw [if_pos hd]
      exact h2 (fun h => h.1 (hdrop.mp hd))
    · rw [if_neg hd]
      have hd' := fun h => hd (hdrop.mpr h)
      by_cases hx : enrich = true ∨ applicable L rl dss ≠ []
      · rw [if_pos hx]
        exact h1 ⟨hd', hx.imp id (fun h => hex.mp h)⟩
      · rw [if_neg hx]
        exact h2 (fun h => hx (h.2.imp id (fun h => hex.mpr h)))

end Verif.Otel
