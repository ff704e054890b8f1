import Verif.Otel.Policy
/-
C114: a policy engine for OpenTelemetry logs on records that other policy engines have processed before.
Sources: /repo/core/policyengine/engine/interpreter.go:155-184, /repo/core/policyengine/source/otel/contextualizer.go
-/
namespace Verif.Otel
open Verif.Decimal (Str)
open Verif.Policy
open Verif.Falco (RuleDecl FilterDecl Decl Env Site sites asRule asFilter siteCond infoOf enabledOf ExprVal GPolicy ltokens StrRule Cyclic MentionsE)

theorem snoc_forall₂ {α β : Type} {r : α → β → Prop} {xs : List α} {ys : List β} (h : List.Forall₂ r xs ys) {x : α} {y : β} (hxy : r x y) : List.Forall₂ r (xs ++ [x]) (ys ++ [y]) := by
  induction h with
  | nil => exact .cons hxy .nil
  | cons h _ ih => exact .cons h ih

/-- Noting one more rule in a record. -/
theorem noted_add {order : List Str → List Str} (ho : ∀ l, (order l).Perm l) {rl mid : ResourceLogs} (hf : Fresh rl.scopes) {R : List RuleInfo} (h : Noted rl R mid) (x : RuleInfo) :
    ∃ out, addRules? order mid [x] = some out ∧ Noted rl (R ++ [x]) out := by
  have htag : (order (tagSet [x])).Nodup ∧ ∀ t, t ∈ order (tagSet [x]) ↔ t ∈ x.tags.flatten := by
    refine ⟨(ho _).nodup_iff.2 (otel_tags [x]).1, fun t => ?_⟩
    rw [(ho _).mem_iff, (otel_tags [x]).2]
    simp [List.mem_flatten]
  by_cases hR : R = []
  · subst hR
    rw [h.1 rfl, otel_enrich_first order rl [x] hf]
    refine ⟨_, rfl, fun h => (by cases h), fun _ => ⟨[order (tagSet [x])], .cons htag .nil, ?_⟩⟩
    simp
  · obtain ⟨tags, h1, rfl⟩ := h.2 hR
    rw [otel_enrich_again order _ [x] rl.scopes [] (processorScope (R.map (·.name)) tags.flatten) _ [] (texts (R.map (·.name))) (texts tags.flatten) rfl hf rfl rfl rfl]
    refine ⟨_, rfl, fun h => absurd h (by simp), fun _ => ⟨tags ++ [order (tagSet [x])], snoc_forall₂ h1 htag, ?_⟩⟩
    simp [processorScope, texts]

/-- Noting rules one after the other. -/
theorem noted_fold {order : List Str → List Str} (ho : ∀ l, (order l).Perm l) {rl : ResourceLogs} (hf : Fresh rl.scopes) : ∀ (xs : List (Rule ResourceLogs)) (R : List RuleInfo) (mid : ResourceLogs), Noted rl R mid →
    Noted rl (R ++ xs.map (·.toRuleInfo)) (xs.foldl (fun r x => (addRules? order r [x.toRuleInfo]).getD r) mid) := by
  intro xs
  induction xs with
  | nil => intro R mid h; simpa using h
  | cons x xs ih =>
    intro R mid h
    obtain ⟨out, h1, h2⟩ := noted_add ho hf h x.toRuleInfo
    have := ih _ _ h2
    rw [List.foldl_cons, h1]
    simpa using this

/-- Conditions that do not read the processor's attributes do not see what is noted. -/
theorem noted_view {rl mid : ResourceLogs} {R : List RuleInfo} (h : Noted rl R mid) : view mid = view rl := by
  by_cases hR : R = []
  · rw [h.1 hR]
  · obtain ⟨tags, -, rfl⟩ := h.2 hR
    unfold view
    refine Prod.ext rfl ?_
    funext k
    dsimp only
    by_cases hk : k ≠ rulesKey ∧ k ≠ tagsKey
    · rw [if_pos hk, if_pos hk]
      cases hr : rl.resource with
      | none => rw [(otel_attribute_order rl).2 hr, (otel_attribute_order ⟨none, rl.scopes ++ [processorScope (R.map (·.name)) tags.flatten], rl.rest⟩).2 rfl]
      | some res =>
        rw [(otel_attribute_order rl).1 res hr, (otel_attribute_order ⟨some res, rl.scopes ++ [processorScope (R.map (·.name)) tags.flatten], rl.rest⟩).1 res rfl]
        simp only [Option.getD_some, attributes, List.filter_append, List.flatMap_append, List.flatMap_cons, List.flatMap_nil, List.append_nil]
        have : (scopeAttributes (processorScope (R.map (·.name)) tags.flatten)).filter (fun p => p.1 = k) = [] := by
          rw [List.filter_eq_nil_iff]
          intro p hp
          simp only [scopeAttributes, processorScope, List.flatMap_nil, List.append_nil, List.mem_cons, List.not_mem_nil, or_false] at hp
          simp only [decide_eq_true_eq]
          rintro rfl
          rcases hp with rfl | rfl
          · exact hk.1 rfl
          · exact hk.2 rfl
        rw [this, List.append_nil]
    · rw [if_neg hk, if_neg hk]

/-- What attaches the firing rules: the events of a record, actions leaving it alone. -/
theorem fold_annotated (order : List Str → List Str) (e : Bool) (rules : List (Rule ResourceLogs)) (fs : List (Filter ResourceLogs)) (bi us : Engine.ActionMap ResourceLogs) (o : Bool)
    (ha : ∀ a f, (bi a = some f ∨ us a = some f) → ∀ r, (f r).1 = r) : ∀ (es : List (Engine.Event ResourceLogs)) (r : ResourceLogs),
    es.foldl (Engine.applyEvent (otelInterp order e rules fs bi us o)) r = (Engine.annotated es).foldl (fun r x => (addRules? order r [x.toRuleInfo]).getD r) r := by
  have hact : ∀ a f, Engine.registered (otelInterp order e rules fs bi us o) a = some f → ∀ r, (f r).1 = r := by
    intro a f hh r
    have hh : (bi a).or (us a) = some f := hh
    apply ha a f
    cases hbi : bi a with
    | none => rw [hbi] at hh; right; simpa using hh
    | some g => rw [hbi] at hh; left; simpa using hh
  intro es
  induction es with
  | nil => intro r; rfl
  | cons ev es ih =>
    intro r
    cases ev with
    | annotate x => simp only [List.foldl_cons, Engine.annotated, ih]; rfl
    | act a b =>
      simp only [List.foldl_cons, Engine.annotated, ih, Engine.applyEvent]
      cases hr : Engine.registered (otelInterp order e rules fs bi us o) a with
      | none => rfl
      | some f => simp only [hact a f hr]
    | out r' => simp only [List.foldl_cons, Engine.annotated, ih, Engine.applyEvent]

open Classical in
/-- **C114** A policy engine whose policies, rules and filters, do not read what processors write treats a record that other engines have noted rules in like the record as it arrived: it drops it, passes it on or
keeps it exactly as it would have, and the rules that apply are noted behind those already there, in the same scope. -/
theorem otel_engine_again (L : Lib) {str : Str → Option Nat} (hs : StrRule str) (texts : List Str) (dss : List (List Decl))
    (ht : List.Forall₂ (fun s ds => GPolicy (ltokens str s) ds) texts dss)
    (hc : ∀ x ∈ sites dss, ∀ e, siteCond x = some e → ¬ Cyclic x.2 e)
    (hk : ∀ x ∈ (sites dss).filterMap asRule, ∀ k, MentionsE x.2 k x.1.cond → Foreign k)
    (hkf : ∀ x ∈ (sites dss).filterMap asFilter, ∀ k, MentionsE x.2 k x.1.cond → Foreign k) :
    ∃ n rules filters, Falco.compile (otelOps L) n (texts.map (Falco.fileOf str)) = some (some (rules, filters)) ∧
      ∀ (order : List Str → List Str) (enrich hasOut : Bool) (bi us : Engine.ActionMap ResourceLogs), (∀ l, (order l).Perm l) →
        (∀ a f, (bi a = some f ∨ us a = some f) → ∀ r, (f r).1 = r) → ∀ rl : ResourceLogs, WholeLogs rl → Fresh rl.scopes → ∀ (R : List RuleInfo) (mid : ResourceLogs), Noted rl R mid →
        let out := (otelInterp order enrich rules filters bi us hasOut).work mid
        Noted rl (if OFiltered L rl dss then R else R ++ applicable L rl dss) out.1 ∧
        (hasOut = true → Engine.outs out.2 =
          if OFiltered L rl dss then [] else if enrich = true ∨ applicable L rl dss ≠ [] then [out.1] else []) := by
  have hfiles : texts.map (Falco.fileOf str) = dss.map Falco.File.ok := by
    clear hc hk hkf
    induction ht with
    | nil => rfl
    | cons h _ ih =>
      rw [List.map_cons, List.map_cons, ih, (Falco.policy_accepted_iff hs _ _).mpr h]
  obtain ⟨n, rules, filters, hcomp⟩ := Falco.falco_policy_terminates (otelOps L) dss (by
    intro earlier before d after later e hd he
    have hsite : (d, Falco.envAt earlier (before ++ d :: after) before) ∈ sites dss := by
      rw [hd]
      unfold sites Falco.envAt
      rw [Falco.sitesFrom_append, Falco.sitesFrom, Falco.fileSites_split]
      exact List.mem_append_right _ (List.mem_append_left _ (List.mem_append_right _ List.mem_cons_self))
    refine hc _ hsite e ?_
    cases d with
    | rule d => exact he
    | filter d => exact he
    | _ => cases he)
  refine ⟨n, rules, filters, by rw [hfiles]; exact hcomp, ?_⟩
  intro order enrich hasOut bi us ho ha rl hw hf R mid hmid
  obtain ⟨hr, hfi⟩ := Falco.compile_sites (otelOps L) n dss rules filters hcomp
  have hag := whole_meaning L rl hw
  have hview := noted_view hmid
  have closed := fun (x : Env) (e : Falco.Expr) (c : Criterion ResourceLogs) => Falco.falco_closed (otelOps L) x Foreign (Reads L) .tt .ff .and .or .not (fun k hk => .exist k hk) (fun k x op hk => .compare k x op hk)
          (fun k vs op hk => .foldAny k vs op hk) e c
  have hreads : ∀ rule ∈ rules, Reads L rule.condition := by
    clear hcomp hfi
    generalize (sites dss).filterMap asRule = xs at hr hk
    induction hr with
    | nil => intro rule h; cases h
    | @cons x r1 _ _ h _ ih =>
      intro rule hm
      rcases List.mem_cons.mp hm with rfl | hm
      · exact closed _ _ _ h.2 (hk x (by simp))
      · exact ih (fun y hy => hk y (by simp [hy])) rule hm
  have hreadf : ∀ f ∈ filters, Reads L f.condition := by
    clear hcomp hr
    generalize (sites dss).filterMap asFilter = xs at hfi hkf
    induction hfi with
    | nil => intro rule h; cases h
    | @cons x r1 _ _ h _ ih =>
      intro rule hm
      rcases List.mem_cons.mp hm with rfl | hm
      · exact closed _ _ _ h.2 (hkf x (by simp))
      · exact ih (fun y hy => hkf y (by simp [hy])) rule hm
  have hrule : ∀ (x : RuleDecl × Env) (rule : Rule ResourceLogs), Falco.RuleAt (otelOps L) x rule →
      (OApplies L rl x ↔ Engine.Fires (otelInterp order enrich rules filters bi us hasOut) rl rule) ∧ infoOf x.1 = rule.toRuleInfo := by
    rintro x rule ⟨h1, h2⟩
    refine ⟨?_, h1.symm⟩
    have e1 : rule.enabled = enabledOf x.1.enabled := by rw [show rule.enabled = rule.toRuleInfo.enabled from rfl, h1]; rfl
    have e3 := Falco.falco_condition_meaning _ _ _ _ h2 rl true
    unfold OApplies Engine.Fires
    rw [← e1, ← Falco.exprVal_agreeOn hag x.2 x.1.cond true (fun _ _ => trivial), e3]
    show _ ↔ _ ∧ isApplicable rl rule = true ∧ _
    unfold isApplicable
    simp only [true_and]
    rfl
  have hfires : ∀ rule ∈ rules, (Engine.Fires (otelInterp order enrich rules filters bi us hasOut) mid rule ↔ Engine.Fires (otelInterp order enrich rules filters bi us hasOut) rl rule) := by
    intro rule hm
    unfold Engine.Fires
    rw [reads_view L _ (hreads rule hm) mid rl hview]
    rfl
  have hdrop : OFiltered L rl dss ↔ Engine.Dropped (otelInterp order enrich rules filters bi us hasOut) mid := by
    have h1 : OFiltered L rl dss ↔ Engine.Dropped (otelInterp order enrich rules filters bi us hasOut) rl := by
      unfold OFiltered Engine.Dropped
      refine Falco.forall₂_exists ?_ hfi
      rintro x f ⟨h1, h2⟩
      rw [h1, ← Falco.exprVal_agreeOn hag x.2 x.1.cond true (fun _ _ => trivial), Falco.falco_condition_meaning _ _ _ _ h2 rl true]
      rfl
    rw [h1]
    unfold Engine.Dropped
    constructor
    · rintro ⟨f, hm, h1, h2⟩
      exact ⟨f, hm, h1, (reads_view L _ (hreadf f hm) mid rl hview).trans h2⟩
    · rintro ⟨f, hm, h1, h2⟩
      exact ⟨f, hm, h1, (reads_view L _ (hreadf f hm) mid rl hview).symm.trans h2⟩
  have hmap : applicable L rl dss = (rules.filter (fun x => decide (Engine.Fires (otelInterp order enrich rules filters bi us hasOut) mid x))).map (·.toRuleInfo) := by
    rw [show rules.filter (fun x => decide (Engine.Fires (otelInterp order enrich rules filters bi us hasOut) mid x)) =
      rules.filter (fun x => decide (Engine.Fires (otelInterp order enrich rules filters bi us hasOut) rl x)) from List.filter_congr (fun x hx => by simp only [hfires x hx])]
    exact Falco.forall₂_filter_map (P := OApplies L rl) (Q := Engine.Fires (otelInterp order enrich rules filters bi us hasOut) rl)
        (f := fun x => infoOf x.1) (g := fun rule => rule.toRuleInfo) hrule hr
  have hst := otel_stable L order enrich rules filters bi us hasOut hreads ha
  obtain ⟨hd, hn⟩ := Engine.work_spec _ view hst mid
  refine ⟨?_, ?_⟩
  · by_cases hfl : OFiltered L rl dss
    · rw [if_pos hfl, hd (hdrop.mp hfl)]
      exact hmid
    · rw [if_neg hfl]
      obtain ⟨es, h1, _, h3, h4⟩ := hn (fun h => hfl (hdrop.mpr h))
      rw [h4]
      dsimp only
      rw [fold_annotated order enrich rules filters bi us hasOut ha, h1, hmap]
      have := noted_fold ho hf (Engine.fired (otelInterp order enrich rules filters bi us hasOut) mid) R mid hmid
      exact this
  · intro hout
    obtain ⟨h1, h2⟩ := Engine.record_disposition _ view hst hout mid
    have hex : applicable L rl dss ≠ [] ↔ ∃ x ∈ rules, Engine.Fires (otelInterp order enrich rules filters bi us hasOut) mid x := by
      rw [hmap]
      simp [List.filter_eq_nil_iff]
    by_cases hd : OFiltered L rl dss
    · rw [if_pos hd]
      exact h2 (fun h => h.1 (hdrop.mp hd))
    · rw [if_neg hd]
      have hd' := fun h => hd (hdrop.mpr h)
      by_cases hx : enrich = true ∨ applicable L rl dss ≠ []
      · rw [if_pos hx]
        exact h1 ⟨hd', hx.imp id (fun h => hex.mp h)⟩
      · rw [if_neg hx]
        exact h2 (fun h => hx (h.2.imp id (fun h => hex.mpr h)))

end Verif.Otel
