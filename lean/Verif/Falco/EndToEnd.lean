import Verif.Falco.PolicyProps
import Verif.Falco.CondText
import Verif.Base.Snoc
import Mathlib.Data.List.Forall2
/-
From the texts of policy files to the rules attached to a record.
-/
namespace Verif.Falco
open Verif.Decimal (Str)
open Verif.Policy
open Verif.FlatRecord

variable {R : Type u}

/-! ### Specification -/

/-- A declaration, with the definitions in force where it stands. -/
abbrev Site := Decl × Env

/-- The declarations of a file, `env` being in force at the first. -/
def fileSites : Env → List Decl → List Site
  | _, [] => []
  | env, d :: ds => (d, env) :: fileSites (define env d) ds

/-- The declarations of a sequence of files: at the beginning of a file the definitions of the whole file are already in force. -/
def sitesFrom : Env → List (List Decl) → List Site
  | _, [] => []
  | env, f :: fs => fileSites (f.foldl define env) f ++ sitesFrom (f.foldl define (f.foldl define env)) fs

/-- All declarations of a policy. -/
def sites (dss : List (List Decl)) : List Site := sitesFrom {} dss

/-- The rule declarations among them. -/
def asRule : Site → Option (RuleDecl × Env)
  | (.rule d, env) => some (d, env)
  | _ => none

/-- The filter declarations among them. -/
def asFilter : Site → Option (FilterDecl × Env)
  | (.filter d, env) => some (d, env)
  | _ => none

/-- What a rule declaration says about the rule. -/
def infoOf (d : RuleDecl) : RuleInfo where
  name := d.name
  desc := d.desc
  actions := (d.actions.map extractList).getD []
  tags := (d.tags.map extractList).toList
  priority := getPriority d.severity
  prefilter := (d.prefilter.map extractList).getD []
  enabled := enabledOf d.enabled

/-- The rule declaration applies to a record: it is enabled, its prefilter is empty or lists the type of the record, and its condition
is true under the definitions in force. -/
def Applies (L : Lib) (r : Record) (x : RuleDecl × Env) : Prop :=
  enabledOf x.1.enabled = true ∧ ((infoOf x.1).prefilter = [] ∨ mapStr L getMappers "sf.type".toList r.fr ∈ (infoOf x.1).prefilter) ∧
    ExprVal (flatOps L getMappers) x.2 r x.1.cond true

/-- Some enabled filter declaration is true of the record. -/
def FilteredOut (L : Lib) (r : Record) (dss : List (List Decl)) : Prop :=
  ∃ x ∈ (sites dss).filterMap asFilter, enabledOf x.1.enabled = true ∧ ExprVal (flatOps L getMappers) x.2 r x.1.cond true

/-- The condition of a rule or filter. -/
def siteCond : Site → Option Expr
  | (.rule d, _) => some d.cond
  | (.filter d, _) => some d.cond
  | _ => none

/-! ### Sites -/

theorem fileSites_split (env : Env) (a b : List Decl) : fileSites env (a ++ b) = fileSites env a ++ fileSites (a.foldl define env) b := by
  induction a generalizing env with
  | nil => rfl
  | cons d a ih => rw [List.cons_append, fileSites, fileSites, List.cons_append, ih]; rfl

theorem fileSites_length (env : Env) (a : List Decl) : (fileSites env a).length = a.length := by
  induction a generalizing env with
  | nil => rfl
  | cons d a ih => rw [fileSites, List.length_cons, List.length_cons, ih]

theorem sitesFrom_append (env : Env) (a b : List (List Decl)) :
    sitesFrom env (a ++ b) = sitesFrom env a ++ sitesFrom ((a.map (fun f => f ++ f)).flatten.foldl define env) b := by
  induction a generalizing env with
  | nil => rfl
  | cons f a ih =>
    rw [List.cons_append, sitesFrom, sitesFrom, ih, List.append_assoc]
    simp [List.foldl_append]

theorem sitesFrom_length (env : Env) (a : List (List Decl)) : (sitesFrom env a).length = a.flatten.length := by
  induction a generalizing env with
  | nil => rfl
  | cons f a ih => rw [sitesFrom, List.length_append, fileSites_length, ih, List.flatten_cons, List.length_append]

/-- **C70** The declaration at any place of any file is a site, at its place, with the definitions in force there: for each name the
last one before it in the file, else the last one in the whole file, else the last one in the earlier files. -/
theorem site_definitions (earlier later : List (List Decl)) (before after : List Decl) (d : Decl) :
    ∃ env, (sites (earlier ++ (before ++ d :: after) :: later))[(earlier.flatten ++ before).length]? = some (d, env) ∧
      (∀ id, env.macros.get id = InForce (macroDef id) earlier (before ++ d :: after) before) ∧
      (∀ id, env.lists.get id = InForce (listDef id) earlier (before ++ d :: after) before) := by
  refine ⟨envAt earlier (before ++ d :: after) before, ?_, ?_, ?_⟩
  · unfold sites envAt
    rw [sitesFrom_append, sitesFrom, fileSites_split, List.length_append,
      List.getElem?_append_right (by rw [sitesFrom_length]; omega), sitesFrom_length,
      Nat.add_sub_cancel_left, List.append_assoc, List.getElem?_append_right (by rw [fileSites_length]; exact Nat.le_refl _), fileSites_length, Nat.sub_self]
    rfl
  · intro id
    unfold envAt
    rw [get_foldl_macro, get_foldl_macro, get_foldl_macro]
    have : (((earlier.map (fun f => f ++ f)).flatten.filterMap (macroDef id)).getLast?) = ((earlier.flatten.filterMap (macroDef id)).getLast?) := by
      induction earlier using Verif.snocInduction with
      | nil => rfl
      | snoc fs f ih =>
        simp only [List.map_append, List.map_cons, List.map_nil, List.flatten_append, List.flatten_cons, List.flatten_nil, List.append_nil,
          List.filterMap_append, List.getLast?_append] at ih ⊢
        rw [ih]
        cases ((f.filterMap (macroDef id)).getLast?) <;> simp
    rw [this]
    simp [InForce, GoMap.get]
  · intro id
    unfold envAt
    rw [get_foldl_list, get_foldl_list, get_foldl_list]
    have : (((earlier.map (fun f => f ++ f)).flatten.filterMap (listDef id)).getLast?) = ((earlier.flatten.filterMap (listDef id)).getLast?) := by
      induction earlier using Verif.snocInduction with
      | nil => rfl
      | snoc fs f ih =>
        simp only [List.map_append, List.map_cons, List.map_nil, List.flatten_append, List.flatten_cons, List.flatten_nil, List.append_nil,
          List.filterMap_append, List.getLast?_append] at ih ⊢
        rw [ih]
        cases ((f.filterMap (listDef id)).getLast?) <;> simp
    rw [this]
    simp [InForce, GoMap.get]

/-! ### The compiled policy, site by site -/

/-- A rule declaration and the engine rule made of it. -/
def RuleAt (ops : Operations R) (x : RuleDecl × Env) (rule : Rule R) : Prop :=
  rule.toRuleInfo = infoOf x.1 ∧ Compiles ops x.2 x.1.cond rule.condition

/-- A filter declaration and the engine filter made of it. -/
def FilterAt (ops : Operations R) (x : FilterDecl × Env) (f : Filter R) : Prop :=
  f.enabled = enabledOf x.1.enabled ∧ Compiles ops x.2 x.1.cond f.condition

theorem mkRule_info (d : RuleDecl) (c : Criterion R) : (mkRule d c).toRuleInfo = infoOf d := by
  unfold mkRule infoOf
  cases d.actions <;> cases d.tags <;> cases d.prefilter <;> rfl

/-- What compiling adds to the rules and filters. -/
def Added (ops : Operations R) (ss : List Site) (s t : State R) : Prop :=
  ∃ rs fs, t.rules = s.rules ++ rs ∧ t.filters = s.filters ++ fs ∧ List.Forall₂ (RuleAt ops) (ss.filterMap asRule) rs ∧
    List.Forall₂ (FilterAt ops) (ss.filterMap asFilter) fs

theorem Added.append {ops : Operations R} {a b : List Site} {s t u : State R} (h : Added ops a s t) (h' : Added ops b t u) : Added ops (a ++ b) s u := by
  obtain ⟨r1, f1, e1, e2, e3, e4⟩ := h
  obtain ⟨r2, f2, g1, g2, g3, g4⟩ := h'
  refine ⟨r1 ++ r2, f1 ++ f2, by rw [g1, e1, List.append_assoc], by rw [g2, e2, List.append_assoc], ?_, ?_⟩
  · rw [List.filterMap_append]; exact List.rel_append e3 g3
  · rw [List.filterMap_append]; exact List.rel_append e4 g4

theorem exitDecl_added (ops : Operations R) (n : Nat) (s t : State R) (d : Decl) (h : exitDecl ops n s d = some t) :
    Added ops [(d, s.env)] s t ∧ t.env = define s.env d := by
  cases d with
  | rule d =>
    simp only [exitDecl, Option.map_eq_some_iff] at h
    obtain ⟨c, hc, rfl⟩ := h
    refine ⟨⟨[mkRule d c], [], rfl, (List.append_nil _).symm, ?_, ?_⟩, rfl⟩
    · exact .cons ⟨mkRule_info d c, ⟨n, hc⟩⟩ .nil
    · exact .nil
  | filter d =>
    simp only [exitDecl, Option.map_eq_some_iff] at h
    obtain ⟨c, hc, rfl⟩ := h
    refine ⟨⟨[], [mkFilter d c], (List.append_nil _).symm, rfl, ?_, ?_⟩, rfl⟩
    · exact .nil
    · exact .cons ⟨rfl, ⟨n, hc⟩⟩ .nil
  | mac id e => simp only [exitDecl, Option.some.injEq] at h; subst h; exact ⟨⟨[], [], by simp, by simp, .nil, .nil⟩, rfl⟩
  | list id e => simp only [exitDecl, Option.some.injEq] at h; subst h; exact ⟨⟨[], [], by simp, by simp, .nil, .nil⟩, rfl⟩
  | req v => simp only [exitDecl, Option.some.injEq] at h; subst h; exact ⟨⟨[], [], by simp, by simp, .nil, .nil⟩, rfl⟩

theorem exitDecls_added (ops : Operations R) (n : Nat) (ds : List Decl) : ∀ (s t : State R), exitDecls ops n s ds = some t →
    Added ops (fileSites s.env ds) s t ∧ t.env = ds.foldl define s.env := by
  induction ds with
  | nil =>
    intro s t h
    simp only [exitDecls, Option.some.injEq] at h
    subst h
    exact ⟨⟨[], [], by simp, by simp, .nil, .nil⟩, rfl⟩
  | cons d ds ih =>
    intro s t h
    rw [exitDecls] at h
    cases hd : exitDecl ops n s d with
    | none => simp [hd] at h
    | some u =>
      simp only [hd] at h
      obtain ⟨h1, h2⟩ := exitDecl_added ops n s u d hd
      obtain ⟨h3, h4⟩ := ih u t h
      rw [h2] at h3 h4
      exact ⟨h1.append h3, h4⟩

theorem compileFiles_added (ops : Operations R) (n : Nat) (dss : List (List Decl)) : ∀ (s t : State R),
    compileFiles ops n s (dss.map File.ok) = some (some t) → Added ops (sitesFrom s.env dss) s t := by
  induction dss with
  | nil =>
    intro s t h
    simp only [List.map_nil, compileFiles, Option.some.injEq] at h
    subst h
    exact ⟨[], [], by simp, by simp, .nil, .nil⟩
  | cons ds dss ih =>
    intro s t h
    simp only [List.map_cons, compileFiles] at h
    cases hd : compileDecls ops n s ds with
    | none => simp [hd] at h
    | some u =>
      simp only [hd] at h
      obtain ⟨h1, h2⟩ := exitDecls_added ops n ds { s with env := ds.foldl define s.env } u hd
      have h3 := ih u t h
      have h2 : u.env = ds.foldl define (ds.foldl define s.env) := h2
      rw [h2] at h3
      have h1' : Added ops (fileSites (ds.foldl define s.env) ds) s u := h1
      exact h1'.append h3

/-- The rules and filters of a compiled policy are those of its sites, in order. -/
theorem compile_sites (ops : Operations R) (n : Nat) (dss : List (List Decl)) (rs : List (Rule R)) (fs : List (Filter R))
    (h : compile ops n (dss.map File.ok) = some (some (rs, fs))) :
    List.Forall₂ (RuleAt ops) ((sites dss).filterMap asRule) rs ∧ List.Forall₂ (FilterAt ops) ((sites dss).filterMap asFilter) fs := by
  unfold compile at h
  rw [Option.map_eq_some_iff] at h
  obtain ⟨o, h, ho⟩ := h
  rw [Option.map_eq_some_iff] at ho
  obtain ⟨t, rfl, ht⟩ := ho
  cases ht
  obtain ⟨r1, f1, e1, e2, e3, e4⟩ := compileFiles_added ops n dss _ t h
  rw [e1, e2]
  exact ⟨e3, e4⟩

theorem forall₂_filter_map {α β γ : Type _} {P : α → Prop} {Q : β → Prop} [DecidablePred P] [DecidablePred Q] {f : α → γ} {g : β → γ} {S : α → β → Prop}
    (hS : ∀ a b, S a b → (P a ↔ Q b) ∧ f a = g b) {as : List α} {bs : List β} (h : List.Forall₂ S as bs) :
    (as.filter (fun a => decide (P a))).map f = (bs.filter (fun b => decide (Q b))).map g := by
  induction h with
  | nil => rfl
  | @cons a b _ _ hab _ ih =>
    obtain ⟨h1, h2⟩ := hS _ _ hab
    rw [List.filter_cons, List.filter_cons]
    by_cases hp : P a
    · rw [decide_eq_true hp, decide_eq_true (h1.mp hp), if_pos rfl, if_pos rfl, List.map_cons, List.map_cons, h2, ih]
    · rw [decide_eq_false hp, decide_eq_false (fun h => hp (h1.mpr h)), if_neg (by decide), if_neg (by decide), ih]

theorem forall₂_exists {α β : Type _} {P : α → Prop} {Q : β → Prop} {S : α → β → Prop} (hS : ∀ a b, S a b → (P a ↔ Q b)) {as : List α} {bs : List β}
    (h : List.Forall₂ S as bs) : (∃ a ∈ as, P a) ↔ ∃ b ∈ bs, Q b := by
  induction h with
  | nil => simp
  | cons hab _ ih => rw [List.exists_mem_cons_iff, List.exists_mem_cons_iff, ih, hS _ _ hab]

/-! ### From texts to alerts -/

open Classical in
/-- **C70** Policy files whose texts are declarations of the rule language (in any layout: `lay_tokens`), in which no definition refers back to itself, are compiled, and the
engine then attaches to every record exactly the declared rules, in order of declaration, that are enabled, list the record's type or no
type, and have a condition that is true of the record under the definitions in force; unless an enabled filter is true of it, when the
record stays as it is and is not passed on. In alert mode the record is passed on, once, exactly when some rule is attached. -/
theorem policy_texts_to_alerts (L : Lib) {str : Str → Option Nat} (hs : StrRule str) (texts : List Str) (dss : List (List Decl))
    (ht : List.Forall₂ (fun s ds => GPolicy (ltokens str s) ds) texts dss)
    (hc : ∀ x ∈ sites dss, ∀ e, siteCond x = some e → ¬ Cyclic x.2 e) :
    ∃ n rules filters, compile (flatOps L getMappers) n (texts.map (fileOf str)) = some (some (rules, filters)) ∧
      ∀ (enrich hasOut : Bool) (bi us : Engine.ActionMap Record),
        (∀ a f, (bi a = some f ∨ us a = some f) → ∀ r, (f r).1.fr = r.fr) →
        (∀ a f, (bi a = some f ∨ us a = some f) → ∀ r, (f r).1.ctx.getRules = r.ctx.getRules) → ∀ r : Record,
        let out := (flatInterp L enrich rules filters bi us hasOut).work r
        out.1.ctx.getRules = r.ctx.getRules ++
          (if FilteredOut L r dss then [] else (((sites dss).filterMap asRule).filter (fun x => decide (Applies L r x))).map (fun x => infoOf x.1)) ∧
        (hasOut = true → Engine.outs out.2 =
          if FilteredOut L r dss then [] else if enrich = true ∨ ∃ x ∈ (sites dss).filterMap asRule, Applies L r x then [out.1] else []) := by
  have hfiles : texts.map (fileOf str) = dss.map File.ok := by
    clear hc
    induction ht with
    | nil => rfl
    | cons h _ ih =>
      rw [List.map_cons, List.map_cons, ih, (policy_accepted_iff hs _ _).mpr h]
  obtain ⟨n, rules, filters, hcomp⟩ := falco_policy_terminates (flatOps L getMappers) dss (by
    intro earlier before d after later e hd he
    have hsite : (d, envAt earlier (before ++ d :: after) before) ∈ sites dss := by
      rw [hd]
      unfold sites envAt
      rw [sitesFrom_append, sitesFrom, fileSites_split]
      exact List.mem_append_right _ (List.mem_append_left _ (List.mem_append_right _ List.mem_cons_self))
    refine hc _ hsite e ?_
    cases d with
    | rule d => exact he
    | filter d => exact he
    | _ => cases he)
  refine ⟨n, rules, filters, by rw [hfiles]; exact hcomp, ?_⟩
  intro enrich hasOut bi us ha ha' r
  obtain ⟨hr, hf⟩ := compile_sites (flatOps L getMappers) n dss rules filters hcomp
  have hbuilt : ∀ rule ∈ rules, Built (flatOps L getMappers) rule.condition := by
    clear hcomp hf
    generalize (sites dss).filterMap asRule = xs at hr
    induction hr with
    | nil => intro rule h; cases h
    | cons h _ ih =>
      intro rule hm
      rcases List.mem_cons.mp hm with rfl | hm
      · exact falco_built _ _ _ _ h.2
      · exact ih rule hm
  have hrule : ∀ (x : RuleDecl × Env) (rule : Rule Record), RuleAt (flatOps L getMappers) x rule →
      (Applies L r x ↔ Engine.Fires (flatInterp L enrich rules filters bi us hasOut) r rule) ∧ infoOf x.1 = rule.toRuleInfo := by
    rintro x rule ⟨h1, h2⟩
    refine ⟨?_, h1.symm⟩
    have hpre := prefilter_iff L r rule
    have e1 : rule.enabled = enabledOf x.1.enabled := by rw [show rule.enabled = rule.toRuleInfo.enabled from rfl, h1]; rfl
    have e2 : rule.prefilter = (infoOf x.1).prefilter := by rw [← h1]
    have e3 := falco_condition_meaning _ _ _ _ h2 r true
    unfold Applies Engine.Fires
    rw [← e1, ← e2, e3]
    show _ ↔ _ ∧ isApplicable L getMappers r rule = true ∧ _
    rw [hpre]
    rfl
  have hdrop : FilteredOut L r dss ↔ Engine.Dropped (flatInterp L enrich rules filters bi us hasOut) r := by
    unfold FilteredOut Engine.Dropped
    refine forall₂_exists ?_ hf
    rintro x f ⟨h1, h2⟩
    rw [h1, falco_condition_meaning _ _ _ _ h2 r true]
    rfl
  have hfire := forall₂_exists (P := Applies L r) (Q := Engine.Fires (flatInterp L enrich rules filters bi us hasOut) r) (fun x rule h => (hrule x rule h).1) hr
  refine ⟨?_, ?_⟩
  · have h := flat_record_rules L enrich rules filters bi us hasOut hbuilt ha ha' r
    refine Eq.trans h ?_
    congr 1
    by_cases hd : FilteredOut L r dss
    · rw [if_pos hd, if_pos (hdrop.mp hd)]
    · rw [if_neg hd, if_neg (fun h => hd (hdrop.mpr h))]
      have := forall₂_filter_map (P := Applies L r) (Q := Engine.Fires (flatInterp L enrich rules filters bi us hasOut) r)
        (f := fun x => infoOf x.1) (g := fun rule => rule.toRuleInfo) hrule hr
      rw [this]
  · intro ho
    obtain ⟨h1, h2⟩ := Engine.record_disposition _ (fun r => r.fr) (flat_stable L enrich rules filters bi us hasOut hbuilt ha) ho r
    by_cases hd : FilteredOut L r dss
    · rw [if_pos hd]
      exact h2 (fun h => h.1 (hdrop.mp hd))
    · rw [if_neg hd]
      have hd' := fun h => hd (hdrop.mpr h)
      by_cases hx : enrich = true ∨ ∃ x ∈ (sites dss).filterMap asRule, Applies L r x
      · rw [if_pos hx]
        exact h1 ⟨hd', hx.imp id (fun h => hfire.mp h)⟩
      · rw [if_neg hx]
        exact h2 (fun h => hx (h.2.imp id (fun h => hfire.mpr h)))

/-! ### Example -/

/-- The policy of the example: a macro and a rule that uses it, negated. -/
def demoPolicyDecls : List Decl :=
  [.mac "m".toList [[.binop .eq "sf.type".toList "PE".toList]],
   .rule { name := "r".toList, desc := "d".toList, cond := [[.not (.ref "m".toList)]] }]

/-- A policy text with a comment that meets the hypotheses. -/
example : List.Forall₂ (fun s ds => GPolicy (ltokens simpleStr s) ds) ["- macro: m # x\n  condition: sf.type=PE\n- rule: r\n  desc: d\n  condition: not m".toList]
    [demoPolicyDecls] ∧ ∀ x ∈ sites [demoPolicyDecls], ∀ e, siteCond x = some e → ¬ Cyclic x.2 e := by
  constructor
  · refine .cons ?_ .nil
    have h : ltokens simpleStr "- macro: m # x\n  condition: sf.type=PE\n- rule: r\n  desc: d\n  condition: not m".toList =
      ((⟨[], .DECL, "-".toList⟩ : LTok) :: ⟨" ".toList, .MACRO, "macro".toList⟩ :: ⟨[], .DEF, ":".toList⟩ :: ⟨" ".toList, .ID, "m".toList⟩ ::
        ⟨" # x\n  ".toList, .COND, "condition".toList⟩ :: ⟨[], .DEF, ":".toList⟩ ::
        (([⟨" ".toList, .ID, "sf.type".toList⟩, ⟨[], .EQ, "=".toList⟩, ⟨[], .ID, "PE".toList⟩] : List LTok) ++ [])) ++
      ((⟨"\n".toList, .DECL, "-".toList⟩ : LTok) :: ⟨" ".toList, .RULE, "rule".toList⟩ :: ⟨[], .DEF, ":".toList⟩ ::
        (([⟨" ".toList, .ID, "r".toList⟩] : List LTok) ++ ⟨"\n  ".toList, .DESC, "desc".toList⟩ :: ⟨[], .DEF, ":".toList⟩ ::
          (([⟨" ".toList, .ID, "d".toList⟩] : List LTok) ++ ⟨"\n  ".toList, .COND, "condition".toList⟩ :: ⟨[], .DEF, ":".toList⟩ ::
            (([⟨" ".toList, .NOT, "not".toList⟩, ⟨" ".toList, .ID, "m".toList⟩] : List LTok) ++ [])))) := by decide +kernel
    rw [h]
    refine .cons _ _ _ _ (.mac _ _ _ _ _ _ _ _ _ none rfl rfl rfl rfl rfl rfl ?_ .none)
      (.last _ _ false (.rule _ _ _ _ _ _ _ _ _ _ _ _ [] false rfl rfl rfl (by decide) (by decide +kernel) rfl rfl (by decide) (by decide +kernel) rfl rfl ?_ .nil))
    · exact .exprOne _ _ (.conjOne _ _ (.binop _ _ _ .eq rfl rfl rfl))
    · exact .exprOne _ _ (.conjOne _ _ (.not _ _ _ rfl (.ref _ rfl)))
  · intro x hx e he hcyc
    have hdep : ∀ (env : Env), env.macros.get "m".toList = some [[.binop .eq "sf.type".toList "PE".toList]] → ∀ z, ¬ Dep env (.mac "m".toList) z := by
      intro env hg z hz
      cases hz with
      | mac _ e' _ h1 h2 =>
        rw [hg] at h1
        cases h1
        obtain ⟨c, hc, t, htm, hu⟩ := h2
        rw [List.mem_singleton] at hc
        subst hc
        rw [List.mem_singleton] at htm
        subst htm
        cases hu
    obtain ⟨a, b, h1, h2, h3⟩ := hcyc
    have hx' : x = ((demoPolicyDecls[0] : Decl), x.2) ∨ (x.1 = demoPolicyDecls[1] ∧ x.2.macros.get "m".toList = some [[.binop .eq "sf.type".toList "PE".toList]]) := by
      unfold sites sitesFrom demoPolicyDecls at hx
      simp only [fileSites, sitesFrom, List.append_nil, List.mem_cons, List.not_mem_nil, or_false] at hx
      rcases hx with rfl | rfl
      · exact .inl rfl
      · exact .inr ⟨rfl, rfl⟩
    rcases hx' with hx' | ⟨hx1, hx2⟩
    · rw [hx'] at he; cases he
    · have : e = [[.not (.ref "m".toList)]] := by
        obtain ⟨x1, x2⟩ := x
        dsimp only at hx1
        subst hx1
        cases he
        rfl
      subst this
      obtain ⟨c, hc, t, htm, hu⟩ := h1
      rw [List.mem_singleton] at hc
      subst hc
      rw [List.mem_singleton] at htm
      subst htm
      cases hu with
      | not _ _ hu =>
        cases hu
        have hb : b = .mac "m".toList := by
          cases Relation.ReflTransGen.cases_head h2 with
          | inl h => exact h.symm
          | inr h => obtain ⟨z, hz, _⟩ := h; exact absurd hz (hdep _ hx2 z)
        subst hb
        obtain ⟨z, hz, _⟩ := Relation.TransGen.head'_iff.mp h3
        exact hdep _ hx2 z hz

end Verif.Falco
