import Verif.Otel.Series
/-
C121: conditions on what the processor has noted: `sf.processor.rules` and `sf.processor.tags`.
Sources: /repo/core/policyengine/source/otel/{operations,operator,contextualizer}.go, /repo/core/policyengine/engine/interpreter.go:155-184
-/
namespace Verif.Otel
open Verif.Decimal (Str)
open Verif.Policy
open Verif.Falco (RuleDecl FilterDecl Decl Env Site sites asRule asFilter siteCond infoOf enabledOf ExprVal TermVal GPolicy ltokens StrRule Cyclic MentionsE)

/-! ### Specification -/

/-- The meaning of the operators on a list of names. -/
def NamesMatch (L : Lib) (names : List Str) (x : Str) : Operator → Prop
  | .Contains => ∃ n ∈ names, x <:+: n
  | .IContains => ∃ n ∈ names, L.lower x <:+: L.lower n
  | .Startswith => ∃ rest, names = x :: rest
  | .IStartswith => ∃ n rest, names = n :: rest ∧ L.equalFold n x = true
  | .Endswith => ∃ init, names = init ++ [x]
  | .IEndswith => ∃ n init, names = init ++ [n] ∧ L.equalFold n x = true
  | _ => False

/-- The four operators that look at the first or the last element of an array. -/
def AtEnd : Operator → Prop
  | .Startswith => True
  | .IStartswith => True
  | .Endswith => True
  | .IEndswith => True
  | _ => False

/-- A rule has a tag. -/
def Tagged (r : RuleInfo) (t : Str) : Prop := t ∈ r.tags.flatten

/-! ### Arrays of texts -/

theorem arrayMatches_texts (L : Lib) (names : List Str) (x : Str) (op : Operator) : ArrayMatches L (texts names) x op ↔ NamesMatch L names x op := by
  have some_iff : ∀ P : Str → Prop, SomeText (texts names) P ↔ ∃ n ∈ names, P n := by
    intro P
    unfold SomeText texts
    constructor
    · rintro ⟨s, hs, hp⟩
      obtain ⟨n, hn, he⟩ := List.mem_map.1 hs
      cases he
      exact ⟨_, hn, hp⟩
    · rintro ⟨n, hn, hp⟩
      exact ⟨n, List.mem_map.2 ⟨n, hn, rfl⟩, hp⟩
  have head : ∀ s, (∃ rest, texts names = .str s :: rest) ↔ ∃ rest, names = s :: rest := by
    intro s
    cases names with
    | nil => simp [texts]
    | cons n ns => simp [texts]
  have last : ∀ s, (∃ init, texts names = init ++ [.str s]) ↔ ∃ init, names = init ++ [s] := by
    intro s
    rcases List.eq_nil_or_concat names with rfl | ⟨i, n, rfl⟩
    · simp [texts]
    · simp [texts]
  cases op <;> simp only [ArrayMatches, NamesMatch, some_iff]
  case Startswith => exact head x
  case Endswith => exact last x
  case IStartswith =>
    constructor
    · rintro ⟨s, rest, h, he⟩
      obtain ⟨r, hr⟩ := (head s).1 ⟨rest, h⟩
      exact ⟨s, r, hr, he⟩
    · rintro ⟨s, rest, h, he⟩
      obtain ⟨r, hr⟩ := (head s).2 ⟨rest, h⟩
      exact ⟨s, r, hr, he⟩
  case IEndswith =>
    constructor
    · rintro ⟨s, rest, h, he⟩
      obtain ⟨r, hr⟩ := (last s).1 ⟨rest, h⟩
      exact ⟨s, r, hr, he⟩
    · rintro ⟨s, rest, h, he⟩
      obtain ⟨r, hr⟩ := (last s).2 ⟨rest, h⟩
      exact ⟨s, r, hr, he⟩

theorem texts_missing (names : List Str) : Value.missing ∉ texts names := by
  unfold texts
  intro h
  obtain ⟨n, _, he⟩ := List.mem_map.1 h
  cases he

theorem arrayPanics_texts (L : Lib) (names : List Str) (x : Str) (op : Operator) : ArrayPanics L (texts names) x op ↔ names = [] ∧ AtEnd op := by
  have h0 : texts names = [] ↔ names = [] := by unfold texts; exact List.map_eq_nil_iff
  have hm := texts_missing names
  have h1 : ∀ rest, texts names ≠ .missing :: rest := fun rest h => hm (by rw [h]; exact .head _)
  have h2 : ∀ init, texts names ≠ init ++ [.missing] := fun init h => hm (by rw [h]; simp)
  have h3 : ∀ pre post, texts names ≠ pre ++ .missing :: post := fun pre post h => hm (by rw [h]; simp)
  cases op <;> simp only [ArrayPanics, AtEnd, h0, h1, h2, h3, exists_false, or_false, and_true, and_false, false_and]

/-! ### The attributes of a record with rules noted -/

theorem noted_attrs (rl : ResourceLogs) (names tags : List Str) :
    attrsOf { rl with scopes := rl.scopes ++ [processorScope names tags] } =
      attrsOf rl ++ [("sf.processor.rules".toList, .arr (texts names)), ("sf.processor.tags".toList, .arr (texts tags))] := by
  unfold attrsOf attributes
  dsimp only
  rw [List.flatMap_append, List.append_assoc, List.flatMap_cons, List.flatMap_nil, List.append_nil]
  unfold scopeAttributes processorScope
  dsimp only
  rw [List.flatMap_nil, List.append_nil]

/-- What a comparison gives when the deciding attribute is this list of texts. -/
theorem compare_texts (L : Lib) (k x : Str) (op : Operator) (rl : ResourceLogs) (hr : rl.resource ≠ none) (pre post : List KV) (names : List Str)
    (ha : attrsOf rl = pre ++ (k, .arr (texts names)) :: post) (hpre : ∀ p ∈ pre, p.1 ≠ k) :
    (compare? L k x op rl = none ↔ names = [] ∧ AtEnd op) ∧ (compare? L k x op rl = some true ↔ ¬ (names = [] ∧ AtEnd op) ∧ NamesMatch L names x op) := by
  obtain ⟨res, hres⟩ := Option.ne_none_iff_exists'.1 hr
  have e : attrsOf rl = attributes res rl.scopes := by unfold attrsOf; rw [hres]; rfl
  have hc : compare? L k x op rl = arrCmp L (texts names) x op := by
    unfold compare?
    rw [(otel_attribute_order rl).1 res hres]
    dsimp only
    rw [← e, ha, cmpKVs_skip L k x op pre _ (fun p hp h => absurd h (hpre p hp))]
    simp [cmpKVs, cmpValue]
  rw [hc, arrCmp_none_iff, arrayPanics_texts]
  refine ⟨Iff.rfl, ?_⟩
  rw [← arrayMatches_texts, ← arrayPanics_texts L names x op, ← arrCmp_none_iff]
  cases h : arrCmp L (texts names) x op with
  | none => simp
  | some b =>
    rw [Option.some.injEq, arrCmp_iff L (texts names) x op b h]
    simp

/-! ## C121 -/

/-- **C121** A condition on `sf.processor.rules` never panics and asks about the names of the rules noted: `contains` whether some name contains the text, `startswith` and `endswith` whether the first or the
last name is the text, the variants with `i` the same without regard to case; every other operator, also `=`, is false. -/
theorem noted_rules_read_back (L : Lib) (rl out : ResourceLogs) (R : List RuleInfo) (hr : rl.resource ≠ none) (hn : Noted rl R out)
    (hk : ∀ p ∈ attrsOf rl, p.1 ≠ "sf.processor.rules".toList) (x : Str) (op : Operator) :
    ∃ b, compare? L "sf.processor.rules".toList x op out = some b ∧ (b = true ↔ NamesMatch L (R.map (·.name)) x op) := by
  by_cases hR : R = []
  · rw [hn.1 hR, hR]
    obtain ⟨res, hres⟩ := Option.ne_none_iff_exists'.1 hr
    have e : attrsOf rl = attributes res rl.scopes := by unfold attrsOf; rw [hres]; rfl
    refine ⟨false, otel_absent L _ x op rl res hres (by rw [← e]; exact hk), ?_⟩
    cases op <;> simp [NamesMatch]
  · obtain ⟨tags, _, ho⟩ := hn.2 hR
    have ha := noted_attrs rl (R.map (·.name)) tags.flatten
    rw [← ho] at ha
    obtain ⟨h1, h2⟩ := compare_texts L "sf.processor.rules".toList x op out (by rw [ho]; exact hr) _ _ _ ha hk
    have hne : ¬ (R.map (·.name) = [] ∧ AtEnd op) := fun h => hR (List.map_eq_nil_iff.1 h.1)
    obtain ⟨b, hb⟩ := Option.ne_none_iff_exists'.1 (fun h => hne (h1.1 h))
    refine ⟨b, hb, ?_⟩
    rw [hb, Option.some.injEq] at h2
    rw [h2]
    exact ⟨fun h => h.2, fun h => ⟨hne, h⟩⟩

theorem tags_flat {rules : List RuleInfo} {tags : List (List Str)} (h : List.Forall₂ (fun (x : RuleInfo) ts => ts.Nodup ∧ ∀ t, t ∈ ts ↔ t ∈ x.tags.flatten) rules tags) (t : Str) :
    t ∈ tags.flatten ↔ ∃ r ∈ rules, Tagged r t := by
  induction h with
  | nil => simp
  | @cons r ts rs tss h _ ih =>
    rw [List.flatten_cons, List.mem_append, ih, h.2 t]
    simp [Tagged]

theorem tags_first {rules : List RuleInfo} {tags : List (List Str)} (h : List.Forall₂ (fun (x : RuleInfo) ts => ts.Nodup ∧ ∀ t, t ∈ ts ↔ t ∈ x.tags.flatten) rules tags) (t : Str)
    (rest : List Str) (he : tags.flatten = t :: rest) :
    ∃ pre r post, rules = pre ++ r :: post ∧ (∀ q ∈ pre, ∀ u, ¬ Tagged q u) ∧ Tagged r t := by
  induction h with
  | nil => cases he
  | @cons r ts rs tss h _ ih =>
    cases ts with
    | nil =>
      rw [List.flatten_cons, List.nil_append] at he
      obtain ⟨pre, r', post, e, hp, ht⟩ := ih he
      refine ⟨r :: pre, r', post, by rw [e]; rfl, ?_, ht⟩
      intro q hq u hu
      rcases List.mem_cons.1 hq with rfl | hq
      · exact absurd ((h.2 u).2 hu) (by simp)
      · exact hp q hq u hu
    | cons u us =>
      rw [List.flatten_cons, List.cons_append, List.cons.injEq] at he
      refine ⟨[], r, rs, rfl, fun q hq => (by cases hq), ?_⟩
      unfold Tagged
      rw [← h.2 t, he.1]
      exact .head _

/-- **C121** A condition on `sf.processor.tags` asks about the tags of the rules noted: `contains` whether some tag of some rule contains the text, `startswith` whether it is a tag of the first rule that has
tags (which of them, is up to the iteration of a map); `=` and the rest are false. But (finding) if rules are noted and none has a tag, `startswith` and `endswith` index an empty array: the worker panics. -/
theorem noted_tags_read_back (L : Lib) (rl out : ResourceLogs) (R : List RuleInfo) (hr : rl.resource ≠ none) (hn : Noted rl R out)
    (hk : ∀ p ∈ attrsOf rl, p.1 ≠ "sf.processor.tags".toList) (x : Str) (op : Operator) :
    (compare? L "sf.processor.tags".toList x op out = none ↔ R ≠ [] ∧ (∀ r ∈ R, ∀ t, ¬ Tagged r t) ∧ AtEnd op) ∧
    (op = .Contains → (compare? L "sf.processor.tags".toList x op out = some true ↔ ∃ r ∈ R, ∃ t, Tagged r t ∧ x <:+: t)) ∧
    (op = .IContains → (compare? L "sf.processor.tags".toList x op out = some true ↔ ∃ r ∈ R, ∃ t, Tagged r t ∧ L.lower x <:+: L.lower t)) ∧
    (op = .Startswith → compare? L "sf.processor.tags".toList x op out = some true →
      ∃ pre r post, R = pre ++ r :: post ∧ (∀ q ∈ pre, ∀ u, ¬ Tagged q u) ∧ Tagged r x) ∧
    (op = .Startswith → ∀ pre r post, R = pre ++ r :: post → (∀ q ∈ pre, ∀ u, ¬ Tagged q u) → (∀ t, Tagged r t ↔ t = x) → compare? L "sf.processor.tags".toList x op out = some true) ∧
    (op ≠ .Contains → op ≠ .IContains → ¬ AtEnd op → compare? L "sf.processor.tags".toList x op out = some false) := by
  by_cases hR : R = []
  · rw [hn.1 hR, hR]
    obtain ⟨res, hres⟩ := Option.ne_none_iff_exists'.1 hr
    have e : attrsOf rl = attributes res rl.scopes := by unfold attrsOf; rw [hres]; rfl
    rw [otel_absent L _ x op rl res hres (by rw [← e]; exact hk)]
    refine ⟨by simp, fun _ => by simp, fun _ => by simp, fun _ h => by simp at h, fun _ pre r post h => ?_, fun _ _ _ => rfl⟩
    cases pre <;> cases h
  · obtain ⟨tags, htags, ho⟩ := hn.2 hR
    have ha := noted_attrs rl (R.map (·.name)) tags.flatten
    rw [← ho] at ha
    have ha' : attrsOf out = (attrsOf rl ++ [("sf.processor.rules".toList, .arr (texts (R.map (·.name))))]) ++ ("sf.processor.tags".toList, .arr (texts tags.flatten)) :: [] := by
      rw [ha, List.append_assoc]; rfl
    have hk' : ∀ p ∈ attrsOf rl ++ [("sf.processor.rules".toList, Value.arr (texts (R.map (·.name))))], p.1 ≠ "sf.processor.tags".toList := by
      intro p hp
      rcases List.mem_append.1 hp with hp | hp
      · exact hk p hp
      · rw [List.mem_singleton.1 hp]
        exact keys_ne
    obtain ⟨h1, h2⟩ := compare_texts L "sf.processor.tags".toList x op out (by rw [ho]; exact hr) _ _ _ ha' hk'
    have hnil : tags.flatten = [] ↔ ∀ r ∈ R, ∀ t, ¬ Tagged r t := by
      rw [List.eq_nil_iff_forall_not_mem]
      constructor
      · intro h r hr t ht; exact h t ((tags_flat htags t).2 ⟨r, hr, ht⟩)
      · intro h t ht
        obtain ⟨r, hr, hrt⟩ := (tags_flat htags t).1 ht
        exact h r hr t hrt
    refine ⟨?_, ?_, ?_, ?_, ?_, ?_⟩
    · rw [h1, hnil]
      exact ⟨fun h => ⟨hR, h⟩, fun h => h.2⟩
    · rintro rfl
      rw [h2]
      simp only [AtEnd, and_false, not_false_eq_true, true_and, NamesMatch]
      constructor
      · rintro ⟨n, hm, hi⟩
        obtain ⟨r, hr, ht⟩ := (tags_flat htags n).1 hm
        exact ⟨r, hr, n, ht, hi⟩
      · rintro ⟨r, hr, t, ht, hi⟩
        exact ⟨t, (tags_flat htags t).2 ⟨r, hr, ht⟩, hi⟩
    · rintro rfl
      rw [h2]
      simp only [AtEnd, and_false, not_false_eq_true, true_and, NamesMatch]
      constructor
      · rintro ⟨n, hm, hi⟩
        obtain ⟨r, hr, ht⟩ := (tags_flat htags n).1 hm
        exact ⟨r, hr, n, ht, hi⟩
      · rintro ⟨r, hr, t, ht, hi⟩
        exact ⟨t, (tags_flat htags t).2 ⟨r, hr, ht⟩, hi⟩
    · rintro rfl h
      obtain ⟨_, rest, he⟩ := h2.1 h
      exact tags_first htags x rest he
    · rintro rfl pre r post hR' hpre hx
      rw [h2]
      have hmem : x ∈ tags.flatten := (tags_flat htags x).2 ⟨r, by rw [hR']; simp, (hx x).2 rfl⟩
      refine ⟨fun h => (by rw [h.1] at hmem; cases hmem), ?_⟩
      show ∃ rest, tags.flatten = x :: rest
      cases hfl : tags.flatten with
      | nil => rw [hfl] at hmem; cases hmem
      | cons u us =>
        obtain ⟨pre', r', post', hR2, hpre', hu⟩ := tags_first htags u us hfl
        have : r' = r := by
          rw [hR'] at hR2
          rcases List.append_eq_append_iff.1 hR2 with ⟨a, ha1, ha2⟩ | ⟨a, ha1, ha2⟩
          · cases a with
            | nil => simp at ha2; exact ha2.1.symm
            | cons q a =>
              simp at ha2
              have : r ∈ pre' := by rw [ha1, ha2.1]; simp
              exact absurd ((hx x).2 rfl) (hpre' r this x)
          · cases a with
            | nil => simp at ha2; exact ha2.1
            | cons q a =>
              simp at ha2
              have : r' ∈ pre := by rw [ha1, ha2.1]; simp
              exact absurd hu (hpre r' this u)
        rw [this] at hu
        exact ⟨us, by rw [(hx u).1 hu]⟩
    · intro hc hic hend
      have h3 : compare? L "sf.processor.tags".toList x op out ≠ some true := by
        intro h
        have := (h2.1 h).2
        cases op <;> first | exact this | exact hend trivial | exact hc rfl | exact hic rfl
      have h4 : compare? L "sf.processor.tags".toList x op out ≠ none := fun h => hend (h1.1 h).2
      cases hcmp : compare? L "sf.processor.tags".toList x op out with
      | none => exact absurd hcmp h4
      | some b => cases b
                  · rfl
                  · exact absurd hcmp h3

/-! ### In policies -/

theorem forall₂_mem {α β : Type} {r : α → β → Prop} {xs : List α} {ys : List β} (h : List.Forall₂ r xs ys) : List.Forall₂ (fun x y => x ∈ xs ∧ r x y) xs ys := by
  suffices H : ∀ (zs : List α), (∀ x ∈ xs, x ∈ zs) → List.Forall₂ (fun x y => x ∈ zs ∧ r x y) xs ys from H xs (fun _ hx => hx)
  intro zs
  induction h with
  | nil => intro _; exact .nil
  | cons h _ ih => intro hz; exact .cons ⟨hz _ (by simp), h⟩ (ih (fun x hx => hz x (by simp [hx])))

/-- The operations mean what they should on the attributes without holes. -/
theorem meaning_on (L : Lib) (rl : ResourceLogs) (K : Str → Prop) (hr : rl.resource ≠ none) (hw : ∀ p ∈ attrsOf rl, K p.1 → Whole p.2) :
    Falco.AgreeOn (otelOps L) (meaning L) rl K := by
  classical
  obtain ⟨res, hres⟩ := Option.ne_none_iff_exists'.1 hr
  have e : attrsOf rl = attributes res rl.scopes := by unfold attrsOf; rw [hres]; rfl
  have hcmp : ∀ k x op, K k → (compare? L k x op rl = some true ↔ Holds L k x op rl) := by
    intro k x op hk
    obtain ⟨b, hb⟩ := Option.ne_none_iff_exists'.1 (whole_compare L k x op rl hr (fun p hp h => hw p hp (by rw [h]; exact hk)))
    have := otel_compare L k x op rl res hres b hb
    rw [hb, Option.some.injEq, this]
    unfold Holds
    rw [e]
  have beq : ∀ (o : Option Bool) (p : Prop) [Decidable p], (o = some true ↔ p) → (o == some true) = decide p := by
    intro o p _ h
    by_cases hp : p
    · rw [h.2 hp]; simp [hp]
    · have : o ≠ some true := fun h' => hp (h.1 h')
      simp [hp, this]
  refine ⟨fun k _ => ?_, fun k x op hk => ?_, fun k xs op hk => ?_⟩
  · show (exists? k rl == some true) = decide _
    refine beq _ _ ?_
    obtain ⟨b, hb, hiff⟩ := otel_exists k rl res hres
    rw [hb, Option.some.injEq, hiff, e]
  · exact beq _ _ (hcmp k x op hk)
  · show (foldAny? L k xs op rl == some true) = decide _
    refine beq _ _ ?_
    obtain ⟨b, hb⟩ := Option.ne_none_iff_exists'.1 (whole_folds L k xs op rl hr (fun p hp h => hw p hp (by rw [h]; exact hk))).1
    rw [hb, Option.some.injEq, (otel_folds L k xs op rl b).1 hb]
    simp only [hcmp k _ _ hk]

theorem noted_resource {rl mid : ResourceLogs} {R : List RuleInfo} (hr : rl.resource ≠ none) (h : Noted rl R mid) : mid.resource ≠ none := by
  by_cases hR : R = []
  · rw [h.1 hR]; exact hr
  · obtain ⟨tags, _, ho⟩ := h.2 hR
    rw [ho]; exact hr

theorem noted_whole {rl mid : ResourceLogs} {R : List RuleInfo} (hw : WholeLogs rl) (h : Noted rl R mid) (p : KV) (hp : p ∈ attrsOf mid) (hne : p.1 ≠ "sf.processor.tags".toList) : Whole p.2 := by
  by_cases hR : R = []
  · rw [h.1 hR] at hp; exact hw.2 p hp
  · obtain ⟨tags, _, ho⟩ := h.2 hR
    rw [ho, noted_attrs] at hp
    rcases List.mem_append.1 hp with hp | hp
    · exact hw.2 p hp
    · rcases List.mem_cons.1 hp with rfl | hp
      · refine .arr _ ?_ (texts_missing _)
        intro h0
        exact hR (List.map_eq_nil_iff.1 (List.map_eq_nil_iff.1 h0))
      · rw [List.mem_singleton.1 hp] at hne
        exact absurd rfl hne

open Classical in
/-- **C121** An engine behind others may filter by what those have noted: its filters may read every attribute but `sf.processor.tags`, its rules those the processor does not write. It drops the record exactly if a
filter is true of the record with the rules `R` noted in it; otherwise it notes the rules that apply behind them and passes it on as usual. -/
theorem otel_engine_filters_noted (L : Lib) {str : Str → Option Nat} (hs : StrRule str) (texts : List Str) (dss : List (List Decl))
    (ht : List.Forall₂ (fun s ds => GPolicy (ltokens str s) ds) texts dss)
    (hc : ∀ x ∈ sites dss, ∀ e, siteCond x = some e → ¬ Cyclic x.2 e)
    (hk : ∀ x ∈ (sites dss).filterMap asRule, ∀ k, MentionsE x.2 k x.1.cond → Foreign k)
    (hkf : ∀ x ∈ (sites dss).filterMap asFilter, ∀ k, MentionsE x.2 k x.1.cond → k ≠ "sf.processor.tags".toList) :
    ∃ n rules filters, Falco.compile (otelOps L) n (texts.map (Falco.fileOf str)) = some (some (rules, filters)) ∧
      ∀ (order : List Str → List Str) (enrich hasOut : Bool) (bi us : Engine.ActionMap ResourceLogs), (∀ l, (order l).Perm l) →
        (∀ a f, (bi a = some f ∨ us a = some f) → ∀ r, (f r).1 = r) → ∀ rl : ResourceLogs, WholeLogs rl → Fresh rl.scopes → ∀ (R : List RuleInfo) (mid : ResourceLogs), Noted rl R mid →
        let out := (otelInterp order enrich rules filters bi us hasOut).work mid
        Noted rl (if OFiltered L mid dss then R else R ++ applicable L rl dss) out.1 ∧
        (hasOut = true → Engine.outs out.2 =
          if OFiltered L mid dss then [] else if enrich = true ∨ applicable L rl dss ≠ [] then [out.1] else []) := by
  have hfiles : texts.map (Falco.fileOf str) = dss.map Falco.File.ok := by
    clear hc hk hkf
    induction ht with
    | nil => rfl
    | cons h _ ih =>
      rw [List.map_cons, List.map_cons, ih, (Falco.policy_accepted_iff hs _ _).mpr h]
  obtain ⟨n, rules, filters, hcomp⟩ := Falco.falco_policy_terminates (otelOps L) dss (by
    intro earlier before d after later e hd he
    have hsite : (d, Falco.envAt earlier (before ++ d :: after) before) ∈ sites dss := by
      rw [hd]
      unfold sites Falco.envAt
      rw [Falco.sitesFrom_append, Falco.sitesFrom, Falco.fileSites_split]
      exact List.mem_append_right _ (List.mem_append_left _ (List.mem_append_right _ List.mem_cons_self))
    refine hc _ hsite e ?_
    cases d with
    | rule d => exact he
    | filter d => exact he
    | _ => cases he)
  refine ⟨n, rules, filters, by rw [hfiles]; exact hcomp, ?_⟩
  intro order enrich hasOut bi us ho ha rl hw hf R mid hmid
  obtain ⟨hr, hfi⟩ := Falco.compile_sites (otelOps L) n dss rules filters hcomp
  have hag := whole_meaning L rl hw
  have hagm := meaning_on L mid (fun k => k ≠ "sf.processor.tags".toList) (noted_resource hw.1 hmid) (fun p hp hne => noted_whole hw hmid p hp hne)
  have hview := noted_view hmid
  have closed := fun (x : Env) (e : Falco.Expr) (c : Criterion ResourceLogs) => Falco.falco_closed (otelOps L) x Foreign (Reads L) .tt .ff .and .or .not (fun k hk => .exist k hk) (fun k x op hk => .compare k x op hk)
          (fun k vs op hk => .foldAny k vs op hk) e c
  have hreads : ∀ rule ∈ rules, Reads L rule.condition := by
    clear hcomp hfi
    generalize (sites dss).filterMap asRule = xs at hr hk
    induction hr with
    | nil => intro rule h; cases h
    | @cons x r1 _ _ h _ ih =>
      intro rule hm
      rcases List.mem_cons.mp hm with rfl | hm
      · exact closed _ _ _ h.2 (hk x (by simp))
      · exact ih (fun y hy => hk y (by simp [hy])) rule hm
  have hrule : ∀ (x : RuleDecl × Env) (rule : Rule ResourceLogs), Falco.RuleAt (otelOps L) x rule →
      (OApplies L rl x ↔ Engine.Fires (otelInterp order enrich rules filters bi us hasOut) rl rule) ∧ infoOf x.1 = rule.toRuleInfo := by
    rintro x rule ⟨h1, h2⟩
    refine ⟨?_, h1.symm⟩
    have e1 : rule.enabled = enabledOf x.1.enabled := by rw [show rule.enabled = rule.toRuleInfo.enabled from rfl, h1]; rfl
    have e3 := Falco.falco_condition_meaning _ _ _ _ h2 rl true
    unfold OApplies Engine.Fires
    rw [← e1, ← Falco.exprVal_agreeOn hag x.2 x.1.cond true (fun _ _ => trivial), e3]
    show _ ↔ _ ∧ isApplicable rl rule = true ∧ _
    unfold isApplicable
    simp only [true_and]
    rfl
  have hfires : ∀ rule ∈ rules, (Engine.Fires (otelInterp order enrich rules filters bi us hasOut) mid rule ↔ Engine.Fires (otelInterp order enrich rules filters bi us hasOut) rl rule) := by
    intro rule hm
    unfold Engine.Fires
    rw [reads_view L _ (hreads rule hm) mid rl hview]
    rfl
  have hdrop : OFiltered L mid dss ↔ Engine.Dropped (otelInterp order enrich rules filters bi us hasOut) mid := by
    unfold OFiltered Engine.Dropped
    have hfi' := forall₂_mem hfi
    refine Falco.forall₂_exists ?_ hfi'
    rintro x f ⟨hx, h1, h2⟩
    rw [h1, ← Falco.exprVal_agreeOn hagm x.2 x.1.cond true (hkf x hx), Falco.falco_condition_meaning _ _ _ _ h2 mid true]
    rfl
  have hmap : applicable L rl dss = (rules.filter (fun x => decide (Engine.Fires (otelInterp order enrich rules filters bi us hasOut) mid x))).map (·.toRuleInfo) := by
    rw [show rules.filter (fun x => decide (Engine.Fires (otelInterp order enrich rules filters bi us hasOut) mid x)) =
      rules.filter (fun x => decide (Engine.Fires (otelInterp order enrich rules filters bi us hasOut) rl x)) from List.filter_congr (fun x hx => by simp only [hfires x hx])]
    exact Falco.forall₂_filter_map (P := OApplies L rl) (Q := Engine.Fires (otelInterp order enrich rules filters bi us hasOut) rl)
        (f := fun x => infoOf x.1) (g := fun rule => rule.toRuleInfo) hrule hr
  have hst := otel_stable L order enrich rules filters bi us hasOut hreads ha
  obtain ⟨hd, hn⟩ := Engine.work_spec _ view hst mid
  refine ⟨?_, ?_⟩
  · by_cases hfl : OFiltered L mid dss
    · rw [if_pos hfl, hd (hdrop.mp hfl)]
      exact hmid
    · rw [if_neg hfl]
      obtain ⟨es, h1, _, h3, h4⟩ := hn (fun h => hfl (hdrop.mpr h))
      rw [h4]
      dsimp only
      rw [fold_annotated order enrich rules filters bi us hasOut ha, h1, hmap]
      have := noted_fold ho hf (Engine.fired (otelInterp order enrich rules filters bi us hasOut) mid) R mid hmid
      exact this
  · intro hout
    obtain ⟨h1, h2⟩ := Engine.record_disposition _ view hst hout mid
    have hex : applicable L rl dss ≠ [] ↔ ∃ x ∈ rules, Engine.Fires (otelInterp order enrich rules filters bi us hasOut) mid x := by
      rw [hmap]
      simp [List.filter_eq_nil_iff]
    by_cases hd : OFiltered L mid dss
    · rw [if_pos hd]
      exact h2 (fun h => h.1 (hdrop.mp hd))
    · rw [if_neg hd]
      have hd' := fun h => hd (hdrop.mpr h)
      by_cases hx : enrich = true ∨ applicable L rl dss ≠ []
      · rw [if_pos hx]
        exact h1 ⟨hd', hx.imp id (fun h => hex.mp h)⟩
      · rw [if_neg hx]
        exact h2 (fun h => hx (h.2.imp id (fun h => hex.mpr h)))

theorem holds_iff_compare (L : Lib) (k x : Str) (op : Operator) (rl : ResourceLogs) (hr : rl.resource ≠ none) (b : Bool) (h : compare? L k x op rl = some b) : b = true ↔ Holds L k x op rl := by
  obtain ⟨res, hres⟩ := Option.ne_none_iff_exists'.1 hr
  have e : attrsOf rl = attributes res rl.scopes := by unfold attrsOf; rw [hres]; rfl
  unfold Holds
  rw [e]
  exact otel_compare L k x op rl res hres b h

/-- **C121** In a policy: `sf.processor.rules contains x` is true of a record with rules noted exactly if one of their names contains `x`; so a filter `not sf.processor.rules contains x` drops exactly the records
in which no such rule is noted. (Finding) `sf.processor.rules = x` and `sf.processor.rules in (…)` are true of no record. -/
theorem filter_on_noted_rules (L : Lib) (env : Env) (rl mid : ResourceLogs) (R : List RuleInfo) (hr : rl.resource ≠ none) (hn : Noted rl R mid)
    (hk : ∀ p ∈ attrsOf rl, p.1 ≠ "sf.processor.rules".toList) (x : Str) :
    (ExprVal (meaning L) env mid [[.binop .contains "sf.processor.rules".toList x]] true ↔ ∃ r ∈ R, x <:+: r.name) ∧
    (ExprVal (meaning L) env mid [[.not (.binop .contains "sf.processor.rules".toList x)]] true ↔ ¬ ∃ r ∈ R, x <:+: r.name) ∧
    (¬ ExprVal (meaning L) env mid [[.binop .eq "sf.processor.rules".toList x]] true) ∧
    ∀ args, ¬ ExprVal (meaning L) env mid [[.inList "sf.processor.rules".toList args]] true := by
  classical
  have hr' := noted_resource hr hn
  have holds : ∀ y op, Holds L "sf.processor.rules".toList y op mid ↔ NamesMatch L (R.map (·.name)) y op := by
    intro y op
    obtain ⟨b, hb, hi⟩ := noted_rules_read_back L rl mid R hr hn hk y op
    rw [← holds_iff_compare L _ y op mid hr' b hb, hi]
  have hcont : NamesMatch L (R.map (·.name)) x .Contains ↔ ∃ r ∈ R, x <:+: r.name := by simp [NamesMatch]
  have single : ∀ t b, TermVal (meaning L) env mid t b → b = true → ExprVal (meaning L) env mid [[t]] true := by
    intro t b h hb
    subst hb
    exact .holds _ [t] (by simp) (by intro u hu; rw [List.mem_singleton.1 hu]; exact h)
  have back : ∀ t, ExprVal (meaning L) env mid [[t]] true → TermVal (meaning L) env mid t true := by
    intro t h
    cases h with
    | holds _ c hc h =>
      rw [List.mem_singleton.1 hc] at h
      exact h t (by simp)
  have hbin : ∀ b, TermVal (meaning L) env mid (.binop .contains "sf.processor.rules".toList x) b ↔ (b = true ↔ ∃ r ∈ R, x <:+: r.name) := by
    intro b
    have hh : Falco.CmpHolds (meaning L) mid "sf.processor.rules".toList x .contains ↔ ∃ r ∈ R, x <:+: r.name := by
      show decide (Holds L _ x .Contains mid) = true ↔ _
      rw [decide_eq_true_iff, holds, hcont]
    constructor
    · intro h
      cases h with
      | cmp _ _ _ _ h => exact h.trans hh
    · intro h
      exact .cmp _ _ _ _ (h.trans hh.symm)
  refine ⟨⟨fun h => ((hbin true).1 (back _ h)).1 rfl, fun h => single _ true ((hbin true).2 ⟨fun _ => h, fun _ => rfl⟩) rfl⟩, ⟨fun h => ?_, fun h => ?_⟩, fun h => ?_, fun args h => ?_⟩
  · have := back _ h
    generalize hb : true = b at this
    cases this with
    | not _ c hc =>
      cases c with
      | true => cases hb
      | false => exact fun he => by have := ((hbin false).1 hc).2 he; cases this
  · exact single _ true (.not _ false ((hbin false).2 ⟨fun h' => (by cases h'), fun h' => absurd h' h⟩)) rfl
  · cases back _ h with
    | cmp _ _ _ _ h =>
      have h : decide (Holds L "sf.processor.rules".toList x .Eq mid) = true := h.1 rfl
      rw [decide_eq_true_iff, holds] at h
      exact h
  · cases back _ h with
    | isIn _ _ vs _ _ h =>
      have h : decide (∃ y ∈ vs, Holds L "sf.processor.rules".toList y .Eq mid) = true := h
      rw [decide_eq_true_iff] at h
      obtain ⟨y, _, h⟩ := h
      rw [holds] at h
      exact h

/-! ### The order of the tags -/

/-- A condition has the same value for two records on which the attributes it names answer alike. -/
theorem exprVal_two {ops : Operations ResourceLogs} {r r' : ResourceLogs} {K : Str → Prop} (he : ∀ k, K k → (ops.exist k).eval r = (ops.exist k).eval r')
    (hcm : ∀ k x op, K k → (ops.compare k x op).eval r = (ops.compare k x op).eval r') (hfo : ∀ k vs op, K k → (ops.foldAny k vs op).eval r = (ops.foldAny k vs op).eval r')
    (env : Env) (e : Falco.Expr) (b : Bool) (hK : ∀ k, MentionsE env k e → K k) (hv : ExprVal ops env r e b) : ExprVal ops env r' e b := by
  refine ExprVal.rec (motive_1 := fun t b _ => (∀ k, Falco.Mentions env k t → K k) → TermVal ops env r' t b)
    (motive_2 := fun e b _ => (∀ k, MentionsE env k e → K k) → ExprVal ops env r' e b) ?_ ?_ ?_ ?_ ?_ ?_ ?_ ?_ ?_ ?_ hv hK
  · intro id e b hm _ ih hK
    exact .mac id e b hm (ih (fun k ⟨c, hc, t, ht, hk⟩ => hK k (.mac id e c t hm hc ht hk)))
  · intro id hm _; exact .undefined id hm
  · intro t b _ ih hK; exact .not t b (ih (fun k hk => hK k (.not t hk)))
  · intro a b hh hK; exact .exist a b ((he a (hK a .exist)).symm.trans hh)
  · intro op l x b hb hK
    have hl := hK l (.binop op x)
    refine .cmp op l x b (hb.trans ?_)
    cases op <;> simp only [Falco.CmpHolds, hcm l x _ hl]
  · intro l args vs b ha hh hK; exact .isIn l args vs b ha ((hfo l vs _ (hK l (.inList args))).symm.trans hh)
  · intro l args vs b ha hh hK; exact .pmatch l args vs b ha ((hfo l vs _ (hK l (.pmatch args))).symm.trans hh)
  · intro e b _ ih hK; exact .paren e b (ih (fun k ⟨c, hc, t, ht, hk⟩ => hK k (.paren e c t hc ht hk)))
  · intro e c hc _ ih hK; exact .holds e c hc (fun t ht => ih t ht (fun k hk => hK k ⟨c, hc, t, ht, hk⟩))
  · intro e w hw _ ih hK; exact .fails e w hw (fun c hc => ih c hc (fun k hk => hK k ⟨c, hc, w c, hw c hc, hk⟩))

/-- The record with the names of these rules in it (and no tags). -/
def marked (rl : ResourceLogs) (R : List RuleInfo) : ResourceLogs :=
  if R = [] then rl else { rl with scopes := rl.scopes ++ [processorScope (R.map (·.name)) []] }

/-- Attributes under another key do not matter. -/
theorem decides_append_other (k : Str) (a : List KV) (p : KV) (hp : p.1 ≠ k) (v : Value) : Decides k (a ++ [p]) v ↔ Decides k a v := by
  constructor
  · intro h
    generalize hb : a ++ [p] = b at h
    cases h with
    | here pre post v hpre hv hk =>
      rcases List.eq_nil_or_concat post with rfl | ⟨post', q, rfl⟩
      · have := List.append_inj_right' hb rfl
        injection this with this
        rw [this] at hp
        exact absurd rfl hp
      · have : a ++ [p] = (pre ++ (k, v) :: post') ++ [q] := by rw [hb]; simp
        rw [(List.append_inj' this rfl).1]
        exact .here pre post' v hpre hv hk
    | nested pre post kvs v hpre h =>
      rcases List.eq_nil_or_concat post with rfl | ⟨post', q, rfl⟩
      · have := List.append_inj_right' hb rfl
        injection this with this
        rw [this] at hp
        exact absurd rfl hp
      · have : a ++ [p] = (pre ++ (k, .kvlist kvs) :: post') ++ [q] := by rw [hb]; simp
        rw [(List.append_inj' this rfl).1]
        exact .nested pre post' kvs v hpre h
  · intro h
    cases h with
    | here pre post v hpre hv hk =>
      have : (pre ++ (k, v) :: post) ++ [p] = pre ++ (k, v) :: (post ++ [p]) := by simp
      rw [this]
      exact .here pre _ v hpre hv hk
    | nested pre post kvs v hpre h =>
      have : (pre ++ (k, .kvlist kvs) :: post) ++ [p] = pre ++ (k, .kvlist kvs) :: (post ++ [p]) := by simp
      rw [this]
      exact .nested pre _ kvs v hpre h

/-- Filters that do not read the tags see of a record with rules noted only their names. -/
theorem filtered_marked (L : Lib) (dss : List (List Decl)) (hkf : ∀ x ∈ (sites dss).filterMap asFilter, ∀ k, MentionsE x.2 k x.1.cond → k ≠ "sf.processor.tags".toList)
    {rl mid : ResourceLogs} {R : List RuleInfo} (h : Noted rl R mid) : OFiltered L mid dss ↔ OFiltered L (marked rl R) dss := by
  classical
  by_cases hR : R = []
  · rw [h.1 hR]; unfold marked; rw [if_pos hR]
  · obtain ⟨tags, _, ho⟩ := h.2 hR
    have hm : marked rl R = { rl with scopes := rl.scopes ++ [processorScope (R.map (·.name)) []] } := by unfold marked; rw [if_neg hR]
    have ha : ∀ ts, attrsOf { rl with scopes := rl.scopes ++ [processorScope (R.map (·.name)) ts] } =
        (attrsOf rl ++ [("sf.processor.rules".toList, .arr (Otel.texts (R.map (·.name))))]) ++ [("sf.processor.tags".toList, .arr (Otel.texts ts))] := by
      intro ts
      rw [noted_attrs, List.append_assoc]; rfl
    have hdec : ∀ k v, k ≠ "sf.processor.tags".toList → (Decides k (attrsOf mid) v ↔ Decides k (attrsOf (marked rl R)) v) := by
      intro k v hk
      rw [hm, ho, ha, ha]
      exact (decides_append_other k _ ("sf.processor.tags".toList, _) (fun h => hk h.symm) v).trans (decides_append_other k _ ("sf.processor.tags".toList, _) (fun h => hk h.symm) v).symm
    have hholds : ∀ k x op, k ≠ "sf.processor.tags".toList → (Holds L k x op mid ↔ Holds L k x op (marked rl R)) := by
      intro k x op hk
      unfold Holds
      exact exists_congr (fun v => and_congr_left (fun _ => hdec k v hk))
    have hex : ∀ k, k ≠ "sf.processor.tags".toList → ((∃ v, (k, v) ∈ attrsOf mid) ↔ ∃ v, (k, v) ∈ attrsOf (marked rl R)) := by
      intro k hk
      rw [hm, ho, ha, ha]
      constructor <;>
      · rintro ⟨v, hv⟩
        rcases List.mem_append.1 hv with hv | hv
        · exact ⟨v, List.mem_append.2 (.inl hv)⟩
        · have := List.mem_singleton.1 hv
          injection this with h1 _
          exact absurd h1 hk
    have e1 : ∀ k, k ≠ "sf.processor.tags".toList → ((meaning L).exist k).eval mid = ((meaning L).exist k).eval (marked rl R) := fun k hk => decide_eq_decide.2 (hex k hk)
    have e2 : ∀ k x op, k ≠ "sf.processor.tags".toList → ((meaning L).compare k x op).eval mid = ((meaning L).compare k x op).eval (marked rl R) :=
      fun k x op hk => decide_eq_decide.2 (hholds k x op hk)
    have e3 : ∀ k xs op, k ≠ "sf.processor.tags".toList → ((meaning L).foldAny k xs op).eval mid = ((meaning L).foldAny k xs op).eval (marked rl R) :=
      fun k xs op hk => decide_eq_decide.2 (exists_congr (fun x => and_congr_right (fun _ => hholds k x op hk)))
    unfold OFiltered
    constructor
    · rintro ⟨x, hx, hen, hv⟩
      exact ⟨x, hx, hen, exprVal_two e1 e2 e3 x.2 x.1.cond true (hkf x hx) hv⟩
    · rintro ⟨x, hx, hen, hv⟩
      exact ⟨x, hx, hen, exprVal_two (fun k hk => (e1 k hk).symm) (fun k x op hk => (e2 k x op hk).symm) (fun k xs op hk => (e3 k xs op hk).symm) x.2 x.1.cond true (hkf x hx) hv⟩

/-- Filters that read nothing the processor writes do not see the rules noted. -/
theorem filtered_foreign (L : Lib) (dss : List (List Decl)) (hkf : ∀ x ∈ (sites dss).filterMap asFilter, ∀ k, MentionsE x.2 k x.1.cond → Foreign k) (rl : ResourceLogs) (R : List RuleInfo) :
    OFiltered L (marked rl R) dss ↔ OFiltered L rl dss := by
  classical
  by_cases hR : R = []
  · unfold marked; rw [if_pos hR]
  · have hm : marked rl R = { rl with scopes := rl.scopes ++ [processorScope (R.map (·.name)) []] } := by unfold marked; rw [if_neg hR]
    have ha : attrsOf (marked rl R) = (attrsOf rl ++ [("sf.processor.rules".toList, .arr (Otel.texts (R.map (·.name))))]) ++ [("sf.processor.tags".toList, .arr (Otel.texts []))] := by
      rw [hm, noted_attrs, List.append_assoc]; rfl
    have hdec : ∀ k v, Foreign k → (Decides k (attrsOf (marked rl R)) v ↔ Decides k (attrsOf rl) v) := by
      intro k v hk
      rw [ha, decides_append_other k _ _ (fun h => hk.2 h.symm), decides_append_other k _ _ (fun h => hk.1 h.symm)]
    have hholds : ∀ k x op, Foreign k → (Holds L k x op (marked rl R) ↔ Holds L k x op rl) := by
      intro k x op hk
      unfold Holds
      exact exists_congr (fun v => and_congr_left (fun _ => hdec k v hk))
    have hex : ∀ k, Foreign k → ((∃ v, (k, v) ∈ attrsOf (marked rl R)) ↔ ∃ v, (k, v) ∈ attrsOf rl) := by
      intro k hk
      rw [ha]
      constructor
      · rintro ⟨v, hv⟩
        rcases List.mem_append.1 hv with hv | hv
        · rcases List.mem_append.1 hv with hv | hv
          · exact ⟨v, hv⟩
          · have := List.mem_singleton.1 hv
            injection this with h1 _
            exact absurd h1 hk.1
        · have := List.mem_singleton.1 hv
          injection this with h1 _
          exact absurd h1 hk.2
      · rintro ⟨v, hv⟩
        exact ⟨v, List.mem_append.2 (.inl (List.mem_append.2 (.inl hv)))⟩
    have e1 : ∀ k, Foreign k → ((meaning L).exist k).eval (marked rl R) = ((meaning L).exist k).eval rl := fun k hk => decide_eq_decide.2 (hex k hk)
    have e2 : ∀ k x op, Foreign k → ((meaning L).compare k x op).eval (marked rl R) = ((meaning L).compare k x op).eval rl := fun k x op hk => decide_eq_decide.2 (hholds k x op hk)
    have e3 : ∀ k xs op, Foreign k → ((meaning L).foldAny k xs op).eval (marked rl R) = ((meaning L).foldAny k xs op).eval rl :=
      fun k xs op hk => decide_eq_decide.2 (exists_congr (fun x => and_congr_right (fun _ => hholds k x op hk)))
    unfold OFiltered
    constructor
    · rintro ⟨x, hx, hen, hv⟩
      exact ⟨x, hx, hen, exprVal_two e1 e2 e3 x.2 x.1.cond true (hkf x hx) hv⟩
    · rintro ⟨x, hx, hen, hv⟩
      exact ⟨x, hx, hen, exprVal_two (fun k hk => (e1 k hk).symm) (fun k x op hk => (e2 k x op hk).symm) (fun k xs op hk => (e3 k xs op hk).symm) x.2 x.1.cond true (hkf x hx) hv⟩

/-! ### Examples -/

example : Noted demoLogs [{ name := "r1".toList, desc := [], tags := [["t".toList]] }]
    { demoLogs with scopes := demoLogs.scopes ++ [processorScope ["r1".toList] ["t".toList]] } :=
  ⟨fun h => (by cases h), fun _ => ⟨[["t".toList]], .cons ⟨by simp, fun t => by simp⟩ .nil, rfl⟩⟩

-- the panic, on a record with one untagged rule noted
example : compare? demoLib "sf.processor.tags".toList "t".toList .Startswith
      { demoLogs with scopes := demoLogs.scopes ++ [processorScope ["r1".toList] []] } = none ∧
    compare? demoLib "sf.processor.tags".toList "t".toList .Startswith
      { demoLogs with scopes := demoLogs.scopes ++ [processorScope ["r1".toList] ["t".toList]] } = some true ∧
    compare? demoLib "sf.processor.rules".toList "r1".toList .Eq
      { demoLogs with scopes := demoLogs.scopes ++ [processorScope ["r1".toList] []] } = some false ∧
    compare? demoLib "sf.processor.rules".toList "r".toList .Contains
      { demoLogs with scopes := demoLogs.scopes ++ [processorScope ["r1".toList] []] } = some true := by decide +kernel

/-- A policy that keeps only what an earlier engine has noted the rule `r1` in. -/
def onlyNoted : List (List Decl) := [[.filter { id := "only r1".toList, cond := [[.not (.binop .contains "sf.processor.rules".toList "r1".toList)]] }]]

/-- It meets the hypothesis on filters; it drops the record as it arrives and keeps it with `r1` noted. -/
example : (∀ x ∈ (sites onlyNoted).filterMap asFilter, ∀ k, MentionsE x.2 k x.1.cond → k ≠ "sf.processor.tags".toList) ∧
    OFiltered demoLib demoLogs onlyNoted ∧ ∀ mid, Noted demoLogs [{ name := "r1".toList, desc := [], tags := [] }] mid → ¬ OFiltered demoLib mid onlyNoted := by
  have hs : (sites onlyNoted).filterMap asFilter = [({ id := "only r1".toList, cond := [[.not (.binop .contains "sf.processor.rules".toList "r1".toList)]] }, ((sites onlyNoted).head?.map (·.2)).getD {})] := rfl
  have hk : ∀ p ∈ attrsOf demoLogs, p.1 ≠ "sf.processor.rules".toList := by
    intro p hp
    have : (attrsOf demoLogs).map (·.1) = ["host".toList, "ports".toList, "level".toList, "level".toList, "ok".toList, "level".toList, "nested".toList] := rfl
    have hm : p.1 ∈ (attrsOf demoLogs).map (·.1) := List.mem_map.2 ⟨p, hp, rfl⟩
    rw [this] at hm
    intro e
    rw [e] at hm
    revert hm
    decide
  have hr : demoLogs.resource ≠ none := by unfold demoLogs; simp
  refine ⟨?_, ?_, ?_⟩
  · rw [hs]
    intro x hx k hm
    rw [List.mem_singleton.1 hx] at hm
    obtain ⟨c, hc, t, ht, h⟩ := hm
    rw [List.mem_singleton.1 hc] at ht
    rw [List.mem_singleton.1 ht] at h
    cases h with
    | not _ h => cases h; decide
  · refine ⟨_, by rw [hs]; exact List.mem_singleton.2 rfl, rfl, ?_⟩
    exact ((filter_on_noted_rules demoLib _ demoLogs demoLogs [] hr ⟨fun _ => rfl, fun h => absurd rfl h⟩ hk "r1".toList).2.1).2 (by rintro ⟨r, hr, _⟩; cases hr)
  · rintro mid hm ⟨x, hx, _, hv⟩
    rw [hs] at hx
    rw [List.mem_singleton.1 hx] at hv
    exact ((filter_on_noted_rules demoLib _ demoLogs mid _ hr hm hk "r1".toList).2.1).1 hv ⟨_, List.mem_singleton.2 rfl, List.infix_refl _⟩

end Verif.Otel
