import Verif.Otel.Props
/-
C32: enrichment of OpenTelemetry logs, and the policy engine over them.
-/
namespace Verif.Otel
open Verif.Decimal (Str)
open Verif.Policy

/-- The texts as array elements. -/
def texts (ss : List Str) : List Value := ss.map .str

/-- No scope of the record is the processor's. -/
def Fresh (scopes : List ScopeLogs) : Prop := ∀ s ∈ scopes, ∀ sc, s.scope = some sc → sc.name ≠ "sf-processor".toList

/-- The scope the processor adds: rule names and tags, no logs. -/
def processorScope (names tags : List Str) : ScopeLogs :=
  { scope := some { name := "sf-processor".toList,
                    attrs := [("sf.processor.rules".toList, .arr (texts names)), ("sf.processor.tags".toList, .arr (texts tags))] },
    logs := [] }

theorem keys_ne : rulesKey ≠ tagsKey := by decide

/-! ### appending -/

theorem appendAt_eq (attrs : List KV) (i : Nat) (s k : Str) (vs : List Value) (h : attrs[i]? = some (k, .arr vs)) :
    appendAt attrs i s = some (attrs.set i (k, .arr (vs ++ [.str s]))) := by
  unfold appendAt; rw [h]

theorem appendAll_eq (i : Nat) (ss : List Str) (attrs : List KV) (k : Str) (vs : List Value) (h : attrs[i]? = some (k, .arr vs)) :
    appendAll i ss attrs = some (attrs.set i (k, .arr (vs ++ texts ss))) := by
  induction ss generalizing attrs vs with
  | nil =>
    obtain ⟨hi, he⟩ := List.getElem?_eq_some_iff.1 h
    simp only [appendAll, texts, List.map_nil, List.append_nil, Option.some.injEq]
    rw [← he, List.set_getElem_self]
  | cons s ss ih =>
    rw [appendAll, appendAt_eq attrs i s k vs h]
    obtain ⟨hi, he⟩ := List.getElem?_eq_some_iff.1 h
    have h' : (attrs.set i (k, .arr (vs ++ [.str s])))[i]? = some (k, .arr (vs ++ [.str s])) := by
      rw [List.getElem?_set_self (by simpa using hi)]
    simp only [ih _ _ h', List.set_set]
    simp [texts]

/-- Whatever is appended, only an array attribute is extended. -/
theorem appendAll_some (i : Nat) (ss : List Str) (attrs attrs' : List KV) (h : appendAll i ss attrs = some attrs') :
    attrs' = attrs ∧ ss = [] ∨ ∃ k vs, attrs[i]? = some (k, .arr vs) ∧ attrs' = attrs.set i (k, .arr (vs ++ texts ss)) := by
  cases ss with
  | nil => simp only [appendAll, Option.some.injEq] at h; exact .inl ⟨h.symm, rfl⟩
  | cons s ss =>
    have hx := h
    rw [appendAll] at h
    unfold appendAt at h
    cases hi : attrs[i]? with
    | none => simp [hi] at h
    | some p =>
      obtain ⟨k, v⟩ := p
      cases v with
      | arr vs =>
        rw [appendAll_eq i (s :: ss) attrs k vs hi, Option.some.injEq] at hx
        exact .inr ⟨k, vs, rfl, hx.symm⟩
      | missing => simp [hi] at h
      | unset => simp [hi] at h
      | str _ => simp [hi] at h
      | bool _ => simp [hi] at h
      | bytes _ => simp [hi] at h
      | double _ => simp [hi] at h
      | int _ => simp [hi] at h
      | kvlist _ => simp [hi] at h

/-- The position returned by `getOrCreate` holds an attribute with the key, and attributes are only added at
the end. -/
theorem getOrCreate_spec (attrs : List KV) (key : Str) :
    ((getOrCreate attrs key).1[(getOrCreate attrs key).2]?.map (·.1)) = some key ∧
    ((getOrCreate attrs key).1 = attrs ∨ ((getOrCreate attrs key).1 = attrs ++ [(key, .arr [])] ∧ (getOrCreate attrs key).2 = attrs.length)) := by
  unfold getOrCreate
  split
  · rename_i h; exact ⟨h.2, .inl rfl⟩
  · split
    · rename_i h; exact ⟨h.2, .inl rfl⟩
    · exact ⟨by simp, .inr ⟨rfl, rfl⟩⟩

/-! ### C32 -/

/-- One attribute list extends another: every attribute keeps its place, key and contents, except that the
array of an attribute named `sf.processor.rules` or `sf.processor.tags` may get more texts at its end; new
attributes, at the end, have one of these names. -/
def Extends (a b : List KV) : Prop :=
  (∀ (i : Nat) (k : Str) (v : Value), a[i]? = some (k, v) → ∃ w, b[i]? = some (k, w) ∧
    (w = v ∨ ((k = "sf.processor.rules".toList ∨ k = "sf.processor.tags".toList) ∧ ∃ vs ss, v = .arr vs ∧ w = .arr (vs ++ texts ss)))) ∧
  (∀ (i : Nat) (k : Str) (v : Value), a.length ≤ i → b[i]? = some (k, v) → k = "sf.processor.rules".toList ∨ k = "sf.processor.tags".toList)

theorem Extends.refl (a : List KV) : Extends a a := by
  refine ⟨fun i k v h => ⟨v, h, .inl rfl⟩, ?_⟩
  intro i k v hi h
  rw [List.getElem?_eq_none hi] at h; cases h

theorem Extends.trans {a b c : List KV} (h1 : Extends a b) (h2 : Extends b c) : Extends a c := by
  refine ⟨?_, ?_⟩
  · intro i k v h
    obtain ⟨w, hw, hd⟩ := h1.1 i k v h
    obtain ⟨x, hx, he⟩ := h2.1 i k w hw
    refine ⟨x, hx, ?_⟩
    rcases hd with rfl | ⟨hk, vs, ss, rfl, rfl⟩
    · exact he
    · rcases he with rfl | ⟨_, vs', ss', hv, rfl⟩
      · exact .inr ⟨hk, vs, ss, rfl, rfl⟩
      · cases hv
        exact .inr ⟨hk, vs, ss ++ ss', rfl, by simp [texts]⟩
  · intro i k v hi h
    by_cases hb : b.length ≤ i
    · exact h2.2 i k v hb h
    · have hb' : i < b.length := by omega
      obtain ⟨x, hx, _⟩ := h2.1 i b[i].1 b[i].2 (List.getElem?_eq_getElem hb')
      rw [hx] at h
      simp only [Option.some.injEq, Prod.mk.injEq] at h
      rw [← h.1]
      exact h1.2 i b[i].1 b[i].2 hi (List.getElem?_eq_getElem hb')

theorem extends_append (a : List KV) (k : Str) (v : Value) (hk : k = rulesKey ∨ k = tagsKey) : Extends a (a ++ [(k, v)]) := by
  refine ⟨?_, ?_⟩
  · intro i k' w h
    obtain ⟨hi, _⟩ := List.getElem?_eq_some_iff.1 h
    exact ⟨w, by rw [List.getElem?_append_left hi]; exact h, .inl rfl⟩
  · intro i k' w hi h
    rw [List.getElem?_append_right hi] at h
    have : i - a.length = 0 := by
      obtain ⟨hh, _⟩ := List.getElem?_eq_some_iff.1 h
      simp at hh; omega
    rw [this] at h
    simp only [List.getElem?_cons_zero, Option.some.injEq, Prod.mk.injEq] at h
    rw [← h.1]; exact hk

theorem extends_set (a : List KV) (i : Nat) (k : Str) (vs : List Value) (ss : List Str) (hk : k = rulesKey ∨ k = tagsKey)
    (h : a[i]? = some (k, .arr vs)) : Extends a (a.set i (k, .arr (vs ++ texts ss))) := by
  refine ⟨?_, ?_⟩
  · intro j k' w hj
    by_cases e : i = j
    · subst e
      rw [h] at hj
      cases hj
      obtain ⟨hi, _⟩ := List.getElem?_eq_some_iff.1 h
      exact ⟨_, List.getElem?_set_self hi, .inr ⟨hk, vs, ss, rfl, rfl⟩⟩
    · exact ⟨w, by rw [List.getElem?_set_ne e]; exact hj, .inl rfl⟩
  · intro j k' w hj hh
    rw [List.getElem?_eq_none (by simpa using hj)] at hh; cases hh

theorem extends_getOrCreate (a : List KV) (k : Str) (hk : k = rulesKey ∨ k = tagsKey) : Extends a (getOrCreate a k).1 := by
  rcases (getOrCreate_spec a k).2 with h | h
  · rw [h]; exact .refl _
  · rw [h.1]; exact extends_append a k _ hk

theorem extends_appendAll (a b : List KV) (i : Nat) (key : Str) (ss : List Str) (hk : key = rulesKey ∨ key = tagsKey)
    (hi : (a[i]?.map (·.1)) = some key) (h : appendAll i ss a = some b) : Extends a b := by
  rcases appendAll_some i ss a b h with ⟨rfl, _⟩ | ⟨k, vs, h1, rfl⟩
  · exact .refl _
  · rw [h1] at hi
    simp only [Option.map_some, Option.some.injEq] at hi
    subst hi
    exact extends_set a i k vs ss hk h1

theorem Extends.key {a b : List KV} (h : Extends a b) (i : Nat) (k : Str) (hi : (a[i]?.map (·.1)) = some k) : (b[i]?.map (·.1)) = some k := by
  rw [Option.map_eq_some_iff] at hi
  obtain ⟨p, hp, rfl⟩ := hi
  obtain ⟨w, hw, _⟩ := h.1 i p.1 p.2 hp
  rw [hw]; rfl

theorem enrichAttrs_extends (order : List Str → List Str) (rules : List RuleInfo) (a b : List KV)
    (h : enrichAttrs order rules a = some b) : Extends a b := by
  unfold enrichAttrs at h
  simp only at h
  have e1 := extends_getOrCreate a rulesKey (.inl rfl)
  have e2 := extends_getOrCreate (getOrCreate a rulesKey).1 tagsKey (.inr rfl)
  cases h3 : appendAll (getOrCreate a rulesKey).2 (rules.map (·.name)) (getOrCreate (getOrCreate a rulesKey).1 tagsKey).1 with
  | none => simp [h3] at h
  | some a3 =>
    simp only [h3] at h
    have k1 := e2.key _ _ (getOrCreate_spec a rulesKey).1
    have e3 := extends_appendAll _ a3 _ rulesKey _ (.inl rfl) k1 h3
    have k2 := e3.key _ _ (getOrCreate_spec (getOrCreate a rulesKey).1 tagsKey).1
    exact ((e1.trans e2).trans e3).trans (extends_appendAll _ b _ tagsKey _ (.inr rfl) k2 h)

/-- C32, for every record: attaching rules changes nothing but the first scope named sf-processor (or adds one
at the end): the resource, all other scopes, all logs, and every other attribute of that scope are as before;
its two attributes are only extended. -/
theorem otel_enrich_only_adds (order : List Str → List Str) (rl rl' : ResourceLogs) (rules : List RuleInfo)
    (h : addRules? order rl rules = some rl') :
    rl'.resource = rl.resource ∧ rl'.rest = rl.rest ∧
    ((Fresh rl.scopes ∧ ∃ new, rl'.scopes = rl.scopes ++ [new]) ∨
     (∃ pre s sc post attrs, rl.scopes = pre ++ s :: post ∧ s.scope = some sc ∧ sc.name = "sf-processor".toList ∧ Fresh pre ∧
        rl'.scopes = pre ++ { s with scope := some { sc with attrs := attrs } } :: post ∧ Extends sc.attrs attrs)) := by
  unfold addRules? at h
  rw [Option.map_eq_some_iff] at h
  obtain ⟨ss, hs, rfl⟩ := h
  refine ⟨rfl, rfl, ?_⟩
  generalize rl.scopes = scopes at hs
  show (Fresh scopes ∧ ∃ new, ss = scopes ++ [new]) ∨ ∃ pre s sc post attrs, scopes = pre ++ s :: post ∧ _ ∧ _ ∧ _ ∧ ss = _ ∧ _
  induction scopes generalizing ss with
  | nil =>
    rw [enrichScopes, Option.map_eq_some_iff] at hs
    obtain ⟨a, _, rfl⟩ := hs
    exact .inl ⟨fun s hs => (by cases hs), _, rfl⟩
  | cons s rest ih =>
    rw [enrichScopes] at hs
    have step : ∀ (hf : ∀ sc, s.scope = some sc → sc.name ≠ "sf-processor".toList), (enrichScopes order rules rest).map (s :: ·) = some ss →
        (Fresh (s :: rest) ∧ ∃ new, ss = s :: rest ++ [new]) ∨ ∃ pre s' sc post attrs, s :: rest = pre ++ s' :: post ∧ s'.scope = some sc ∧
          sc.name = "sf-processor".toList ∧ Fresh pre ∧ ss = pre ++ { s' with scope := some { sc with attrs := attrs } } :: post ∧ Extends sc.attrs attrs := by
      intro hf hm
      rw [Option.map_eq_some_iff] at hm
      obtain ⟨ss', hss, rfl⟩ := hm
      rcases ih ss' hss with ⟨hfr, new, rfl⟩ | ⟨pre, s', sc, post, attrs, rfl, h1, h2, h3, rfl, h4⟩
      · refine .inl ⟨?_, new, rfl⟩
        intro x hx
        rcases List.mem_cons.1 hx with rfl | hx
        · exact hf
        · exact hfr x hx
      · refine .inr ⟨s :: pre, s', sc, post, attrs, rfl, h1, h2, ?_, rfl, h4⟩
        intro x hx
        rcases List.mem_cons.1 hx with rfl | hx
        · exact hf
        · exact h3 x hx
    cases hsc : s.scope with
    | none =>
      simp only [hsc] at hs
      exact step (by rw [hsc]; intro sc h; cases h) hs
    | some sc =>
      simp only [hsc] at hs
      by_cases hn : sc.name = scopeName
      · rw [if_pos hn, Option.map_eq_some_iff] at hs
        obtain ⟨a, ha, rfl⟩ := hs
        exact .inr ⟨[], s, sc, rest, a, rfl, hsc, hn, fun x hx => (by cases hx), rfl, enrichAttrs_extends order rules _ _ ha⟩
      · rw [if_neg hn] at hs
        exact step (by rw [hsc]; intro sc' h; cases h; exact hn) hs

theorem enrichScopes_skip (order : List Str → List Str) (rules : List RuleInfo) (pre rest : List ScopeLogs) (hf : Fresh pre) :
    enrichScopes order rules (pre ++ rest) = (enrichScopes order rules rest).map (pre ++ ·) := by
  induction pre with
  | nil => simp
  | cons s pre ih =>
    have ih := ih (fun x hx => hf x (.tail _ hx))
    rw [List.cons_append, enrichScopes]
    cases hs : s.scope with
    | none => simp only [ih, Option.map_map]; rfl
    | some sc =>
      have : sc.name ≠ scopeName := hf s (.head _) sc hs
      simp only [this, if_false, ih, Option.map_map]; rfl

/-- The two attributes at the end of the processor's scope are found and extended. -/
theorem enrichAttrs_last_two (order : List Str → List Str) (rules : List RuleInfo) (init : List KV) (vs ws : List Value) :
    enrichAttrs order rules (init ++ [(rulesKey, .arr vs), (tagsKey, .arr ws)]) =
      some (init ++ [(rulesKey, .arr (vs ++ texts (rules.map (·.name)))), (tagsKey, .arr (ws ++ texts (order (tagSet rules))))]) := by
  have g1 : getOrCreate (init ++ [(rulesKey, .arr vs), (tagsKey, .arr ws)]) rulesKey =
      (init ++ [(rulesKey, .arr vs), (tagsKey, .arr ws)], init.length) := by
    unfold getOrCreate
    rw [if_pos]
    · simp
    · constructor
      · simp
      · simp
  have g2 : getOrCreate (init ++ [(rulesKey, .arr vs), (tagsKey, .arr ws)]) tagsKey =
      (init ++ [(rulesKey, .arr vs), (tagsKey, .arr ws)], init.length + 1) := by
    unfold getOrCreate
    rw [if_neg, if_pos]
    · simp
    · constructor
      · simp
      · simp
    · rintro ⟨_, h⟩
      have h' : some rulesKey = some tagsKey := by simpa using h
      exact keys_ne (Option.some.inj h')
  unfold enrichAttrs
  simp only [g1, g2]
  rw [appendAll_eq init.length _ _ rulesKey vs (by simp)]
  simp only
  have e : (init ++ [(rulesKey, Value.arr vs), (tagsKey, .arr ws)]).set init.length (rulesKey, .arr (vs ++ texts (rules.map (·.name)))) =
      init ++ [(rulesKey, .arr (vs ++ texts (rules.map (·.name)))), (tagsKey, .arr ws)] := by
    rw [List.set_append_right _ _ (by simp)]; simp
  rw [e, appendAll_eq (init.length + 1) _ _ tagsKey ws (by simp)]
  rw [List.set_append_right _ _ (by simp)]; simp

theorem enrichAttrs_nil (order : List Str → List Str) (rules : List RuleInfo) :
    enrichAttrs order rules [] = some [(rulesKey, .arr (texts (rules.map (·.name)))), (tagsKey, .arr (texts (order (tagSet rules))))] := by
  have h := enrichAttrs_last_two order rules [] [] []
  simp only [List.nil_append] at h
  rw [← h]
  have g1 : getOrCreate [] rulesKey = ([(rulesKey, .arr [])], 0) := rfl
  have g2 : getOrCreate [(rulesKey, .arr [])] tagsKey = ([(rulesKey, .arr []), (tagsKey, .arr [])], 1) := by
    unfold getOrCreate
    rw [if_neg (by simp), if_neg]
    · rfl
    · rintro ⟨_, h⟩
      have h' : some rulesKey = some tagsKey := by simpa using h
      exact keys_ne (Option.some.inj h')
  have g3 : getOrCreate [(rulesKey, .arr []), (tagsKey, .arr [])] rulesKey = ([(rulesKey, .arr []), (tagsKey, .arr [])], 0) := by
    unfold getOrCreate
    rw [if_pos ⟨by simp, by simp⟩]; rfl
  have g4 : getOrCreate [(rulesKey, .arr []), (tagsKey, .arr [])] tagsKey = ([(rulesKey, .arr []), (tagsKey, .arr [])], 1) := by
    unfold getOrCreate
    rw [if_neg, if_pos ⟨by simp, by simp⟩]
    · rfl
    · rintro ⟨_, h⟩
      have h' : some rulesKey = some tagsKey := by simpa using h
      exact keys_ne (Option.some.inj h')
  unfold enrichAttrs
  simp only [g1, g2, g3, g4]

/-- C32: the first enrichment of a record adds the processor's scope at the end, with the rule names in order
and each tag of the rules once. -/
theorem otel_enrich_first (order : List Str → List Str) (rl : ResourceLogs) (rules : List RuleInfo) (hf : Fresh rl.scopes) :
    addRules? order rl rules = some { rl with scopes := rl.scopes ++ [processorScope (rules.map (·.name)) (order (tagSet rules))] } := by
  unfold addRules?
  have := enrichScopes_skip order rules rl.scopes [] hf
  rw [List.append_nil] at this
  rw [this, enrichScopes, enrichAttrs_nil]
  rfl

/-- C32: a later enrichment, whatever the processor had written, appends to it. -/
theorem otel_enrich_again (order : List Str → List Str) (rl : ResourceLogs) (rules : List RuleInfo) (pre post : List ScopeLogs)
    (s : ScopeLogs) (sc : Scope) (init : List KV) (vs ws : List Value) (hs : rl.scopes = pre ++ s :: post) (hf : Fresh pre)
    (hsc : s.scope = some sc) (hn : sc.name = "sf-processor".toList)
    (ha : sc.attrs = init ++ [("sf.processor.rules".toList, .arr vs), ("sf.processor.tags".toList, .arr ws)]) :
    addRules? order rl rules = some { rl with scopes := pre ++ { s with scope := some { sc with attrs :=
      init ++ [("sf.processor.rules".toList, .arr (vs ++ texts (rules.map (·.name)))),
               ("sf.processor.tags".toList, .arr (ws ++ texts (order (tagSet rules))))] } } :: post } := by
  unfold addRules?
  have hn' : sc.name = scopeName := hn
  rw [hs, enrichScopes_skip order rules pre _ hf, enrichScopes]
  simp only [hsc, if_pos hn', ha]
  rw [show ("sf.processor.rules".toList : Str) = rulesKey from rfl, show ("sf.processor.tags".toList : Str) = tagsKey from rfl,
    enrichAttrs_last_two]
  rfl

/-- The enrichments of a record one after the other. -/
def addAll (order : List Str → List Str) : ResourceLogs → List (List RuleInfo) → Option ResourceLogs
  | rl, [] => some rl
  | rl, rs :: rss => match addRules? order rl rs with
    | none => none
    | some rl' => addAll order rl' rss

/-- C32: however often rules are attached to a record that arrives without the processor's scope, exactly one
such scope results, at the end, listing all rule names in order; all else is as it arrived. -/
theorem otel_enrich_history (order : List Str → List Str) (rl : ResourceLogs) (rss : List (List RuleInfo)) (hf : Fresh rl.scopes) (hne : rss ≠ []) :
    addAll order rl rss = some { rl with scopes := rl.scopes ++
      [processorScope (rss.flatten.map (·.name)) (rss.flatMap (fun rs => order (tagSet rs)))] } := by
  cases rss with
  | nil => exact absurd rfl hne
  | cons rs rss =>
    rw [addAll, otel_enrich_first order rl rs hf]
    simp only [List.flatten_cons, List.map_append, List.flatMap_cons]
    have key : ∀ (rss : List (List RuleInfo)) (ns ts : List Str),
        addAll order { rl with scopes := rl.scopes ++ [processorScope ns ts] } rss =
        some { rl with scopes := rl.scopes ++ [processorScope (ns ++ rss.flatten.map (·.name)) (ts ++ rss.flatMap (fun rs => order (tagSet rs)))] } := by
      intro rss
      induction rss with
      | nil => intro ns ts; simp [addAll]
      | cons rs rss ih =>
        intro ns ts
        rw [addAll, otel_enrich_again order _ rs rl.scopes [] (processorScope ns ts) _ [] (texts ns) (texts ts) rfl hf rfl rfl rfl]
        have := ih (ns ++ rs.map (·.name)) (ts ++ order (tagSet rs))
        simp only [List.flatten_cons, List.map_append, List.flatMap_cons, ← List.append_assoc]
        simp only [List.append_assoc] at this ⊢
        rw [← this]
        simp [processorScope, texts]
    exact key rss _ _

theorem nodup_eraseDups (l : List Str) : l.eraseDups.Nodup := by
  induction hn : l.length using Nat.strongRecOn generalizing l with
  | _ n ih =>
    cases l with
    | nil => simp
    | cons a as =>
      rw [List.eraseDups_cons, List.nodup_cons]
      refine ⟨?_, ih _ ?_ _ rfl⟩
      · rw [List.mem_eraseDups]; simp
      · have := List.length_filter_le (fun b => !b == a) as
        simp at hn; omega

/-- C32: tags are listed once per enrichment, in some order. -/
theorem otel_tags (rules : List RuleInfo) :
    (tagSet rules).Nodup ∧ ∀ t, t ∈ tagSet rules ↔ ∃ r ∈ rules, ∃ ts ∈ r.tags, t ∈ ts := by
  unfold tagSet
  refine ⟨nodup_eraseDups _, ?_⟩
  intro t
  rw [List.mem_eraseDups]
  simp only [List.mem_flatten, List.mem_map]
  constructor
  · rintro ⟨ts, ⟨l, ⟨r, hr, rfl⟩, hts⟩, ht⟩; exact ⟨r, hr, ts, hts, ht⟩
  · rintro ⟨r, hr, ts, hts, ht⟩; exact ⟨ts, ⟨_, ⟨r, hr, rfl⟩, hts⟩, ht⟩

/-- C32 (finding): a tag shared by two rules of a record is listed twice, since the engine attaches rules one
by one. -/
theorem otel_tags_repeated (order : List Str → List Str) (ho : ∀ l, (order l).Perm l) (rl : ResourceLogs) (hf : Fresh rl.scopes)
    (a b : RuleInfo) (t : Str) (ha : a.tags = [[t]]) (hb : b.tags = [[t]]) :
    addAll order rl [[a], [b]] = some { rl with scopes := rl.scopes ++ [processorScope [a.name, b.name] [t, t]] } := by
  rw [otel_enrich_history order rl _ hf (by simp)]
  have h : ∀ x : RuleInfo, x.tags = [[t]] → order (tagSet [x]) = [t] := by
    intro x hx
    have : tagSet [x] = [t] := by unfold tagSet; simp [hx]; rfl
    rw [this]
    exact List.perm_singleton.1 (ho [t])
  simp [h a ha, h b hb]

/-! ### The engine over OTel logs -/

theorem cmpKVs_filter (L : Lib) (l r : Str) (op : Operator) (kvs : List KV) :
    cmpKVs L l r op kvs = cmpKVs L l r op (kvs.filter (fun p => p.1 = l)) := by
  induction kvs with
  | nil => rfl
  | cons p kvs ih =>
    obtain ⟨k, v⟩ := p
    by_cases h : k = l
    · rw [List.filter_cons_of_pos (by simpa using h), cmpKVs, cmpKVs, ih]
    · rw [List.filter_cons_of_neg (by simpa using h), cmpKVs, ← ih]; simp [h]

theorem hasKey_filter (l : Str) (kvs : List KV) : hasKey l kvs = hasKey l (kvs.filter (fun p => p.1 = l)) := by
  induction kvs with
  | nil => rfl
  | cons p kvs ih =>
    obtain ⟨k, v⟩ := p
    by_cases h : k = l
    · rw [List.filter_cons_of_pos (by simpa using h), hasKey, hasKey, ih]
    · rw [List.filter_cons_of_neg (by simpa using h), hasKey, ← ih]; simp [h]

theorem regExpLoop_filter (find : Str → Str) (l : Str) (kvs : List KV) : regExpLoop find l kvs = regExpLoop find l (kvs.filter (fun p => p.1 = l)) := by
  induction kvs with
  | nil => rfl
  | cons p kvs ih =>
    obtain ⟨k, v⟩ := p
    by_cases h : k = l
    · rw [List.filter_cons_of_pos (by simpa using h)]
      unfold regExpLoop; rw [ih]
    · rw [List.filter_cons_of_neg (by simpa using h), ← ih]
      conv => lhs; unfold regExpLoop
      simp [h]

/-- A condition built from the operations on OTel logs that does not name the attributes the processor
writes. -/
inductive Reads (L : Lib) : Criterion ResourceLogs → Prop
  | exist (a) (h : a ≠ rulesKey ∧ a ≠ tagsKey) : Reads L ((otelOps L).exist a)
  | compare (a r op) (h : a ≠ rulesKey ∧ a ≠ tagsKey) : Reads L ((otelOps L).compare a r op)
  | foldAny (a l op) (h : a ≠ rulesKey ∧ a ≠ tagsKey) : Reads L ((otelOps L).foldAny a l op)
  | foldAll (a l op) (h : a ≠ rulesKey ∧ a ≠ tagsKey) : Reads L ((otelOps L).foldAll a l op)
  | regExp (a re) (h : a ≠ rulesKey ∧ a ≠ tagsKey) : Reads L ((otelOps L).regExp a re).1
  | tt : Reads L .tt
  | ff : Reads L .ff
  | and (a b) : Reads L a → Reads L b → Reads L (a.and b)
  | or (a b) : Reads L a → Reads L b → Reads L (a.or b)
  | not (a) : Reads L a → Reads L a.not

/-- What such conditions can see of a record: whether it has a resource, and for each key other than the
processor's the attributes with that key, in order. -/
def view (rl : ResourceLogs) : Bool × (Str → List KV) :=
  (rl.resource.isSome, fun k => if k ≠ rulesKey ∧ k ≠ tagsKey then ((getAllAttributes rl).getD []).filter (fun p => p.1 = k) else [])

theorem view_key {rl rl' : ResourceLogs} (h : view rl = view rl') (k : Str) (hk : k ≠ rulesKey ∧ k ≠ tagsKey) :
    ((getAllAttributes rl).getD []).filter (fun p => p.1 = k) = ((getAllAttributes rl').getD []).filter (fun p => p.1 = k) := by
  have := congrFun (congrArg Prod.snd h) k
  simp only [view, if_pos hk] at this
  exact this

theorem attrs_cases {rl rl' : ResourceLogs} (h : view rl = view rl') :
    (getAllAttributes rl = none ∧ getAllAttributes rl' = none) ∨ ∃ a b, getAllAttributes rl = some a ∧ getAllAttributes rl' = some b ∧
      ∀ k, k ≠ rulesKey ∧ k ≠ tagsKey → a.filter (fun p => p.1 = k) = b.filter (fun p => p.1 = k) := by
  have h1 : rl.resource.isSome = rl'.resource.isSome := congrArg Prod.fst h
  cases h2 : rl.resource with
  | none =>
    have h3 : rl'.resource = none := by rw [h2] at h1; simpa using h1.symm
    exact .inl ⟨by simp [getAllAttributes, h2], by simp [getAllAttributes, h3]⟩
  | some a =>
    cases h3 : rl'.resource with
    | none => rw [h2, h3] at h1; cases h1
    | some b =>
      refine .inr ⟨_, _, (otel_attribute_order rl).1 a h2, (otel_attribute_order rl').1 b h3, ?_⟩
      intro k hk
      have := view_key h k hk
      rw [(otel_attribute_order rl).1 a h2, (otel_attribute_order rl').1 b h3] at this
      exact this

theorem reads_view (L : Lib) (c : Criterion ResourceLogs) (hc : Reads L c) (rl rl' : ResourceLogs) (h : view rl = view rl') :
    c.pred rl = c.pred rl' := by
  have hcmp : ∀ a r op, a ≠ rulesKey ∧ a ≠ tagsKey → ∀ x y : List KV,
      x.filter (fun p => p.1 = a) = y.filter (fun p => p.1 = a) → cmpKVs L a r op x = cmpKVs L a r op y := by
    intro a r op _ x y hxy; rw [cmpKVs_filter, hxy, ← cmpKVs_filter]
  induction hc with
  | exist a ha =>
    simp only [otelOps, crit, exists?]
    rcases attrs_cases h with ⟨h1, h2⟩ | ⟨x, y, h1, h2, hxy⟩
    · simp [h1, h2]
    · rw [h1, h2]; simp only [Option.map_some]; rw [hasKey_filter, hxy a ha, ← hasKey_filter]
  | compare a r op ha =>
    simp only [otelOps, crit, compare?]
    rcases attrs_cases h with ⟨h1, h2⟩ | ⟨x, y, h1, h2, hxy⟩
    · simp [h1, h2]
    · rw [h1, h2]; simp only; rw [hcmp a r op ha x y (hxy a ha)]
  | foldAny a l op ha =>
    simp only [otelOps, crit, foldAny?]
    rcases attrs_cases h with ⟨h1, h2⟩ | ⟨x, y, h1, h2, hxy⟩
    · simp [h1, h2]
    · rw [h1, h2]; simp only
      have : foldAnyLoop L a op x l = foldAnyLoop L a op y l := by
        induction l with
        | nil => rfl
        | cons r rs ih => rw [foldAnyLoop, foldAnyLoop, hcmp a r op ha x y (hxy a ha), ih]
      rw [this]
  | foldAll a l op ha =>
    simp only [otelOps, crit, foldAll?]
    rcases attrs_cases h with ⟨h1, h2⟩ | ⟨x, y, h1, h2, hxy⟩
    · simp [h1, h2]
    · rw [h1, h2]; simp only
      have : foldAllLoop L a op x l = foldAllLoop L a op y l := by
        induction l with
        | nil => rfl
        | cons r rs ih => rw [foldAllLoop, foldAllLoop, hcmp a r op ha x y (hxy a ha), ih]
      rw [this]
  | regExp a re ha =>
    simp only [otelOps, crit, regExp?]
    cases L.regexp re with
    | none => rfl
    | some find =>
      simp only
      rcases attrs_cases h with ⟨h1, h2⟩ | ⟨x, y, h1, h2, hxy⟩
      · simp [h1, h2]
      · rw [h1, h2]; simp only; rw [regExpLoop_filter, hxy a ha, ← regExpLoop_filter]
  | tt => rfl
  | ff => rfl
  | and a b _ _ iha ihb => simp [Criterion.and, Criterion.eval, iha, ihb]
  | or a b _ _ iha ihb => simp [Criterion.or, Criterion.eval, iha, ihb]
  | not a _ iha => simp [Criterion.not, Criterion.eval, iha]

theorem Extends.filter {a b : List KV} (h : Extends a b) (k : Str) (hk : k ≠ rulesKey ∧ k ≠ tagsKey) :
    b.filter (fun p => p.1 = k) = a.filter (fun p => p.1 = k) := by
  induction a generalizing b with
  | nil =>
    rw [List.filter_nil, List.filter_eq_nil_iff]
    intro p hp
    obtain ⟨i, hi, he⟩ := List.mem_iff_getElem.1 hp
    have := h.2 i p.1 p.2 (by simp) (by rw [List.getElem?_eq_getElem hi, he])
    simp only [decide_eq_true_eq]
    intro hh
    rw [hh] at this
    rcases this with e | e
    · exact hk.1 e
    · exact hk.2 e
  | cons p a ih =>
    obtain ⟨k', v⟩ := p
    obtain ⟨w, hw, hd⟩ := h.1 0 k' v (by simp)
    cases b with
    | nil => simp at hw
    | cons q b =>
      simp only [List.getElem?_cons_zero, Option.some.injEq] at hw
      subst hw
      have ht : Extends a b := by
        refine ⟨fun i k v hi => ?_, fun i k v hi hh => ?_⟩
        · exact h.1 (i + 1) k v (by simpa using hi)
        · exact h.2 (i + 1) k v (by simpa using hi) (by simpa using hh)
      by_cases hkk : k' = k
      · subst hkk
        have : w = v := by
          rcases hd with e | ⟨e | e, _⟩
          · exact e
          · exact absurd e hk.1
          · exact absurd e hk.2
        subst this
        rw [List.filter_cons_of_pos (by simp), List.filter_cons_of_pos (by simp), ih ht]
      · rw [List.filter_cons_of_neg (by simpa using hkk), List.filter_cons_of_neg (by simpa using hkk), ih ht]

theorem enrichScopes_new (order : List Str → List Str) (rules : List RuleInfo) (scopes : List ScopeLogs) (hf : Fresh scopes) :
    enrichScopes order rules scopes = some (scopes ++ [processorScope (rules.map (·.name)) (order (tagSet rules))]) := by
  have := otel_enrich_first order ⟨some [], scopes, []⟩ rules hf
  unfold addRules? at this
  rw [Option.map_eq_some_iff] at this
  obtain ⟨ss, h1, h2⟩ := this
  rw [h1]
  have := congrArg ResourceLogs.scopes h2
  simpa using this

/-- Attaching rules does not change what such conditions see. -/
theorem enrich_view (order : List Str → List Str) (rl rl' : ResourceLogs) (rules : List RuleInfo)
    (h : addRules? order rl rules = some rl') : view rl' = view rl := by
  obtain ⟨h1, h2, h3⟩ := otel_enrich_only_adds order rl rl' rules h
  unfold view
  refine Prod.ext (by simp [h1]) ?_
  funext k
  simp only
  by_cases hk : k ≠ rulesKey ∧ k ≠ tagsKey
  · rw [if_pos hk, if_pos hk]
    cases hr : rl.resource with
    | none => rw [(otel_attribute_order rl).2 hr, (otel_attribute_order rl').2 (by rw [h1, hr])]
    | some res =>
      rw [(otel_attribute_order rl).1 res hr, (otel_attribute_order rl').1 res (by rw [h1, hr])]
      simp only [Option.getD_some, attributes, List.filter_append]
      congr 1
      rcases h3 with ⟨hf, new, hnew⟩ | ⟨pre, s, sc, post, attrs, hs, hsc, hn, _, hs', hext⟩
      · have hx := h
        unfold addRules? at hx
        rw [enrichScopes_new order rules _ hf, Option.map_some, Option.some.injEq] at hx
        rw [← hx]
        simp only [List.flatMap_append, List.filter_append, List.flatMap_cons, List.flatMap_nil, List.append_nil]
        have : (scopeAttributes (processorScope (rules.map (·.name)) (order (tagSet rules)))).filter (fun p => p.1 = k) = [] := by
          rw [List.filter_eq_nil_iff]
          intro p hp
          simp only [scopeAttributes, processorScope, List.flatMap_nil, List.append_nil, List.mem_cons, List.not_mem_nil, or_false] at hp
          simp only [decide_eq_true_eq]
          rintro rfl
          rcases hp with rfl | rfl
          · exact hk.1 rfl
          · exact hk.2 rfl
        rw [this, List.append_nil]
      · rw [hs, hs']
        simp only [List.flatMap_append, List.filter_append, List.flatMap_cons]
        congr 2
        simp only [scopeAttributes, hsc, List.filter_append]
        rw [hext.filter k hk]
  · rw [if_neg hk, if_neg hk]

/-- Engines over OTel logs whose rules do not read the processor's own attributes meet the hypothesis of the
engine theorems (C02-C04), when actions leave the record alone. -/
theorem otel_stable (L : Lib) (order : List Str → List Str) (e : Bool) (rules : List (Rule ResourceLogs)) (fs : List (Filter ResourceLogs))
    (bi us : Engine.ActionMap ResourceLogs) (o : Bool) (hb : ∀ rule ∈ rules, Reads L rule.condition)
    (ha : ∀ a f, (bi a = some f ∨ us a = some f) → ∀ r, (f r).1 = r) :
    Engine.Stable (otelInterp order e rules fs bi us o) view := by
  refine ⟨?_, ?_, ?_, ?_⟩
  · intro rule hr r r' h; exact reads_view L _ (hb rule hr) r r' h
  · intro _ _ _ _ _; rfl
  · intro r rule _
    show view ((addRules? order r [rule.toRuleInfo]).getD r) = view r
    cases h : addRules? order r [rule.toRuleInfo] with
    | none => rfl
    | some r' => exact enrich_view order r r' _ h
  · intro r a f h
    have h : (bi a).or (us a) = some f := h
    have : (f r).1 = r := by
      apply ha a f
      cases hbi : bi a with
      | none => rw [hbi] at h; right; simpa using h
      | some g => rw [hbi] at h; left; simpa using h
    rw [this]

/-- C32: the engine on a record that arrives without the processor's scope. If it is dropped, or no rule fires,
it is unchanged; otherwise exactly the names of the firing rules, in policy order, are in the new scope. -/
theorem otel_engine (L : Lib) (order : List Str → List Str) (e : Bool) (rules : List (Rule ResourceLogs)) (fs : List (Filter ResourceLogs))
    (bi us : Engine.ActionMap ResourceLogs) (o : Bool) (hb : ∀ rule ∈ rules, Reads L rule.condition)
    (ha : ∀ a f, (bi a = some f ∨ us a = some f) → ∀ r, (f r).1 = r) (rl : ResourceLogs) (hf : Fresh rl.scopes) :
    let pi := otelInterp order e rules fs bi us o
    let firing := rules.filter (fun x => decide (Engine.Fires pi rl x))
    (pi.work rl).1 = if Engine.Dropped pi rl ∨ firing = [] then rl else
      { rl with scopes := rl.scopes ++ [processorScope (firing.map (·.name)) (firing.flatMap (fun x => order (tagSet [x.toRuleInfo])))] } := by
  intro pi firing
  obtain ⟨hd, hn⟩ := Engine.work_spec pi view (otel_stable L order e rules fs bi us o hb ha) rl
  by_cases h : Engine.Dropped pi rl
  · rw [if_pos (.inl h), hd h]
  · obtain ⟨es, h1, _, h3, h4⟩ := hn h
    rw [h4]
    simp only
    have hact : ∀ a f, Engine.registered pi a = some f → ∀ r, (f r).1 = r := by
      intro a f hh r
      have hh : (bi a).or (us a) = some f := hh
      apply ha a f
      cases hbi : bi a with
      | none => rw [hbi] at hh; right; simpa using hh
      | some g => rw [hbi] at hh; left; simpa using hh
    have key : ∀ (es : List (Engine.Event ResourceLogs)) (r : ResourceLogs), es.foldl (Engine.applyEvent pi) r =
        (Engine.annotated es).foldl (fun r x => (addRules? order r [x.toRuleInfo]).getD r) r := by
      intro es
      induction es with
      | nil => intro r; rfl
      | cons ev es ih =>
        intro r
        cases ev with
        | annotate x => simp only [List.foldl_cons, Engine.annotated, ih]; rfl
        | act a b =>
          simp only [List.foldl_cons, Engine.annotated, ih, Engine.applyEvent]
          cases hr : Engine.registered pi a with
          | none => rfl
          | some f => simp only [hact a f hr]
        | out r' => simp only [List.foldl_cons, Engine.annotated, ih, Engine.applyEvent]
    rw [key, h1]
    show firing.foldl _ rl = _
    by_cases hfi : firing = []
    · rw [if_pos (.inr hfi), hfi]; rfl
    · rw [if_neg (by rintro (h' | h') <;> contradiction)]
      have hfold : ∀ (xs : List (Rule ResourceLogs)) (r r' : ResourceLogs), addAll order r (xs.map (fun x => [x.toRuleInfo])) = some r' →
          xs.foldl (fun r x => (addRules? order r [x.toRuleInfo]).getD r) r = r' := by
        intro xs
        induction xs with
        | nil => intro r r' h; simpa [addAll] using h
        | cons x xs ih =>
          intro r r' h
          rw [List.map_cons, addAll] at h
          cases hx : addRules? order r [x.toRuleInfo] with
          | none => simp [hx] at h
          | some r1 =>
            simp only [hx] at h
            simp only [List.foldl_cons, hx, Option.getD_some]
            exact ih r1 r' h
      have := hfold firing rl _ (otel_enrich_history order rl (firing.map (fun x => [x.toRuleInfo])) hf (by simpa using hfi))
      rw [this]
      simp only [List.flatMap_map]
      congr 4
      generalize firing = fl
      induction fl with
      | nil => rfl
      | cons x xs ih => simpa using ih

end Verif.Otel
