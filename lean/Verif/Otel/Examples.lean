import Verif.Otel.Enrich
/-
Findings about OTel enrichment, and concrete records meeting the hypotheses of the OTel theorems.
-/
namespace Verif.Otel
open Verif.Decimal (Str)
open Verif.Policy

/-- C32 (finding): in a scope that carries another attribute after `sf.processor.rules`, the second rule is
recorded in a second attribute of the same name. -/
theorem otel_foreign_attribute_duplicates (order : List Str → List Str) (ho : ∀ l, (order l).Perm l) (r1 r2 : RuleInfo)
    (h1 : r1.tags = []) (h2 : r2.tags = []) (k : Str) (v : Value) (hk : k ≠ rulesKey ∧ k ≠ tagsKey) :
    ((enrichAttrs order [r1] [(rulesKey, .arr []), (k, v)]).bind (enrichAttrs order [r2])) =
      some [(rulesKey, .arr [.str r1.name]), (k, v), (tagsKey, .arr []), (rulesKey, .arr [.str r2.name])] := by
  have hz : ∀ r : RuleInfo, r.tags = [] → order (tagSet [r]) = [] := by
    intro r hr
    have : tagSet [r] = [] := by unfold tagSet; simp [hr]
    rw [this]; exact List.perm_nil.1 (ho [])
  have s1 : enrichAttrs order [r1] [(rulesKey, .arr []), (k, v)] = some [(rulesKey, .arr [.str r1.name]), (k, v), (tagsKey, .arr [])] := by
    have g1 : getOrCreate [(rulesKey, .arr []), (k, v)] rulesKey = ([(rulesKey, .arr []), (k, v)], 0) := by
      unfold getOrCreate; rw [if_pos ⟨by simp, by simp⟩]; rfl
    have g2 : getOrCreate [(rulesKey, .arr []), (k, v)] tagsKey = ([(rulesKey, .arr []), (k, v), (tagsKey, .arr [])], 2) := by
      unfold getOrCreate
      rw [if_neg, if_neg]
      · rfl
      · rintro ⟨_, h⟩
        have h' : some k = some tagsKey := by simpa using h
        exact hk.2 (Option.some.inj h')
      · rintro ⟨_, h⟩
        have h' : some rulesKey = some tagsKey := by simpa using h
        exact keys_ne (Option.some.inj h')
    unfold enrichAttrs
    simp only [g1, g2, hz r1 h1]
    rfl
  rw [s1]
  have g1 : getOrCreate [(rulesKey, .arr [.str r1.name]), (k, v), (tagsKey, .arr [])] rulesKey =
      ([(rulesKey, .arr [.str r1.name]), (k, v), (tagsKey, .arr []), (rulesKey, .arr [])], 3) := by
    unfold getOrCreate
    rw [if_neg, if_neg]
    · rfl
    · rintro ⟨_, h⟩
      have h' : some tagsKey = some rulesKey := by simpa using h
      exact keys_ne (Option.some.inj h').symm
    · rintro ⟨_, h⟩
      have h' : some k = some rulesKey := by simpa using h
      exact hk.1 (Option.some.inj h')
  have g2 : getOrCreate [(rulesKey, .arr [.str r1.name]), (k, v), (tagsKey, .arr []), (rulesKey, .arr [])] tagsKey =
      ([(rulesKey, .arr [.str r1.name]), (k, v), (tagsKey, .arr []), (rulesKey, .arr [])], 2) := by
    unfold getOrCreate; rw [if_pos ⟨by simp, by simp⟩]; rfl
  show enrichAttrs order [r2] _ = _
  unfold enrichAttrs
  simp only [g1, g2, hz r2 h2]
  rfl

/-- C32 (finding): if the record arrives with an attribute `sf.processor.rules` that is not an array as the only
attribute of the processor's scope, attaching a rule panics. -/
theorem otel_enrich_panics (order : List Str → List Str) (rl : ResourceLogs) (rule : RuleInfo) (s : ScopeLogs) (sc : Scope) (post : List ScopeLogs)
    (v : Value) (hs : rl.scopes = s :: post) (hsc : s.scope = some sc) (hn : sc.name = "sf-processor".toList)
    (ha : sc.attrs = [("sf.processor.rules".toList, v)]) (hv : ∀ vs, v ≠ .arr vs) :
    addRules? order rl [rule] = none := by
  have hn' : sc.name = scopeName := hn
  unfold addRules?
  rw [hs, enrichScopes]
  simp only [hsc, if_pos hn', ha]
  have g1 : getOrCreate [("sf.processor.rules".toList, v)] rulesKey = ([(rulesKey, v)], 0) := rfl
  have g2 : getOrCreate [(rulesKey, v)] tagsKey = ([(rulesKey, v), (tagsKey, .arr [])], 1) := by
    unfold getOrCreate
    rw [if_neg (by simp), if_neg]
    · rfl
    · rintro ⟨_, h⟩
      have h' : some rulesKey = some tagsKey := by simpa using h
      exact keys_ne (Option.some.inj h')
  unfold enrichAttrs
  simp only [g1, g2]
  cases v with
  | arr vs => exact absurd rfl (hv vs)
  | missing => rfl
  | unset => rfl
  | str _ => rfl
  | bool _ => rfl
  | bytes _ => rfl
  | double _ => rfl
  | int _ => rfl
  | kvlist _ => rfl

def demoLib : Lib where
  lower := id
  equalFold l r := l == r
  bytesEqualFold l r := l == r
  parseFloat _ := none
  dblEq a b := a == b
  dblLt _ _ := false
  dblLe _ _ := false
  regexp re := some (fun s => if Strings.contains s re then re else [])

/-- A record with a resource, a scope and two log records that repeat a key. -/
def demoLogs : ResourceLogs where
  resource := some [("host".toList, .str "h1".toList), ("ports".toList, .arr [.int 3, .str "ssh".toList])]
  scopes := [{ scope := some { name := "app".toList, attrs := [("level".toList, .unset)] },
               logs := [{ attrs := [("level".toList, .int 5), ("ok".toList, .bool true)] },
                        { attrs := [("level".toList, .int 9), ("nested".toList, .kvlist [("nested".toList, .str "x".toList)])] }] }]

-- the first set attribute decides: 5, not 9; the other kinds of values
example : compare? demoLib "level".toList " 6 ".toList .Lt demoLogs = some true ∧
    compare? demoLib "level".toList "9".toList .Eq demoLogs = some false ∧
    compare? demoLib "ports".toList "ss".toList .Contains demoLogs = some true ∧
    compare? demoLib "nested".toList "x".toList .Eq demoLogs = some true ∧
    compare? demoLib "ok".toList "false".toList .Eq demoLogs = some true ∧
    compare? demoLib "absent".toList "x".toList .Eq demoLogs = some false ∧
    foldAny? demoLib "host".toList ["h0".toList, "h1".toList] .Eq demoLogs = some true ∧
    exists? "level".toList demoLogs = some true := by decide +kernel

example : Fresh demoLogs.scopes := by
  intro s hs sc hsc
  rcases List.mem_singleton.1 hs with rfl
  cases hsc
  show "app".toList ≠ "sf-processor".toList
  decide

/-- Rules for the engine: the second reads what the first writes. -/
def demoRules : List (Rule ResourceLogs) :=
  [{ name := "r1".toList, desc := [], condition := (otelOps demoLib).compare "host".toList "h1".toList .Eq },
   { name := "r2".toList, desc := [], condition := (otelOps demoLib).compare "sf.processor.rules".toList "r1".toList .Contains }]

/-- C32/C03 (finding): a rule that reads `sf.processor.rules` does not hold of the record as it arrives, yet is
attached, because a rule before it fired: for OTel logs the order of rules matters. -/
theorem otel_rules_see_earlier_rules :
    let pi := otelInterp id true demoRules [] (fun _ => none) (fun _ => none) true
    (demoRules.map (fun x => decide (Engine.Fires pi demoLogs x))) = [true, false] ∧
    (Engine.annotated (pi.work demoLogs).2).map (·.name) = ["r1".toList, "r2".toList] ∧
    (Engine.annotated ((otelInterp id true demoRules.reverse [] (fun _ => none) (fun _ => none) true).work demoLogs).2).map (·.name) = ["r1".toList] := by
  decide +kernel

/-- The hypotheses of `otel_engine` are met by the first rule. -/
example : Reads demoLib ((otelOps demoLib).compare "host".toList "h1".toList .Eq) := .compare _ _ _ (by decide)

end Verif.Otel
