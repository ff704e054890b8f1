import Verif.Engine.Props
import Verif.Config.Props
/-
C109: the settings for benchmarking the policy engine.
Sources: /repo/core/policyengine/engine/interpreter.go:113-133, /repo/core/policyengine/engine/config.go:42-43, 105-110
-/
namespace Verif.Engine
open Verif.Policy
open Verif.Decimal (Str parseInt formatInt minInt64 maxInt64)
open Verif.Config (EngineConfig createEngineConfig)

variable {R V : Type}

/-! ### Model -/

/-- The rules `Compile` keeps of those the compiler returned (engine/interpreter.go:118-124). `perf`: `logger.IsEnabled(logger.Perf)`. -/
def benchRules (perf : Bool) (index size : Int) (rules : List (Rule R)) : List (Rule R) :=
  if perf then
    if 0 ≤ index ∧ index < rules.length then (rules.drop index.toNat).take 1
    else if 0 ≤ size ∧ size ≤ rules.length then rules.take size.toNat
    else rules
  else rules

/-- The interpreter after `Compile` (engine/interpreter.go:113-133). -/
def Interp.compiled (pi : Interp R) (perf : Bool) (c : EngineConfig) (rules : List (Rule R)) (filters : List (Filter R)) : Interp R :=
  { pi with rules := benchRules perf c.benchRuleIndex c.benchRulesetSize rules, filters := filters }

/-! ### Proofs -/

/-- **C109** Unless performance logging is on, benchmark settings have no effect, whatever they are. -/
theorem bench_needs_perf (pi : Interp R) (c : EngineConfig) (rules : List (Rule R)) (filters : List (Filter R)) :
    pi.compiled false c rules filters = { pi with rules := rules, filters := filters } := rfl

/-- **C109** With neither setting given, all rules are in force. -/
theorem bench_default (pi : Interp R) (perf : Bool) (conf : Config.Conf) (rules : List (Rule R)) (filters : List (Filter R)) (h1 : conf.str? "bench.ruleindex" = none)
    (h2 : conf.str? "bench.rulesetsize" = none) : pi.compiled perf (createEngineConfig conf).1 rules filters = { pi with rules := rules, filters := filters } := by
  obtain ⟨-, -, -, -, -, -, -, -, -, -, -, -, -, s1, -, s2, -⟩ := Config.engine_config_fields conf
  unfold Interp.compiled benchRules
  rw [s1 h2, s2 h1]
  cases perf
  · rfl
  · rw [if_pos rfl, if_neg (fun h => absurd h.1 (by decide)), if_neg (fun h => absurd h.1 (by decide))]

/-- **C109** With performance logging on, `bench.ruleindex` leaves exactly the rule at that position (from 0), if there is one, whatever `bench.rulesetsize` says. -/
theorem bench_index (conf : Config.Conf) (i : Nat) (hi : (i : Int) ≤ maxInt64) (h : conf.str? "bench.ruleindex" = some (formatInt i)) (pi : Interp R) (rules : List (Rule R)) (filters : List (Filter R))
    {x : Rule R} (hx : rules[i]? = some x) : (pi.compiled true (createEngineConfig conf).1 rules filters).rules = [x] := by
  obtain ⟨-, -, -, -, -, -, -, -, -, -, -, -, -, -, -, -, s⟩ := Config.engine_config_fields conf
  obtain ⟨hlt, rfl⟩ := List.getElem?_eq_some_iff.1 hx
  unfold Interp.compiled benchRules
  dsimp only
  rw [s _ h, Decimal.parseInt_formatInt _ (by unfold minInt64; omega) hi, if_pos rfl, if_pos ⟨by omega, by omega⟩]
  rw [Int.toNat_natCast, List.drop_eq_getElem_cons hlt]
  rfl

/-- **C109** A position beyond the last rule counts as none. -/
theorem bench_index_beyond (perf : Bool) (c : EngineConfig) (rules : List (Rule R)) (h : c.benchRuleIndex < 0 ∨ (rules.length : Int) ≤ c.benchRuleIndex) :
    benchRules perf c.benchRuleIndex c.benchRulesetSize rules = benchRules perf (-1) c.benchRulesetSize rules := by
  unfold benchRules
  rw [if_neg (c := 0 ≤ c.benchRuleIndex ∧ _) (by omega), if_neg (c := 0 ≤ (-1 : Int) ∧ _) (by omega)]

/-- **C109** Otherwise `bench.rulesetsize` leaves exactly that many rules, the first ones, if there are as many. -/
theorem bench_size (conf : Config.Conf) (n : Nat) (hn : (n : Int) ≤ maxInt64) (h : conf.str? "bench.rulesetsize" = some (formatInt n)) (pi : Interp R) (rules : List (Rule R)) (filters : List (Filter R))
    (hi : conf.str? "bench.ruleindex" = none ∨ (rules.length : Int) ≤ (createEngineConfig conf).1.benchRuleIndex) (hlen : n ≤ rules.length) : (pi.compiled true (createEngineConfig conf).1 rules filters).rules = rules.take n := by
  obtain ⟨-, -, -, -, -, -, -, -, -, -, -, -, -, -, s1, s2, -⟩ := Config.engine_config_fields conf
  unfold Interp.compiled
  dsimp only
  rw [bench_index_beyond]
  case h => exact hi.elim (fun h => .inl (by rw [s2 h]; decide)) .inr
  unfold benchRules
  rw [s1 _ h, Decimal.parseInt_formatInt _ (by unfold minInt64; omega) hn, if_pos rfl, if_neg (fun h => absurd h.1 (by decide)), if_pos ⟨by omega, by omega⟩, Int.toNat_natCast]

/-- **C109** In all cases the rules in force are consecutive rules of the policies, in their order, and all the filters are in force. -/
theorem bench_only_removes (pi : Interp R) (perf : Bool) (c : EngineConfig) (rules : List (Rule R)) (filters : List (Filter R)) :
    (∃ a b, rules = a ++ (pi.compiled perf c rules filters).rules ++ b) ∧ (pi.compiled perf c rules filters).filters = filters := by
  refine ⟨?_, rfl⟩
  unfold Interp.compiled benchRules
  dsimp only
  split
  · split
    · refine ⟨rules.take c.benchRuleIndex.toNat, (rules.drop c.benchRuleIndex.toNat).drop 1, ?_⟩
      rw [List.append_assoc, List.take_append_drop, List.take_append_drop]
    · split
      · exact ⟨[], rules.drop c.benchRulesetSize.toNat, by rw [List.nil_append, List.take_append_drop]⟩
      · exact ⟨[], [], by simp⟩
  · exact ⟨[], [], by simp⟩

/-- **C109** What the engine does with a record: if an enabled filter of the policies applies, it is dropped; otherwise it gets those of the rules kept that fire on it, and it is put out if there are any, or in enrich mode. -/
theorem bench_disposition (pi : Interp R) (ho : pi.hasOut = true) (perf : Bool) (c : EngineConfig) (rules : List (Rule R)) (filters : List (Filter R)) (view : R → V)
    (hs : Stable { pi with rules := rules, filters := filters } view) (r : R) :
    let kept := (benchRules perf c.benchRuleIndex c.benchRulesetSize rules).filter (fun x => decide (x.enabled = true ∧ pi.isApplicable r x = true ∧ x.condition.pred r = true))
    let dropped := ∃ f ∈ filters, f.enabled = true ∧ f.condition.pred r = true
    let w := (pi.compiled perf c rules filters).work r
    (dropped → annotated w.2 = [] ∧ outs w.2 = []) ∧ (¬ dropped → annotated w.2 = kept ∧ outs w.2 = if pi.enrich = true ∨ kept ≠ [] then [w.1] else []) := by
  intro kept dropped w
  have hsub : ∀ x ∈ (pi.compiled perf c rules filters).rules, x ∈ rules := by
    obtain ⟨⟨a, b, h⟩, -⟩ := bench_only_removes pi perf c rules filters
    intro x hx
    rw [h]
    exact List.mem_append_left _ (List.mem_append_right _ hx)
  have hst : Stable (pi.compiled perf c rules filters) view :=
    ⟨fun x hx => hs.cond x (hsub x hx), fun x hx => hs.appl x (hsub x hx), fun r x hx => hs.add r x (hsub x hx), hs.act⟩
  have h1 := attached_rules_exact (pi.compiled perf c rules filters) view hst r
  have h2 := record_disposition_general (pi.compiled perf c rules filters) ho r
  constructor
  · intro hd
    have hd' : Dropped (pi.compiled perf c rules filters) r := hd
    rw [if_pos hd'] at h1
    exact ⟨h1, h2.trans (if_neg (fun h => h.1 hd'))⟩
  · intro hd
    have hd' : ¬ Dropped (pi.compiled perf c rules filters) r := hd
    rw [if_neg hd'] at h1
    have h1' : annotated w.2 = kept := h1
    refine ⟨h1', h2.trans ?_⟩
    rw [show annotated ((pi.compiled perf c rules filters).work r).2 = kept from h1']
    by_cases hk : pi.enrich = true ∨ kept ≠ []
    · rw [if_pos hk]; exact if_pos ⟨hd', hk⟩
    · rw [if_neg hk]; exact if_neg (fun h => hk h.2)

/-- **C109** Finding: a setting that is no number counts as 0, without an error: with `bench.ruleindex` given as a word, only the first rule is in force; with `bench.rulesetsize`, none is. -/
theorem bench_typo (conf : Config.Conf) (s : Str) (hs : (parseInt s).1 = 0) (pi : Interp R) (x : Rule R) (rules : List (Rule R)) (filters : List (Filter R)) :
    (conf.str? "bench.ruleindex" = some s → (pi.compiled true (createEngineConfig conf).1 (x :: rules) filters).rules = [x]) ∧
    (conf.str? "bench.ruleindex" = none → conf.str? "bench.rulesetsize" = some s → (pi.compiled true (createEngineConfig conf).1 (x :: rules) filters).rules = []) := by
  obtain ⟨-, -, -, -, -, -, -, -, -, -, -, -, -, -, s1, s2, s3⟩ := Config.engine_config_fields conf
  constructor
  · intro h
    unfold Interp.compiled benchRules
    dsimp only
    rw [s3 _ h, hs, if_pos rfl, if_pos ⟨by omega, by rw [List.length_cons]; omega⟩]
    rfl
  · intro h1 h2
    unfold Interp.compiled benchRules
    dsimp only
    rw [s2 h1, s1 _ h2, hs, if_pos rfl, if_neg (fun h => absurd h.1 (by decide)), if_pos ⟨by omega, by rw [List.length_cons]; omega⟩]
    rfl

/-! ### Concrete cases -/

/-- A configuration with these benchmark settings. -/
def benchConf (i n : Str) : Config.Conf := fun k => if k = "bench.ruleindex".toList then some (.str i) else if k = "bench.rulesetsize".toList then some (.str n) else none

/-- The rule names in force. -/
def benchNames (perf : Bool) (i n : Str) : List (List Char) := (demoPi.compiled perf (createEngineConfig (benchConf i n)).1 demoPi.rules demoPi.filters).rules.map (·.name)

example : benchNames true "1".toList "-1".toList = [['b']] ∧ benchNames true "3".toList "2".toList = [['a'], ['b']] ∧ benchNames true "2".toList "2".toList = [['c']] ∧
    benchNames true "-1".toList "4".toList = [['a'], ['b'], ['c']] ∧ benchNames false "1".toList "2".toList = [['a'], ['b'], ['c']] := by decide +kernel

/-- Words count as 0. -/
example : (parseInt "all".toList).1 = 0 ∧ benchNames true "all".toList [] = [['a']] ∧ benchNames true "-1".toList "all".toList = [] := by decide +kernel

/-- The settings of `bench_index` and `bench_size`. -/
example : (benchConf (formatInt 1) []).str? "bench.ruleindex" = some (formatInt 1) ∧ demoPi.rules[1]?.map (·.name) = some ['b'] := by decide +kernel

end Verif.Engine
