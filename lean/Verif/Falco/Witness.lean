import Verif.Falco.Examples
import Verif.Sigma.Examples
/-
C03, C17-C20, C22-C30, C57: the theorems about flat records and rule languages applied to the sample record and the sample policies.
Sources: /repo/core/policyengine/policy/falco, /repo/core/policyengine/policy/sigma, /repo/core/policyengine/source/flatrecord
-/
namespace Verif.Falco
open Verif.Decimal (Str)
open Verif.Policy
open Verif.FlatRecord

/-! ### Flat records -/

/-- C17: a text with a bracket that begins with no field loses what follows the bracket; one that begins with a field is a path into its value. -/
example (p : Str) : mapStr? demoLib getMappers ("a".toList ++ '[' :: p) demoRec.fr = some "a".toList :=
  bracket_literal_truncated demoLib getMappers "a".toList p (by decide) (notField _ (by decide +kernel)) demoRec.fr

/-- C17: the parent's user number reads as 0 where a number is wanted. -/
example : mapInt demoLib getMappers "sf.pproc.uid".toList demoRec.fr = 0 ∧ mapStr? demoLib getMappers "sf.pproc.uid".toList demoRec.fr = some "5".toList := by
  obtain ⟨h1, -, h3⟩ := parent_uid_compares_as_zero demoLib demoRec.fr _ _ _ rfl
  exact ⟨h1, h3.trans (by decide +kernel)⟩

/-- C17: a field of text reads as 0 too. -/
example : mapInt demoLib getMappers "sf.proc.exe".toList demoRec.fr = 0 :=
  non_integer_field_reads_zero demoLib "sf.proc.exe".toList (.str .PROC_EXE_STR) (by decide +kernel) demoRec.fr (fun n h => by
    change FVal.str _ = FVal.i64 n at h
    cases h)

/-- C20: the fields of the parent and of the ancestors. -/
example : mapAttr demoLib getMappers "sf.pproc.exe".toList demoRec.fr = .str "/usr/sbin/sshd".toList :=
  (parent_fields demoLib demoRec.fr _ _ _ rfl).2.1

example : mapAttr demoLib getMappers "sf.proc.aexe".toList demoRec.fr = .str "/bin/bash,/usr/sbin/sshd".toList :=
  (ancestor_fields demoLib demoRec.fr _ rfl).2.1.trans (by decide +kernel)

/-- C19: a record has nothing of a source it has no section of. -/
example (a : IAttr) : demoRec.fr.getInt a .network = 0 := (getters_absent_source demoRec.fr .network (by
  intro p hp
  rcases List.mem_cons.1 hp with rfl | hp
  · decide
  · rw [List.mem_singleton.1 hp]; decide)).1 a

/-- C18: the rule with a prefilter. -/
example : mapStr demoLib getMappers "sf.type".toList demoRec.fr ∈ FlatRecord.demoRule.prefilter :=
  prefilter_sound demoLib false [FlatRecord.demoRule] [] (fun _ => none) (fun _ => none) true demoRec FlatRecord.demoRule (by decide) (by decide +kernel)

/-! ### Falco -/

/-- C22: the condition of the rule of the sample policy: true of a bash process of user 1000. -/
example (c : Criterion Record) (h : Compiles (flatOps demoLib getMappers) (demoDecls.foldl define {}) [[.ref "is_shell".toList, .not (.ref "trusted".toList)]] c) :
    ExprVal (flatOps demoLib getMappers) (demoDecls.foldl define {}) demoRec [[.ref "is_shell".toList, .not (.ref "trusted".toList)]] (c.eval demoRec) ∧ Built (flatOps demoLib getMappers) c :=
  ⟨(falco_condition_meaning _ _ _ _ h demoRec _).2 rfl, falco_built _ _ _ _ h⟩

/-- C24: what is listed in `shells`, directly or through `more`. -/
example : Listed (demoDecls.foldl define {}).lists "shells".toList "zsh".toList :=
  (falco_list_members _ _ _ (show Expands (demoDecls.foldl define {}).lists "shells".toList ["bash".toList, "sh".toList, "zsh".toList] from expands_of_reduce _ 5 _ _ (by decide +kernel)) _).1 (by decide)

/-- C24: items with quotes. -/
example : extractList "[a,'b c',\"d\"]".toList = ["a".toList, "b c".toList, "d".toList] :=
  (falco_list_items ["a".toList, "'b c'".toList, "\"d\"".toList] (by decide) (by decide)).trans (by decide)

/-- C25: `in` with a list. -/
example (c : Criterion Record) (h : Compiles (flatOps demoLib getMappers) (demoDecls.foldl define {}) [[.inList "sf.proc.name".toList [.atom "shells".toList]]] c) : c.eval demoRec = true := by
  refine (falco_in demoLib getMappers _ _ _ c h demoRec).2 ⟨"shells".toList, "bash".toList, List.mem_cons_self, ?_, "bash".toList, ?_, ?_⟩
  · exact (falco_list_members _ _ _ (show Expands (demoDecls.foldl define {}).lists "shells".toList ["bash".toList, "sh".toList, "zsh".toList] from expands_of_reduce _ 5 _ _ (by decide +kernel)) _).1 (by decide)
  · rw [show mapStr demoLib getMappers "sf.proc.name".toList demoRec.fr = "bash".toList by decide +kernel]
    exact (Strings.mem_split_iff ',' _ _).1 (by decide)
  · exact (Strings.mem_split_iff ',' _ _).1 (by decide)

/-- C25: `pmatch` with an empty list is true of every record. -/
example (c : Criterion Record) (h : Compiles (flatOps demoLib getMappers) (define {} (.list "none".toList "[]".toList)) [[.pmatch "sf.file.path".toList [.atom "none".toList]]] c) (r : Record) : c.eval r = true :=
  falco_pmatch_empty_list demoLib getMappers _ _ "none".toList c (by decide) (by decide) h r

/-- C26: the rule of the sample policy, wherever the file is among others. -/
example (n : Nat) (later : List File) (rs : List (Rule Record)) (fs : List (Filter Record))
    (h : compile (flatOps demoLib getMappers) n ([demoDecls].map File.ok ++ .ok ([] ++ .rule { name := "x".toList, desc := [], cond := [[.exist "sf.file.path".toList]] } :: []) :: later) = some (some (rs, fs))) :
    ∃ rule, rs[1]? = some rule ∧ rule.name = "x".toList ∧ rule.priority = .low := by
  obtain ⟨rule, env, h1, h2, -, h3, -⟩ := falco_rules_in_order _ n [demoDecls] [] [] _ later rs fs h
  exact ⟨rule, h1, h2, h3⟩

example (n : Nat) (o : Option (List (Rule Record) × List (Filter Record))) (h : compile (flatOps demoLib getMappers) n [.ok demoDecls, .malformed] = some o) : o = none :=
  falco_bad_file_rejects_all _ n _ ⟨_, List.mem_cons_of_mem _ List.mem_cons_self, .inr rfl⟩ o h

example : getPriority (some "CRITICAL".toList) = getPriority (some "critical".toList) := falco_priority_case _ _ (by decide)

/-! ### Sigma -/

/-- C29: a base64 text gives back its value. -/
example (v : Str) (h : Sigma.base64 v 0 = some "Zm9v".toList) : v = "foo".toList :=
  ((Sigma.base64_recoverable "foo".toList "Zm9v".toList (by decide +kernel)).2 v h)

/-- C27: a condition over the sample rule's searches, in whatever order they come. -/
example (c c' : Criterion Record) (h : Sigma.visitExpr (flatOps demoLib getMappers) Sigma.demoConfig (fun p n => p == n) Sigma.demoRule.searches .allOfThem = some c)
    (h' : Sigma.visitExpr (flatOps demoLib getMappers) Sigma.demoConfig (fun p n => p == n) Sigma.demoRule.searches.reverse .allOfThem = some c') : c.eval demoRec = c'.eval demoRec :=
  Sigma.sigma_order_independent _ _ _ _ _ (by decide) (List.reverse_perm _).symm _ c c' h h' demoRec

/-- C28: a list of maps needs all of them. -/
example (c ca cb : Criterion Record) (h : Sigma.visitSearch (flatOps demoLib getMappers) [] { matchers := [[⟨"a".toList, [], [['1']]⟩], [⟨"b".toList, [], [['2']]⟩]] } = some c)
    (ha : Sigma.visitSearch (flatOps demoLib getMappers) [] { matchers := [[⟨"a".toList, [], [['1']]⟩]] } = some ca)
    (hb : Sigma.visitSearch (flatOps demoLib getMappers) [] { matchers := [[⟨"b".toList, [], [['2']]⟩]] } = some cb) (r : Record) : c.eval r = (ca.eval r && cb.eval r) :=
  Sigma.sigma_list_of_maps_is_conjunction _ _ _ _ c ca cb h ha hb r

end Verif.Falco
