import Verif.Whole.OtelSeries
import Verif.Whole.OtelRuns
/-
C115: OpenTelemetry records and policy engines side by side. A policy engine with several output channels sends the same pointer to each of them; behind each there is a policy engine that notes its rules in the
record and an exporter that encodes it.
Sources: /repo/core/policyengine/policyengine.go:205-217 (the same record to every output channel), /repo/core/policyengine/source/otel/contextualizer.go (rules are noted in the record itself),
/repo/core/exporter/encoders/otel.go:65-82 (the record is encoded when it is exported), /repo/core/policyengine/source/common/types_otel.go:33-40 (records are pointers)
-/
namespace Verif.OtelRun
open Verif.Decimal (Str)
open Verif.Exporter (Bytes)
open Verif.Policy
open Verif.Otel
open Verif.Falco (Decl)

variable {P : Type}

/-! ### Model -/

/-- What happens to a record that has been sent to several branches: the engine of branch `i` works on it (engine/interpreter.go:155-184), or the exporter of branch `i` encodes it (otel.go:65-82). (Each is taken as
one step. In the program two engines may also work on the record at the same moment.) -/
inductive BranchEv where
  | work (i : Nat)
  | export (i : Nat)

/-- The one record that all branches point to; the branches whose engine has worked on it; those whose engine has passed it on to their exporter; and what the exporters have encoded. -/
structure BranchSt where
  obj : ResourceLogs
  worked : List Nat
  waiting : List Nat
  encoded : List (Nat × ResourceLogs)

/-- What a worker does with the record in memory: it is changed in place (contextualizer.go), whether or not it is passed on. -/
def Setup.workOn (S : Setup P) (p : P) (rl : ResourceLogs) : ResourceLogs × Bool :=
  let out := (otelInterp S.order S.enrich (S.code p).1 (S.code p).2 S.builtIn S.user true).work rl
  (out.1, !(Engine.outs out.2).isEmpty)

/-- One step, if it is possible: each branch receives the record once (policyengine.go:211-217). -/
def branchStep (S : Nat → Setup P) (s : BranchSt) : BranchEv → Option BranchSt
  | .work i =>
    if i ∈ s.worked then none
    else
      let o := (S i).workOn (S i).policies s.obj
      some { s with obj := o.1, worked := s.worked ++ [i], waiting := if o.2 then s.waiting ++ [i] else s.waiting }
  | .export i => if i ∈ s.waiting then some { s with waiting := s.waiting.erase i, encoded := s.encoded ++ [(i, s.obj)] } else none

/-- A history of the record `rl`. -/
inductive BranchRun (S : Nat → Setup P) (rl : ResourceLogs) : List BranchEv → BranchSt → Prop
  | start : BranchRun S rl [] ⟨rl, [], [], []⟩
  | step {h : List BranchEv} {s s' : BranchSt} {e : BranchEv} : BranchRun S rl h s → branchStep S s e = some s' → BranchRun S rl (h ++ [e]) s'

/-! ### Specification -/

open Classical in
/-- The rules that engine `S` with the policies `D` notes in a record: none if a filter drops it. -/
noncomputable def notes (S : Setup P) (D : List (List Decl)) (rl : ResourceLogs) : List RuleInfo := if OFiltered S.L rl D then [] else applicable S.L rl D

/-! ### Proofs -/

structure BInv (S : Nat → Setup P) (D : Nat → List (List Decl)) (rl : ResourceLogs) (s : BranchSt) : Prop where
  obj : Noted rl (s.worked.flatMap (fun i => notes (S i) (D i) rl)) s.obj
  nodup : s.worked.Nodup
  once : (s.waiting ++ s.encoded.map (·.1)).Nodup
  seen : ∀ i ∈ s.waiting ++ s.encoded.map (·.1), i ∈ s.worked ∧ Wanted (S i) (D i) rl
  encoded : ∀ x ∈ s.encoded, ∃ pre, pre <+: s.worked ∧ x.1 ∈ pre ∧ Noted rl (pre.flatMap (fun i => notes (S i) (D i) rl)) x.2

theorem work_on (S : Setup P) (dss : P → List (List Decl)) (ok : S.Ok dss) (hf : ∀ p, Setup.FiltersForeign dss p) (p : P) (rl : ResourceLogs) (hg : Given rl) (R : List RuleInfo) (mid : ResourceLogs) (h : Noted rl R mid) :
    Noted rl (R ++ notes S (dss p) rl) (S.workOn p mid).1 ∧ ((S.workOn p mid).2 = true ↔ Wanted S (dss p) rl) := by
  classical
  have hp := ok.sound p
  obtain ⟨n, rules, filters, hcomp, hall⟩ := otel_engine_again S.L ok.str (S.texts p) (dss p) hp.texts hp.acyclic hp.foreign (hf p)
  obtain ⟨m', hm⟩ := hp.code
  have hu := Whole.compile_unique _ _ _ _ _ _ hcomp hm
  cases hcode : S.code p with
  | mk r f =>
    rw [hcode] at hu
    cases hu
    obtain ⟨h1, h2⟩ := hall S.order S.enrich true S.builtIn S.user ok.order ok.actions rl hg.1 hg.2 R mid h
    have h2 := h2 rfl
    unfold Setup.workOn notes
    rw [hcode]
    dsimp only
    rw [h2]
    unfold Wanted
    by_cases hfi : OFiltered S.L rl (dss p)
    · rw [if_pos hfi] at h1
      rw [if_pos hfi, if_pos hfi, List.append_nil]
      exact ⟨h1, fun h => by simp at h, fun h => absurd hfi h.1⟩
    · rw [if_neg hfi] at h1
      rw [if_neg hfi, if_neg hfi]
      refine ⟨h1, ?_⟩
      by_cases ha : S.enrich = true ∨ applicable S.L rl (dss p) ≠ []
      · rw [if_pos ha]
        exact ⟨fun _ => ⟨hfi, ha⟩, fun _ => rfl⟩
      · rw [if_neg ha]
        exact ⟨fun h => by simp at h, fun h => absurd h.2 ha⟩

theorem branch_inv (S : Nat → Setup P) (dss : Nat → P → List (List Decl)) (ok : ∀ i, (S i).Ok (dss i)) (hf : ∀ i p, Setup.FiltersForeign (dss i) p) (rl : ResourceLogs) (hg : Given rl) {h : List BranchEv} {s : BranchSt}
    (hr : BranchRun S rl h s) : BInv S (fun i => dss i (S i).policies) rl s := by
  induction hr with
  | start => exact ⟨⟨fun _ => rfl, fun h => absurd rfl h⟩, List.nodup_nil, List.nodup_nil, fun _ h => (by cases h), fun _ h => (by cases h)⟩
  | @step h s s' e _ hs ih =>
    cases e with
    | work i =>
      unfold branchStep at hs
      dsimp only at hs
      by_cases hi : i ∈ s.worked
      · rw [if_pos hi] at hs; cases hs
      · rw [if_neg hi] at hs
        injection hs with hs
        subst hs
        obtain ⟨w1, w2⟩ := work_on (S i) (dss i) (ok i) (hf i) (S i).policies rl hg _ _ ih.obj
        refine ⟨?_, ?_, ?_, ?_, ?_⟩
        · dsimp only
          rw [List.flatMap_append, List.flatMap_cons, List.flatMap_nil, List.append_nil]
          exact w1
        · dsimp only
          rw [List.nodup_append]
          refine ⟨ih.nodup, by simp, ?_⟩
          intro a ha b hb
          rw [List.mem_singleton.1 hb]
          exact fun e => hi (e ▸ ha)
        · dsimp only
          by_cases hw : ((S i).workOn (S i).policies s.obj).2 = true
          · rw [if_pos hw, List.append_assoc]
            refine (List.perm_middle (a := i) (l₁ := s.waiting) (l₂ := s.encoded.map (·.1))).nodup_iff.2 (List.nodup_cons.2 ⟨fun hm => hi (ih.seen i hm).1, ih.once⟩)
          · rw [if_neg hw]; exact ih.once
        · dsimp only
          intro j hj
          by_cases hw : ((S i).workOn (S i).policies s.obj).2 = true
          · rw [if_pos hw, List.append_assoc] at hj
            rcases List.mem_append.1 hj with hj | hj
            · have := ih.seen j (List.mem_append_left _ hj)
              exact ⟨List.mem_append_left _ this.1, this.2⟩
            · rcases List.mem_cons.1 hj with rfl | hj
              · exact ⟨by simp, w2.1 hw⟩
              · have := ih.seen j (List.mem_append_right _ hj)
                exact ⟨List.mem_append_left _ this.1, this.2⟩
          · rw [if_neg hw] at hj
            have := ih.seen j hj
            exact ⟨List.mem_append_left _ this.1, this.2⟩
        · intro x hx
          obtain ⟨pre, p1, p2, p3⟩ := ih.encoded x hx
          exact ⟨pre, p1.trans (List.prefix_append _ _), p2, p3⟩
    | «export» i =>
      unfold branchStep at hs
      dsimp only at hs
      by_cases hi : i ∈ s.waiting
      · rw [if_pos hi] at hs
        injection hs with hs
        subst hs
        have hperm : (s.waiting.erase i ++ (s.encoded ++ [(i, s.obj)]).map (·.1)).Perm (s.waiting ++ s.encoded.map (·.1)) := by
          rw [List.map_append, List.map_cons, List.map_nil]
          refine List.Perm.trans ?_ ((List.perm_cons_erase hi).append_right _).symm
          rw [← List.append_assoc]
          exact List.perm_append_singleton _ _
        refine ⟨ih.obj, ih.nodup, hperm.nodup_iff.2 ih.once, fun j hj => ih.seen j (hperm.mem_iff.1 hj), ?_⟩
        intro x hx
        rcases List.mem_append.1 hx with hx | hx
        · exact ih.encoded x hx
        · rw [List.mem_singleton.1 hx]
          exact ⟨s.worked, List.prefix_refl _, (ih.seen i (List.mem_append_left _ hi)).1, ih.obj⟩
      · rw [if_neg hi] at hs; cases hs

/-! ## C115 -/

/-- **C115** OpenTelemetry, engines side by side: whatever the order of events, what a branch's exporter encodes is the record with the rules of the engines that have come to it by then, its own among them, in the
order in which they came; each branch encodes the record at most once, and only if its own policies want it. -/
theorem branches_encode_partial (S : Nat → Setup P) (dss : Nat → P → List (List Decl)) (ok : ∀ i, (S i).Ok (dss i)) (hf : ∀ i p, Setup.FiltersForeign (dss i) p) (rl : ResourceLogs) (hg : Given rl) {h : List BranchEv}
    {s : BranchSt} (hr : BranchRun S rl h s) :
    (s.encoded.map (·.1)).Nodup ∧ ∀ x ∈ s.encoded, Wanted (S x.1) (dss x.1 (S x.1).policies) rl ∧
      ∃ came : List Nat, came.Nodup ∧ came <+: s.worked ∧ x.1 ∈ came ∧ Noted rl (came.flatMap (fun i => notes (S i) (dss i (S i).policies) rl)) x.2 := by
  have inv := branch_inv S dss ok hf rl hg hr
  refine ⟨(List.nodup_append.1 inv.once).2.1, fun x hx => ?_⟩
  obtain ⟨pre, p1, p2, p3⟩ := inv.encoded x hx
  exact ⟨(inv.seen x.1 (List.mem_append_right _ (List.mem_map.2 ⟨x, hx, rfl⟩))).2, pre, inv.nodup.sublist p1.sublist, p1, p2, p3⟩

/-- **C115** … so that branches are never separate: if two branches have encoded a record, then, whatever the order of events, one of the two encoded it with the rules of the other branch, too. -/
theorem branches_never_separate (S : Nat → Setup P) (dss : Nat → P → List (List Decl)) (ok : ∀ i, (S i).Ok (dss i)) (hf : ∀ i p, Setup.FiltersForeign (dss i) p) (rl : ResourceLogs) (hg : Given rl) {h : List BranchEv}
    {s : BranchSt} (hr : BranchRun S rl h s) {x y : Nat × ResourceLogs} (hx : x ∈ s.encoded) (hy : y ∈ s.encoded) (hxy : x.1 ≠ y.1) :
    ∃ z, (z = x ∨ z = y) ∧ ∃ R, Noted rl R z.2 ∧ (∀ r ∈ notes (S x.1) (dss x.1 (S x.1).policies) rl, r ∈ R) ∧ ∀ r ∈ notes (S y.1) (dss y.1 (S y.1).policies) rl, r ∈ R := by
  have inv := branch_inv S dss ok hf rl hg hr
  obtain ⟨p, p1, p2, p3⟩ := inv.encoded x hx
  obtain ⟨q, q1, q2, q3⟩ := inv.encoded y hy
  rcases List.prefix_or_prefix_of_prefix p1 q1 with hpq | hpq
  · exact ⟨y, .inr rfl, _, q3, fun r hr => List.mem_flatMap.2 ⟨_, hpq.subset p2, hr⟩, fun r hr => List.mem_flatMap.2 ⟨_, q2, hr⟩⟩
  · exact ⟨x, .inl rfl, _, p3, fun r hr => List.mem_flatMap.2 ⟨_, p2, hr⟩, fun r hr => List.mem_flatMap.2 ⟨_, hpq.subset q2, hr⟩⟩

theorem processor_names {rl : ResourceLogs} {R R' : List RuleInfo} {out : ResourceLogs} (h : Noted rl R out) (h' : Noted rl R' out) (hne : R ≠ []) : R'.map (·.name) = R.map (·.name) := by
  obtain ⟨t, -, e⟩ := h.2 hne
  by_cases h0 : R' = []
  · have := h'.1 h0
    rw [this] at e
    have := congrArg (fun o : ResourceLogs => o.scopes.length) e
    simp at this
  · obtain ⟨t', -, e'⟩ := h'.2 h0
    rw [e'] at e
    have := congrArg (fun o : ResourceLogs => o.scopes) e
    dsimp only at this
    have := List.append_cancel_left this
    unfold processorScope at this
    simp only [List.cons.injEq, ScopeLogs.mk.injEq, Option.some.injEq, Scope.mk.injEq, Prod.mk.injEq, Value.arr.injEq, true_and, and_true] at this
    have inj : ∀ a b : List Str, texts a = texts b → a = b := by
      intro a b h
      unfold texts at h
      exact List.map_injective_iff.2 (fun u v h => by injection h) h
    exact inj _ _ this.1

theorem both_counted {f : Nat → List RuleInfo} {l : List Nat} {i j : Nat} (hi : i ∈ l) (hj : j ∈ l) (hij : i ≠ j) : (f i).length + (f j).length ≤ (l.flatMap f).length := by
  have h1 := List.perm_cons_erase hi
  have h2 := List.perm_cons_erase ((List.mem_erase_of_ne (Ne.symm hij)).2 hj)
  have h3 := ((h1.trans (h2.cons i)).flatMap_right f).length_eq
  rw [h3, List.flatMap_cons, List.flatMap_cons, List.length_append, List.length_append]
  omega

/-- **C115** If in both branches a rule applies, then at most one of the two exporters has encoded the record with the rules of its own branch only. -/
theorem branches_mix (S : Nat → Setup P) (dss : Nat → P → List (List Decl)) (ok : ∀ i, (S i).Ok (dss i)) (hf : ∀ i p, Setup.FiltersForeign (dss i) p) (rl : ResourceLogs) (hg : Given rl) {h : List BranchEv}
    {s : BranchSt} (hr : BranchRun S rl h s) {x y : Nat × ResourceLogs} (hx : x ∈ s.encoded) (hy : y ∈ s.encoded) (hxy : x.1 ≠ y.1)
    (h1 : notes (S x.1) (dss x.1 (S x.1).policies) rl ≠ []) (h2 : notes (S y.1) (dss y.1 (S y.1).policies) rl ≠ []) :
    ¬ (Noted rl (notes (S x.1) (dss x.1 (S x.1).policies) rl) x.2 ∧ Noted rl (notes (S y.1) (dss y.1 (S y.1).policies) rl) y.2) := by
  rintro ⟨n1, n2⟩
  have inv := branch_inv S dss ok hf rl hg hr
  obtain ⟨p, p1, p2, p3⟩ := inv.encoded x hx
  obtain ⟨q, q1, q2, q3⟩ := inv.encoded y hy
  have l1 := List.length_pos_iff.2 h1
  have l2 := List.length_pos_iff.2 h2
  rcases List.prefix_or_prefix_of_prefix p1 q1 with hpq | hpq
  · have := congrArg List.length (processor_names n2 q3 h2)
    rw [List.length_map, List.length_map] at this
    have := both_counted (f := fun i => notes (S i) (dss i (S i).policies) rl) (hpq.subset p2) q2 hxy
    omega
  · have := congrArg List.length (processor_names n1 p3 h1)
    rw [List.length_map, List.length_map] at this
    have := both_counted (f := fun i => notes (S i) (dss i (S i).policies) rl) p2 (hpq.subset q2) hxy
    omega

/-- Such histories exist: two branches with the example's rule, and both orders of the exports. -/
example : ∃ code, ∃ s : BranchSt, BranchRun (fun _ => demoRun 1 code) demoLogs [.work 0, .export 0, .work 1, .export 1] s ∧ s.encoded.map (·.1) = [0, 1] ∧
    Noted demoLogs [Falco.infoOf hostRule] ((s.encoded[0]?).getD (0, demoLogs)).2 ∧ Noted demoLogs [Falco.infoOf hostRule, Falco.infoOf hostRule] ((s.encoded[1]?).getD (0, demoLogs)).2 := by
  obtain ⟨code, ok⟩ := demoRun_ok 1 (by decide)
  have hg : Given demoLogs := ⟨demo_whole, demo_fresh⟩
  have hff : ∀ p : Unit, Setup.FiltersForeign (fun _ => [[.rule hostRule]]) p := fun p y hy => by
    rw [show (Falco.sites [[Decl.rule hostRule]]).filterMap Falco.asFilter = [] from rfl] at hy
    cases hy
  obtain ⟨w1, w2⟩ := demo_wanted 1 code
  have hn : notes (demoRun 1 code) [[.rule hostRule]] demoLogs = [Falco.infoOf hostRule] := by
    unfold notes
    rw [if_neg w1.1]
    exact w2
  obtain ⟨a1, a2⟩ := work_on (demoRun 1 code) _ ok hff () demoLogs hg [] demoLogs ⟨fun _ => rfl, fun h => absurd rfl h⟩
  have a2 := a2.2 w1
  obtain ⟨b1, b2⟩ := work_on (demoRun 1 code) _ ok hff () demoLogs hg _ _ a1
  have b2 := b2.2 w1
  rw [hn] at a1 b1
  generalize hr1 : ((demoRun 1 code).workOn () demoLogs).1 = r1 at a1 b1 b2
  generalize hr2 : ((demoRun 1 code).workOn () r1).1 = r2 at b1
  have t1 : branchStep (fun _ => demoRun 1 code) ⟨demoLogs, [], [], []⟩ (.work 0) = some ⟨r1, [0], [0], []⟩ := by
    unfold branchStep; dsimp only
    rw [if_neg (by simp), show (demoRun 1 code).policies = () from rfl, a2, if_pos rfl, hr1]; rfl
  have t2 : branchStep (fun _ => demoRun 1 code) ⟨r1, [0], [0], []⟩ (.export 0) = some ⟨r1, [0], [], [(0, r1)]⟩ := rfl
  have t3 : branchStep (fun _ => demoRun 1 code) ⟨r1, [0], [], [(0, r1)]⟩ (.work 1) = some ⟨r2, [0, 1], [1], [(0, r1)]⟩ := by
    unfold branchStep; dsimp only
    rw [if_neg (by simp), show (demoRun 1 code).policies = () from rfl, b2, if_pos rfl, hr2]; rfl
  have t4 : branchStep (fun _ => demoRun 1 code) ⟨r2, [0, 1], [1], [(0, r1)]⟩ (.export 1) = some ⟨r2, [0, 1], [], [(0, r1), (1, r2)]⟩ := rfl
  exact ⟨code, _, .step (.step (.step (.step .start t1) t2) t3) t4, rfl, a1, b1⟩

end Verif.OtelRun
