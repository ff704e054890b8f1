import Verif.Falco.Spec
import Verif.Policy.Props
import Mathlib.Tactic.Choose
/-
Helper lemmas for the Falco theorems.
-/
namespace Verif.Falco
open Verif.Decimal (Str)
open Verif.Policy

theorem reduceList_mono (lists : GoMap (List Str)) (n : Nat) : ∀ s vs, reduceList lists n s = some vs →
    reduceList lists (n + 1) s = some vs := by
  induction n with
  | zero => intro s vs h; simp [reduceList] at h
  | succ n ih =>
    intro s vs h
    rw [reduceList] at h ⊢
    cases hg : lists.get s with
    | none => simpa [hg] using h
    | some l =>
      simp only [hg, Option.map_eq_some_iff] at h ⊢
      obtain ⟨bs, h1, h2⟩ := h
      exact ⟨bs, seqMap_congr _ _ l bs h1 (fun a _ b hb => ih a b hb), h2⟩

theorem reduceList_le (lists : GoMap (List Str)) (n m : Nat) (hnm : n ≤ m) (s : Str) (vs : List Str)
    (h : reduceList lists n s = some vs) : reduceList lists m s = some vs := by
  induction hnm with
  | refl => exact h
  | step _ ih => exact reduceList_mono lists _ s vs ih

theorem reduceList_common (lists : GoMap (List Str)) (l : List Str) (val : Str → List Str)
    (h : ∀ i ∈ l, ∃ n, reduceList lists n i = some (val i)) : ∃ n, ∀ i ∈ l, reduceList lists n i = some (val i) := by
  induction l with
  | nil => exact ⟨0, by simp⟩
  | cons a l ih =>
    obtain ⟨n, hn⟩ := h a (by simp)
    obtain ⟨m, hm⟩ := ih (fun i hi => h i (by simp [hi]))
    refine ⟨max n m, ?_⟩
    intro i hi
    rcases List.mem_cons.1 hi with rfl | hi
    · exact reduceList_le _ n _ (Nat.le_max_left ..) _ _ hn
    · exact reduceList_le _ m _ (Nat.le_max_right ..) _ _ (hm i hi)

theorem expands_of_reduce (lists : GoMap (List Str)) (n : Nat) : ∀ s vs, reduceList lists n s = some vs → Expands lists s vs := by
  induction n with
  | zero => intro s vs h; simp [reduceList] at h
  | succ n ih =>
    intro s vs h
    rw [reduceList] at h
    cases hg : lists.get s with
    | none => simp [hg] at h; subst h; exact .literal s hg
    | some l =>
      simp only [hg, Option.map_eq_some_iff] at h
      obtain ⟨bs, h1, h2⟩ := h
      have hb := seqMap_eq_map' _ _ _ h1
      have : vs = l.flatMap (fun a => (reduceList lists n a).getD []) := by
        rw [← h2, hb, List.flatMap_def]
      rw [this]
      refine .list s l _ hg ?_
      intro i hi
      obtain ⟨b, hb⟩ := Option.isSome_iff_exists.1 ((seqMap_some _ _ _ h1).2 i hi)
      simp only [hb, Option.getD_some]
      exact ih i b hb

theorem reduce_of_expands (lists : GoMap (List Str)) (s : Str) (vs : List Str) (h : Expands lists s vs) :
    ∃ n, reduceList lists n s = some vs := by
  induction h with
  | literal s hg => exact ⟨1, by simp [reduceList, hg]⟩
  | list s items val hg _ ih =>
    obtain ⟨n, hn⟩ := reduceList_common lists items val ih
    refine ⟨n + 1, ?_⟩
    rw [reduceList, hg]
    simp only [Option.map_eq_some_iff]
    exact ⟨items.map val, seqMap_eq_map _ _ _ hn, by rw [List.flatMap_def]⟩

theorem expands_det (lists : GoMap (List Str)) (s : Str) (vs ws : List Str) (h : Expands lists s vs) (h' : Expands lists s ws) :
    vs = ws := by
  obtain ⟨n, hn⟩ := reduce_of_expands lists s vs h
  obtain ⟨m, hm⟩ := reduce_of_expands lists s ws h'
  have a := reduceList_le lists n (max n m) (Nat.le_max_left ..) s vs hn
  have b := reduceList_le lists m (max n m) (Nat.le_max_right ..) s ws hm
  rw [a] at b; simpa using b

theorem mem_atomTexts (args : List Arg) (a : Str) : a ∈ atomTexts args ↔ Arg.atom a ∈ args := by
  induction args with
  | nil => simp [atomTexts]
  | cons x xs ih => cases x <;> simp [atomTexts, ih]

theorem flatMap_atoms (args : List Arg) (val : Str → List Str) :
    args.flatMap (argVals val) = (atomTexts args).flatMap val := by
  induction args with
  | nil => rfl
  | cons x xs ih => cases x <;> simp [atomTexts, argVals, ih, List.flatMap_cons]

theorem argsDenote_of_extract (lists : GoMap (List Str)) (n : Nat) (args : List Arg) (vs : List Str)
    (h : extractListFromAtoms lists n args = some vs) : ArgsDenote lists args vs := by
  unfold extractListFromAtoms at h
  rw [Option.map_eq_some_iff] at h
  obtain ⟨bs, h1, h2⟩ := h
  refine ⟨fun a => (reduceList lists n a).getD [], ?_, ?_⟩
  · intro a ha
    obtain ⟨b, hb⟩ := Option.isSome_iff_exists.1 ((seqMap_some _ _ _ h1).2 a ((mem_atomTexts args a).2 ha))
    simp only [hb, Option.getD_some]
    exact expands_of_reduce lists n a b hb
  · rw [flatMap_atoms, ← h2, seqMap_eq_map' _ _ _ h1, List.flatMap_def]

theorem extract_of_argsDenote (lists : GoMap (List Str)) (args : List Arg) (vs : List Str)
    (h : ArgsDenote lists args vs) : ∃ n, ∀ m ≥ n, extractListFromAtoms lists m args = some vs := by
  obtain ⟨val, h1, h2⟩ := h
  obtain ⟨n, hn⟩ := reduceList_common lists (atomTexts args) val
    (fun i hi => reduce_of_expands lists i _ (h1 i ((mem_atomTexts args i).1 hi)))
  refine ⟨n, fun m hm => ?_⟩
  unfold extractListFromAtoms
  rw [seqMap_eq_map (reduceList lists m) val _ (fun a ha => reduceList_le _ n m hm _ _ (hn a ha)), h2, flatMap_atoms]
  simp [List.flatMap_def]

theorem argsDenote_det (lists : GoMap (List Str)) (args : List Arg) (vs ws : List Str)
    (h : ArgsDenote lists args vs) (h' : ArgsDenote lists args ws) : vs = ws := by
  obtain ⟨n, hn⟩ := extract_of_argsDenote lists args vs h
  obtain ⟨m, hm⟩ := extract_of_argsDenote lists args ws h'
  have a := hn (max n m) (Nat.le_max_left ..)
  have b := hm (max n m) (Nat.le_max_right ..)
  rw [a] at b; simpa using b

variable {R : Type u}

theorem visitExprWith_mono (f g : Term → Option (Criterion R)) (hfg : ∀ t c, f t = some c → g t = some c) (e : Expr)
    (c : Criterion R) (h : visitExprWith f e = some c) : visitExprWith g e = some c := by
  unfold visitExprWith at *
  rw [Option.map_eq_some_iff] at *
  obtain ⟨bs, h1, h2⟩ := h
  refine ⟨bs, seqMap_congr _ _ _ _ h1 ?_, h2⟩
  intro cl _ b hb
  rw [Option.map_eq_some_iff] at *
  obtain ⟨ts, h3, h4⟩ := hb
  exact ⟨ts, seqMap_congr _ _ _ _ h3 (fun t _ c hc => hfg t c hc), h4⟩

theorem extract_mono (lists : GoMap (List Str)) (n : Nat) (args : List Arg) (vs : List Str)
    (h : extractListFromAtoms lists n args = some vs) : extractListFromAtoms lists (n + 1) args = some vs := by
  unfold extractListFromAtoms at *
  rw [Option.map_eq_some_iff] at *
  obtain ⟨bs, h1, h2⟩ := h
  exact ⟨bs, seqMap_congr _ _ _ _ h1 (fun a _ b hb => reduceList_mono _ _ _ _ hb), h2⟩

theorem visitTerm_mono (ops : Operations R) (env : Env) (n : Nat) : ∀ t c, visitTerm ops env n t = some c →
    visitTerm ops env (n + 1) t = some c := by
  induction n with
  | zero => intro t c h; simp [visitTerm] at h
  | succ n ih =>
    intro t c h
    cases t with
    | ref id =>
      rw [visitTerm] at h ⊢
      cases hm : env.macros.get id with
      | none => simpa [hm] using h
      | some e =>
        simp only [hm] at h ⊢
        exact visitExprWith_mono _ _ ih e c h
    | not t =>
      rw [visitTerm, Option.map_eq_some_iff] at h ⊢
      obtain ⟨d, h1, h2⟩ := h
      exact ⟨d, ih t d h1, h2⟩
    | exist a => simpa [visitTerm] using h
    | binop op l r => simpa [visitTerm] using h
    | inList l args =>
      rw [visitTerm, Option.map_eq_some_iff] at h ⊢
      obtain ⟨d, h1, h2⟩ := h
      exact ⟨d, extract_mono _ _ _ _ h1, h2⟩
    | pmatch l args =>
      rw [visitTerm, Option.map_eq_some_iff] at h ⊢
      obtain ⟨d, h1, h2⟩ := h
      exact ⟨d, extract_mono _ _ _ _ h1, h2⟩
    | paren e =>
      rw [visitTerm] at h ⊢
      exact visitExprWith_mono _ _ ih e c h

theorem visitTerm_le (ops : Operations R) (env : Env) (n m : Nat) (hnm : n ≤ m) (t : Term) (c : Criterion R)
    (h : visitTerm ops env n t = some c) : visitTerm ops env m t = some c := by
  induction hnm with
  | refl => exact h
  | step _ ih => exact visitTerm_mono ops env _ t c ih

theorem visitExpr_le (ops : Operations R) (env : Env) (n m : Nat) (hnm : n ≤ m) (e : Expr) (c : Criterion R)
    (h : visitExpr ops env n e = some c) : visitExpr ops env m e = some c :=
  visitExprWith_mono _ _ (fun t c h => visitTerm_le ops env n m hnm t c h) e c h

theorem compiles_det (ops : Operations R) (env : Env) (e : Expr) (c d : Criterion R) (h : Compiles ops env e c)
    (h' : Compiles ops env e d) : c = d := by
  obtain ⟨n, hn⟩ := h
  obtain ⟨m, hm⟩ := h'
  have a := visitExpr_le ops env n (max n m) (Nat.le_max_left ..) e c hn
  have b := visitExpr_le ops env m (max n m) (Nat.le_max_right ..) e d hm
  rw [a] at b; simpa using b

/-- The value of a visited expression. -/
theorem visitExprWith_eval (vt : Term → Option (Criterion R)) (e : Expr) (c : Criterion R) (h : visitExprWith vt e = some c)
    (r : R) : (∀ cl ∈ e, ∀ t ∈ cl, (vt t).isSome) ∧
    (c.eval r = true ↔ ∃ cl ∈ e, ∀ t ∈ cl, ∀ d, vt t = some d → d.eval r = true) := by
  unfold visitExprWith at h
  rw [Option.map_eq_some_iff] at h
  obtain ⟨bs, h1, h2⟩ := h
  obtain ⟨h3, h4⟩ := seqMap_some _ _ _ h1
  have h5 : ∀ cl ∈ e, ∃ ts, seqMap vt cl = some ts := by
    intro cl hcl
    have := h4 cl hcl
    simp only [Option.isSome_map] at this
    exact Option.isSome_iff_exists.1 this
  refine ⟨?_, ?_⟩
  · intro cl hcl t ht
    obtain ⟨ts, hts⟩ := h5 cl hcl
    exact (seqMap_some _ _ _ hts).2 t ht
  · rw [← h2, any_eval_iff, h3]
    constructor
    · rintro ⟨d, hd, hde⟩
      obtain ⟨cl, hcl, hd⟩ := List.mem_filterMap.1 hd
      rw [Option.map_eq_some_iff] at hd
      obtain ⟨ts, hts, rfl⟩ := hd
      refine ⟨cl, hcl, ?_⟩
      have hde := (all_eval_iff _ r).1 hde
      intro t ht d hd
      apply hde
      rw [(seqMap_some _ _ _ hts).1]
      exact List.mem_filterMap.2 ⟨t, ht, hd⟩
    · rintro ⟨cl, hcl, hall⟩
      obtain ⟨ts, hts⟩ := h5 cl hcl
      refine ⟨Criterion.all ts, List.mem_filterMap.2 ⟨cl, hcl, by simp [hts]⟩, ?_⟩
      refine (all_eval_iff _ r).2 ?_
      intro d hd
      rw [(seqMap_some _ _ _ hts).1] at hd
      obtain ⟨t, ht, htd⟩ := List.mem_filterMap.1 hd
      exact hall t ht d htd

theorem exprVal_of_visit (ops : Operations R) (env : Env) (r : R) (vt : Term → Option (Criterion R)) (e : Expr) (c : Criterion R)
    (hvt : ∀ t d, vt t = some d → ∀ b, TermVal ops env r t b ↔ d.eval r = b)
    (h : visitExprWith vt e = some c) (b : Bool) : ExprVal ops env r e b ↔ c.eval r = b := by
  obtain ⟨hs, hv⟩ := visitExprWith_eval vt e c h r
  constructor
  · intro hb
    cases hb with
    | holds _ cl hcl ht =>
      rw [hv]
      exact ⟨cl, hcl, fun t htm d hd => (hvt t d hd true).1 (ht t htm)⟩
    | fails _ w hw hf =>
      rw [← Bool.not_eq_true, hv]
      rintro ⟨cl, hcl, hall⟩
      obtain ⟨d, hd⟩ := Option.isSome_iff_exists.1 (hs cl hcl (w cl) (hw cl hcl))
      have h1 := hall (w cl) (hw cl hcl) d hd
      have h2 := (hvt (w cl) d hd false).1 (hf cl hcl)
      rw [h1] at h2; cases h2
  · intro hb
    cases b with
    | true =>
      obtain ⟨cl, hcl, hall⟩ := hv.1 hb
      refine .holds _ cl hcl ?_
      intro t ht
      obtain ⟨d, hd⟩ := Option.isSome_iff_exists.1 (hs cl hcl t ht)
      exact (hvt t d hd true).2 (hall t ht d hd)
    | false =>
      have hn : ¬ ∃ cl ∈ e, ∀ t ∈ cl, ∀ d, vt t = some d → d.eval r = true := by
        rw [← hv, hb]; simp
      have key : ∀ cl : List Term, ∃ t : Term, cl ∈ e → t ∈ cl ∧ TermVal ops env r t false := by
        intro cl
        by_cases hcl : cl ∈ e
        · have h6 : ¬ ∀ t ∈ cl, ∀ d, vt t = some d → d.eval r = true := fun hh => hn ⟨cl, hcl, hh⟩
          have h7 : ∃ t ∈ cl, ∃ d, vt t = some d ∧ ¬ d.eval r = true := by
            refine Classical.byContradiction fun hno => h6 ?_
            intro t ht d hd
            refine Classical.byContradiction fun hne => hno ⟨t, ht, d, hd, hne⟩
          obtain ⟨t, ht, d, hd, hne⟩ := h7
          exact ⟨t, fun _ => ⟨ht, (hvt t d hd false).2 (by simpa using hne)⟩⟩
        · exact ⟨.ref [], fun hc => absurd hc hcl⟩
      choose w hw using key
      exact .fails _ w (fun cl hcl => (hw cl hcl).1) (fun cl hcl => (hw cl hcl).2)

theorem termVal_of_visit (ops : Operations R) (env : Env) (r : R) (n : Nat) : ∀ t d, visitTerm ops env n t = some d →
    ∀ b, TermVal ops env r t b ↔ d.eval r = b := by
  induction n with
  | zero => intro t d h; simp [visitTerm] at h
  | succ n ih =>
    intro t d h b
    cases t with
    | ref id =>
      rw [visitTerm] at h
      cases hm : env.macros.get id with
      | none =>
        simp only [hm, Option.some.injEq] at h
        subst h
        constructor
        · intro ht
          cases ht with
          | mac _ e _ he _ => rw [hm] at he; cases he
          | undefined _ _ => rfl
        · intro hb
          have : b = false := by rw [← hb]; rfl
          subst this
          exact .undefined id hm
      | some e =>
        simp only [hm] at h
        have key := exprVal_of_visit ops env r _ e d ih h b
        rw [← key]
        constructor
        · intro ht
          cases ht with
          | mac _ e' _ he hv => rw [hm] at he; cases he; exact hv
          | undefined _ he => rw [hm] at he; cases he
        · intro hv; exact .mac id e b hm hv
    | not t =>
      rw [visitTerm, Option.map_eq_some_iff] at h
      obtain ⟨d', h1, rfl⟩ := h
      have key := ih t d' h1
      have he : d'.not.eval r = !(d'.eval r) := rfl
      rw [he]
      constructor
      · intro ht
        cases ht with
        | not _ b' hb' => rw [(key b').1 hb']
      · intro hb
        have := TermVal.not t (d'.eval r) ((key _).2 rfl)
        rw [hb] at this; exact this
    | exist a =>
      simp only [visitTerm, Option.some.injEq] at h
      subst h
      constructor
      · intro ht
        cases ht with
        | exist _ _ hb => exact hb
      · intro hb; exact .exist a b hb
    | binop op l x =>
      simp only [visitTerm, Option.some.injEq] at h
      subst h
      have key : CmpHolds ops r l x op ↔ (binCriterion ops l x op).eval r = true := by
        cases op <;> simp [CmpHolds, binCriterion, Criterion.not, Criterion.eval]
      constructor
      · intro ht
        cases ht with
        | cmp _ _ _ _ hb =>
          rw [key] at hb
          cases b <;> cases hc : (binCriterion ops l x op).eval r <;> simp_all
      · intro hb
        refine .cmp op l x b ?_
        rw [key, hb]
    | inList l args =>
      rw [visitTerm, Option.map_eq_some_iff] at h
      obtain ⟨vs, h1, rfl⟩ := h
      have hd := argsDenote_of_extract _ _ _ _ h1
      constructor
      · intro ht
        cases ht with
        | isIn _ _ ws _ hw hb => rw [argsDenote_det _ _ _ _ hd hw]; exact hb
      · intro hb; exact .isIn l args vs b hd hb
    | pmatch l args =>
      rw [visitTerm, Option.map_eq_some_iff] at h
      obtain ⟨vs, h1, rfl⟩ := h
      have hd := argsDenote_of_extract _ _ _ _ h1
      constructor
      · intro ht
        cases ht with
        | pmatch _ _ ws _ hw hb => rw [argsDenote_det _ _ _ _ hd hw]; exact hb
      · intro hb; exact .pmatch l args vs b hd hb
    | paren e =>
      rw [visitTerm] at h
      rw [← exprVal_of_visit ops env r _ e d ih h b]
      constructor
      · intro ht
        cases ht with
        | paren _ _ hv => exact hv
      · intro hv; exact .paren e b hv

/-! ### Termination -/

/-- What a name needs for its uses to compile. -/
def Ready (ops : Operations R) (env : Env) : Name → Prop
  | .mac id => ∀ e, env.macros.get id = some e → ∃ c, Compiles ops env e c
  | .list s => ∃ vs, Expands env.lists s vs

theorem seqMap_common (ops : Operations R) (env : Env) (cl : List Term) (h : ∀ t ∈ cl, ∃ n c, visitTerm ops env n t = some c) :
    ∃ n, ∀ t ∈ cl, (visitTerm ops env n t).isSome := by
  induction cl with
  | nil => exact ⟨0, by simp⟩
  | cons t cl ih =>
    obtain ⟨n, c, hn⟩ := h t (by simp)
    obtain ⟨m, hm⟩ := ih (fun x hx => h x (by simp [hx]))
    refine ⟨max n m, ?_⟩
    intro x hx
    rcases List.mem_cons.1 hx with rfl | hx
    · rw [visitTerm_le _ _ n _ (Nat.le_max_left ..) _ _ hn]; rfl
    · obtain ⟨d, hd⟩ := Option.isSome_iff_exists.1 (hm x hx)
      rw [visitTerm_le _ _ m _ (Nat.le_max_right ..) _ _ hd]; rfl

theorem visitExprWith_isSome (vt : Term → Option (Criterion R)) (e : Expr) (h : ∀ cl ∈ e, ∀ t ∈ cl, (vt t).isSome) :
    ∃ c, visitExprWith vt e = some c := by
  unfold visitExprWith
  rw [seqMap_of_isSome]
  · exact ⟨_, rfl⟩
  · intro cl hcl
    rw [seqMap_of_isSome vt cl (h cl hcl)]; rfl

theorem expr_common (ops : Operations R) (env : Env) (e : Expr) (h : ∀ cl ∈ e, ∀ t ∈ cl, ∃ n c, visitTerm ops env n t = some c) :
    ∃ c, Compiles ops env e c := by
  obtain ⟨n, hn⟩ := seqMap_common ops env e.flatten (by
    intro t ht
    obtain ⟨cl, hcl, htc⟩ := List.mem_flatten.1 ht
    exact h cl hcl t htc)
  obtain ⟨c, hc⟩ := visitExprWith_isSome (visitTerm ops env n) e (fun cl hcl t ht => hn t (List.mem_flatten.2 ⟨cl, hcl, ht⟩))
  exact ⟨c, n, hc⟩

theorem args_ready (ops : Operations R) (env : Env) (args : List Arg) (h : ∀ a, Arg.atom a ∈ args → Ready ops env (.list a)) :
    ∃ n vs, extractListFromAtoms env.lists n args = some vs := by
  have : ∀ a, ∃ v, Arg.atom a ∈ args → Expands env.lists a v := by
    intro a
    by_cases ha : Arg.atom a ∈ args
    · obtain ⟨v, hv⟩ := h a ha; exact ⟨v, fun _ => hv⟩
    · exact ⟨[], fun hc => absurd hc ha⟩
  choose val hval using this
  obtain ⟨n, hn⟩ := extract_of_argsDenote env.lists args _ ⟨val, hval, rfl⟩
  exact ⟨n, _, hn n (Nat.le_refl _)⟩

theorem term_ready (ops : Operations R) (env : Env) : ∀ t : Term, (∀ x, Uses t x → Ready ops env x) →
    ∃ n c, visitTerm ops env n t = some c
  | .ref id, h => by
    cases hm : env.macros.get id with
    | none => exact ⟨1, .ff, by simp [visitTerm, hm]⟩
    | some e =>
      obtain ⟨c, n, hn⟩ := h _ (.var id) e hm
      exact ⟨n + 1, c, by simp only [visitTerm, hm]; exact hn⟩
  | .not t, h => by
    obtain ⟨n, c, hn⟩ := term_ready ops env t (fun x hx => h x (.not t x hx))
    exact ⟨n + 1, c.not, by simp [visitTerm, hn]⟩
  | .exist a, _ => ⟨1, _, rfl⟩
  | .binop op l r, _ => ⟨1, _, rfl⟩
  | .inList l args, h => by
    obtain ⟨n, vs, hn⟩ := args_ready ops env args (fun a ha => h _ (.isIn l a args ha))
    exact ⟨n + 1, _, by rw [visitTerm, hn]; rfl⟩
  | .pmatch l args, h => by
    obtain ⟨n, vs, hn⟩ := args_ready ops env args (fun a ha => h _ (.pmatch l a args ha))
    exact ⟨n + 1, _, by rw [visitTerm, hn]; rfl⟩
  | .paren e, h => by
    obtain ⟨c, n, hn⟩ := expr_common ops env e (fun cl hcl t ht =>
      term_ready ops env t (fun x hx => h x (.paren e cl t x hcl ht hx)))
    exact ⟨n + 1, c, by rw [visitTerm]; exact hn⟩
termination_by t => t
decreasing_by
  · simp_wf
  · have h1 := List.sizeOf_lt_of_mem ht
    have h2 := List.sizeOf_lt_of_mem hcl
    simp_wf; omega

theorem expr_ready (ops : Operations R) (env : Env) (e : Expr) (h : ∀ x, UsesE e x → Ready ops env x) :
    ∃ c, Compiles ops env e c :=
  expr_common ops env e (fun cl hcl t ht => term_ready ops env t (fun x hx => h x ⟨cl, hcl, t, ht, hx⟩))

theorem ready_of_acc (ops : Operations R) (env : Env) (x : Name) (h : Acc (fun y x => Dep env x y) x) : Ready ops env x := by
  induction h with
  | intro x _ ih =>
    cases x with
    | mac id =>
      intro e he
      exact expr_ready ops env e (fun y hy => ih y (.mac id e y he hy))
    | list s =>
      cases hs : env.lists.get s with
      | none => exact ⟨_, .literal s hs⟩
      | some items =>
        have : ∀ i, ∃ v, i ∈ items → Expands env.lists i v := by
          intro i
          by_cases hi : i ∈ items
          · obtain ⟨v, hv⟩ := ih (.list i) (.list s items i hs hi); exact ⟨v, fun _ => hv⟩
          · exact ⟨[], fun hc => absurd hc hi⟩
        choose val hval using this
        exact ⟨_, .list s items val hs hval⟩

theorem acc_of_expands (env : Env) (s : Str) (vs : List Str) (h : Expands env.lists s vs) :
    Acc (fun y x => Dep env x y) (.list s) := by
  induction h with
  | literal s hs =>
    refine Acc.intro _ fun y hy => ?_
    cases hy with
    | list _ items i hg _ => rw [hs] at hg; cases hg
  | list s items val hs _ ih =>
    refine Acc.intro _ fun y hy => ?_
    cases hy with
    | list _ items' i hg hi => rw [hs] at hg; cases hg; exact ih i hi

theorem acc_of_args (env : Env) (args : List Arg) (n : Nat) (vs : List Str) (h : extractListFromAtoms env.lists n args = some vs)
    (a : Str) (ha : Arg.atom a ∈ args) : Acc (fun y x => Dep env x y) (.list a) := by
  obtain ⟨val, h1, _⟩ := argsDenote_of_extract _ _ _ _ h
  exact acc_of_expands env a _ (h1 a ha)

theorem acc_of_visit (ops : Operations R) (env : Env) (n : Nat) : ∀ t c, visitTerm ops env n t = some c →
    ∀ x, Uses t x → Acc (fun y x => Dep env x y) x := by
  induction n with
  | zero => intro t c h; simp [visitTerm] at h
  | succ n ih =>
    intro t
    have hexpr : ∀ e c, visitExprWith (visitTerm ops env n) e = some c → ∀ x, UsesE e x → Acc (fun y x => Dep env x y) x := by
      intro e c h x hx
      obtain ⟨cl, hcl, t, ht, hu⟩ := hx
      unfold visitExprWith at h
      rw [Option.map_eq_some_iff] at h
      obtain ⟨bs, h1, _⟩ := h
      have h2 := (seqMap_some _ _ _ h1).2 cl hcl
      simp only [Option.isSome_map] at h2
      obtain ⟨ts, hts⟩ := Option.isSome_iff_exists.1 h2
      obtain ⟨d, hd⟩ := Option.isSome_iff_exists.1 ((seqMap_some _ _ _ hts).2 t ht)
      exact ih t d hd x hu
    intro c h x hx
    cases hx with
    | var id =>
      rw [visitTerm] at h
      refine Acc.intro _ fun y hy => ?_
      cases hy with
      | mac _ e _ he hu =>
        simp only [he] at h
        exact hexpr e c h y hu
    | not t _ hu =>
      rw [visitTerm, Option.map_eq_some_iff] at h
      obtain ⟨d, h1, _⟩ := h
      exact ih t d h1 x hu
    | isIn l a args ha =>
      rw [visitTerm, Option.map_eq_some_iff] at h
      obtain ⟨d, h1, _⟩ := h
      exact acc_of_args env args n d h1 a ha
    | pmatch l a args ha =>
      rw [visitTerm, Option.map_eq_some_iff] at h
      obtain ⟨d, h1, _⟩ := h
      exact acc_of_args env args n d h1 a ha
    | paren e cl t _ hcl ht hu =>
      rw [visitTerm] at h
      exact hexpr e c h x ⟨cl, hcl, t, ht, hu⟩

theorem acc_of_compiles (ops : Operations R) (env : Env) (e : Expr) (c : Criterion R) (h : Compiles ops env e c) (x : Name)
    (hx : UsesE e x) : Acc (fun y x => Dep env x y) x := by
  obtain ⟨n, hn⟩ := h
  exact acc_of_visit ops env (n + 1) (.paren e) c (by rw [visitTerm]; exact hn) x
    (by obtain ⟨cl, hcl, t, ht, hu⟩ := hx; exact .paren e cl t x hcl ht hu)

/-- An accessible element is on no cycle and reaches none. -/
theorem not_cycle_of_acc {α : Type _} (r : α → α → Prop) (x : α) (h : Acc (fun y x => r x y) x) :
    ∀ y, Relation.ReflTransGen r x y → ¬ Relation.TransGen r y y := by
  induction h with
  | intro x _ ih =>
    intro y hxy hyy
    rcases Relation.ReflTransGen.cases_head hxy with rfl | ⟨z, hxz, hzy⟩
    · obtain ⟨z, hxz, hzx⟩ := Relation.TransGen.head'_iff.1 hyy
      exact ih z hxz z .refl (Relation.TransGen.tail'_iff.2 ⟨x, hzx, hxz⟩)
    · exact ih z hxz y hzy hyy

/-- With finitely many sources of edges, an element that reaches no cycle is accessible. -/
theorem acc_of_not_cycle {α : Type _} (r : α → α → Prop) (S : List α) : ∀ x,
    (∀ y z, Relation.ReflTransGen r x y → r y z → y ∈ S) →
    (∀ y, Relation.ReflTransGen r x y → ¬ Relation.TransGen r y y) → Acc (fun y x => r x y) x := by
  classical
  generalize hn : S.length = n
  induction n generalizing S with
  | zero =>
    intro x hS _
    refine Acc.intro _ fun y hy => ?_
    have := hS x y .refl hy
    rw [List.length_eq_zero_iff.1 hn] at this; cases this
  | succ n ih =>
    intro x hS hc
    refine Acc.intro _ fun y hy => ?_
    have hx : x ∈ S := hS x y .refl hy
    refine ih (S.erase x) (by rw [List.length_erase_of_mem hx, hn]; rfl) y ?_ ?_
    · intro z w hyz hzw
      have hz := hS z w (.head hy hyz) hzw
      have hne : z ≠ x := by
        rintro rfl
        exact hc z .refl (Relation.TransGen.head'_iff.2 ⟨y, hy, hyz⟩)
      exact (List.mem_erase_of_ne hne).2 hz
    · intro z hyz; exact hc z (.head hy hyz)

theorem dep_source (env : Env) (x y : Name) (h : Dep env x y) :
    x ∈ env.macros.map (fun p => Name.mac p.1) ++ env.lists.map (fun p => Name.list p.1) := by
  rw [List.mem_append]
  cases h with
  | mac id e y he _ => left; exact List.mem_map.2 ⟨(id, e), get_mem _ _ _ he, rfl⟩
  | list id items i hi _ => right; exact List.mem_map.2 ⟨(id, items), get_mem _ _ _ hi, rfl⟩

end Verif.Falco
