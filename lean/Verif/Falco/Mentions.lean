import Verif.Falco.EndToEnd
/-
The attributes a condition reads; conditions over sources that agree on those attributes.
-/
namespace Verif.Falco
open Verif.Decimal (Str)
open Verif.Policy

variable {R : Type u}

/-- The term, or a macro it uses, directly or through other macros, names the attribute `k`. -/
inductive Mentions (env : Env) (k : Str) : Term → Prop
  | exist : Mentions env k (.exist k)
  | binop (op : BinOp) (x : Str) : Mentions env k (.binop op k x)
  | inList (args : List Arg) : Mentions env k (.inList k args)
  | pmatch (args : List Arg) : Mentions env k (.pmatch k args)
  | not (t : Term) : Mentions env k t → Mentions env k (.not t)
  | paren (e : Expr) (c : List Term) (t : Term) : c ∈ e → t ∈ c → Mentions env k t → Mentions env k (.paren e)
  | mac (id : Str) (e : Expr) (c : List Term) (t : Term) : env.macros.get id = some e → c ∈ e → t ∈ c → Mentions env k t → Mentions env k (.ref id)

/-- The condition names the attribute `k`, itself or through a macro. -/
def MentionsE (env : Env) (k : Str) (e : Expr) : Prop := ∃ c ∈ e, ∃ t ∈ c, Mentions env k t

/-- A property of criteria that holds of the operations on the attributes a condition names, and is kept by the Boolean connectives, holds of the
compiled condition. -/
theorem falco_closed (ops : Operations R) (env : Env) (K : Str → Prop) (Q : Criterion R → Prop) (htt : Q .tt) (hff : Q .ff)
    (hand : ∀ a b, Q a → Q b → Q (a.and b)) (hor : ∀ a b, Q a → Q b → Q (a.or b)) (hnot : ∀ a, Q a → Q a.not)
    (hex : ∀ k, K k → Q (ops.exist k)) (hcmp : ∀ k x op, K k → Q (ops.compare k x op)) (hany : ∀ k vs op, K k → Q (ops.foldAny k vs op))
    (e : Expr) (c : Criterion R) (h : Compiles ops env e c) (hK : ∀ k, MentionsE env k e → K k) : Q c := by
  have hall : ∀ (cs : List (Criterion R)) (a : Criterion R), Q a → (∀ c ∈ cs, Q c) → Q (cs.foldl (fun acc c => acc.and c) a) := by
    intro cs
    induction cs with
    | nil => intro a ha _; exact ha
    | cons c cs ih => intro a ha hc; exact ih _ (hand _ _ ha (hc c (by simp))) (fun d hd => hc d (by simp [hd]))
  have hsome : ∀ (cs : List (Criterion R)) (a : Criterion R), Q a → (∀ c ∈ cs, Q c) → Q (cs.foldl (fun acc c => acc.or c) a) := by
    intro cs
    induction cs with
    | nil => intro a ha _; exact ha
    | cons c cs ih => intro a ha hc; exact ih _ (hor _ _ ha (hc c (by simp))) (fun d hd => hc d (by simp [hd]))
  obtain ⟨n, hn⟩ := h
  have hexpr : ∀ (vt : Term → Option (Criterion R)), (∀ t d, vt t = some d → (∀ k, Mentions env k t → K k) → Q d) → ∀ e c,
      visitExprWith vt e = some c → (∀ k, MentionsE env k e → K k) → Q c := by
    intro vt hvt e c h hK
    unfold visitExprWith at h
    rw [Option.map_eq_some_iff] at h
    obtain ⟨bs, h1, rfl⟩ := h
    refine hsome _ _ hff ?_
    intro d hd
    rw [(seqMap_some _ _ _ h1).1] at hd
    obtain ⟨cl, hm, hcl⟩ := List.mem_filterMap.1 hd
    rw [Option.map_eq_some_iff] at hcl
    obtain ⟨ts, hts, rfl⟩ := hcl
    refine hall _ _ htt ?_
    intro x hx
    rw [(seqMap_some _ _ _ hts).1] at hx
    obtain ⟨t, htm, ht⟩ := List.mem_filterMap.1 hx
    exact hvt t x ht (fun k hk => hK k ⟨cl, hm, t, htm, hk⟩)
  refine hexpr _ ?_ e c hn hK
  clear hn hK e c
  induction n with
  | zero => intro t d h; simp [visitTerm] at h
  | succ n ih =>
    intro t d h hK
    cases t with
    | ref id =>
      rw [visitTerm] at h
      cases hm : env.macros.get id with
      | none => simp only [hm, Option.some.injEq] at h; subst h; exact hff
      | some e =>
        simp only [hm] at h
        exact hexpr _ ih e d h (fun k ⟨cl, hc, t, ht, hk⟩ => hK k (.mac id e cl t hm hc ht hk))
    | not t =>
      rw [visitTerm, Option.map_eq_some_iff] at h
      obtain ⟨d', h1, rfl⟩ := h
      exact hnot _ (ih t d' h1 (fun k hk => hK k (.not t hk)))
    | exist a => simp only [visitTerm, Option.some.injEq] at h; subst h; exact hex a (hK a .exist)
    | binop op l x =>
      simp only [visitTerm, Option.some.injEq] at h; subst h
      have := hK l (.binop op x)
      cases op <;> first | exact hcmp _ _ _ this | exact hnot _ (hcmp _ _ _ this)
    | inList l args =>
      rw [visitTerm, Option.map_eq_some_iff] at h
      obtain ⟨vs, _, rfl⟩ := h
      exact hany _ _ _ (hK l (.inList args))
    | pmatch l args =>
      rw [visitTerm, Option.map_eq_some_iff] at h
      obtain ⟨vs, _, rfl⟩ := h
      exact hany _ _ _ (hK l (.pmatch args))
    | paren e =>
      rw [visitTerm] at h
      exact hexpr _ ih e d h (fun k ⟨cl, hc, t, ht, hk⟩ => hK k (.paren e cl t hc ht hk))

/-- Two sources agree on what a condition asks of the attributes `K` of a record. -/
structure AgreeOn (ops ops' : Operations R) (r : R) (K : Str → Prop) : Prop where
  exist : ∀ k, K k → (ops.exist k).eval r = (ops'.exist k).eval r
  compare : ∀ k x op, K k → (ops.compare k x op).eval r = (ops'.compare k x op).eval r
  foldAny : ∀ k vs op, K k → (ops.foldAny k vs op).eval r = (ops'.foldAny k vs op).eval r

theorem exprVal_agreeOn_mp {ops ops' : Operations R} {r : R} {K : Str → Prop} (h : AgreeOn ops ops' r K) (env : Env) (e : Expr) (b : Bool)
    (hK : ∀ k, MentionsE env k e → K k) (hv : ExprVal ops env r e b) : ExprVal ops' env r e b := by
  refine ExprVal.rec (motive_1 := fun t b _ => (∀ k, Mentions env k t → K k) → TermVal ops' env r t b)
    (motive_2 := fun e b _ => (∀ k, MentionsE env k e → K k) → ExprVal ops' env r e b) ?_ ?_ ?_ ?_ ?_ ?_ ?_ ?_ ?_ ?_ hv hK
  · intro id e b hm _ ih hK
    exact .mac id e b hm (ih (fun k ⟨c, hc, t, ht, hk⟩ => hK k (.mac id e c t hm hc ht hk)))
  · intro id hm _; exact .undefined id hm
  · intro t b _ ih hK; exact .not t b (ih (fun k hk => hK k (.not t hk)))
  · intro a b he hK; exact .exist a b ((h.exist a (hK a .exist)).symm.trans he)
  · intro op l x b hb hK
    have hl := hK l (.binop op x)
    refine .cmp op l x b (hb.trans ?_)
    cases op <;> simp only [CmpHolds, h.compare l x _ hl]
  · intro l args vs b ha he hK; exact .isIn l args vs b ha ((h.foldAny l vs _ (hK l (.inList args))).symm.trans he)
  · intro l args vs b ha he hK; exact .pmatch l args vs b ha ((h.foldAny l vs _ (hK l (.pmatch args))).symm.trans he)
  · intro e b _ ih hK; exact .paren e b (ih (fun k ⟨c, hc, t, ht, hk⟩ => hK k (.paren e c t hc ht hk)))
  · intro e c hc _ ih hK; exact .holds e c hc (fun t ht => ih t ht (fun k hk => hK k ⟨c, hc, t, ht, hk⟩))
  · intro e w hw _ ih hK; exact .fails e w hw (fun c hc => ih c hc (fun k hk => hK k ⟨c, hc, w c, hw c hc, hk⟩))

/-- A condition has the same value for two sources that agree on the attributes it names. -/
theorem exprVal_agreeOn {ops ops' : Operations R} {r : R} {K : Str → Prop} (h : AgreeOn ops ops' r K) (env : Env) (e : Expr) (b : Bool)
    (hK : ∀ k, MentionsE env k e → K k) : ExprVal ops env r e b ↔ ExprVal ops' env r e b :=
  ⟨exprVal_agreeOn_mp h env e b hK, exprVal_agreeOn_mp ⟨fun k hk => (h.exist k hk).symm, fun k x op hk => (h.compare k x op hk).symm,
    fun k vs op hk => (h.foldAny k vs op hk).symm⟩ env e b hK⟩

end Verif.Falco
