import Verif.Falco.ParserProps
import Verif.Falco.Layout
import Verif.Falco.Props
/-
The meaning of a condition as written: precedence, parentheses, and what the compiled condition computes.
-/
namespace Verif.Falco
open Verif.Decimal (Str)
open Verif.Policy

variable {R : Type u}

/-! ### Specification -/

/-- A condition as its author means it. -/
inductive Cond where
  | mac (id : Str)
  | exist (field : Str)
  | cmp (op : BinOp) (field value : Str)
  | isIn (field : Str) (args : List Arg)
  | pmatch (field : Str) (args : List Arg)
  | not (c : Cond)
  | and (c d : Cond)
  | or (c d : Cond)

/-- `Writes l c w`: the tokens `w` are a way of writing `c` where level `l` is needed (`0`: may be an `or`, `1`: may be an `and`, `2`:
neither): `not` takes a part of level 2, `and` parts
of level 1, `or` parts of level 0, and parentheses make any condition one of level 2. -/
inductive Writes : Nat → Cond → List Token → Prop where
  | mac (l : Nat) (a : Token) : a.kind = .ID → Writes l (.mac a.text) [a]
  | exist (l : Nat) (a o : Token) : isAtom a.kind = true → o.kind = .EXISTS → Writes l (.exist a.text) [a, o]
  | cmp (l : Nat) (a o b : Token) (op : BinOp) : isAtom a.kind = true → binOp o.kind = some op → isAtom b.kind = true →
      Writes l (.cmp op a.text b.text) [a, o, b]
  | isIn (l : Nat) (a o lp rp : Token) (w : List Token) (args : List Arg) : isAtom a.kind = true → o.kind = .IN → lp.kind = .LPAREN →
      GArgs w args → rp.kind = .RPAREN → Writes l (.isIn a.text args) (a :: o :: lp :: (w ++ [rp]))
  | pmatch (l : Nat) (a o lp rp : Token) (w : List Token) (args : List Arg) : isAtom a.kind = true → o.kind = .PMATCH → lp.kind = .LPAREN →
      GArgs w args → rp.kind = .RPAREN → Writes l (.pmatch a.text args) (a :: o :: lp :: (w ++ [rp]))
  | not (l : Nat) (n : Token) (c : Cond) (w : List Token) : n.kind = .NOT → Writes 2 c w → Writes l (.not c) (n :: w)
  | and (l : Nat) (o : Token) (c d : Cond) (w w' : List Token) : l ≤ 1 → o.kind = .AND → Writes 1 c w → Writes 1 d w' →
      Writes l (.and c d) (w ++ o :: w')
  | or (l : Nat) (o : Token) (c d : Cond) (w w' : List Token) : l = 0 → o.kind = .OR → Writes 0 c w → Writes 0 d w' →
      Writes l (.or c d) (w ++ o :: w')
  | paren (l : Nat) (lp rp : Token) (c : Cond) (w : List Token) : lp.kind = .LPAREN → rp.kind = .RPAREN → Writes 0 c w →
      Writes l c (lp :: (w ++ [rp]))

/-- `CondVal ops env r c b`: under the definitions `env` the condition has truth value `b` on the record `r`. A conjunction is false as
soon as one part is, a disjunction true as soon as one part is. -/
inductive CondVal (ops : Operations R) (env : Env) (r : R) : Cond → Bool → Prop where
  | mac (id : Str) (b : Bool) : TermVal ops env r (.ref id) b → CondVal ops env r (.mac id) b
  | exist (f : Str) (b : Bool) : TermVal ops env r (.exist f) b → CondVal ops env r (.exist f) b
  | cmp (op : BinOp) (f v : Str) (b : Bool) : TermVal ops env r (.binop op f v) b → CondVal ops env r (.cmp op f v) b
  | isIn (f : Str) (args : List Arg) (b : Bool) : TermVal ops env r (.inList f args) b → CondVal ops env r (.isIn f args) b
  | pmatch (f : Str) (args : List Arg) (b : Bool) : TermVal ops env r (.pmatch f args) b → CondVal ops env r (.pmatch f args) b
  | not (c : Cond) (b : Bool) : CondVal ops env r c b → CondVal ops env r (.not c) (!b)
  | andT (c d : Cond) : CondVal ops env r c true → CondVal ops env r d true → CondVal ops env r (.and c d) true
  | andL (c d : Cond) : CondVal ops env r c false → CondVal ops env r (.and c d) false
  | andR (c d : Cond) : CondVal ops env r d false → CondVal ops env r (.and c d) false
  | orF (c d : Cond) : CondVal ops env r c false → CondVal ops env r d false → CondVal ops env r (.or c d) false
  | orL (c d : Cond) : CondVal ops env r c true → CondVal ops env r (.or c d) true
  | orR (c d : Cond) : CondVal ops env r d true → CondVal ops env r (.or c d) true

/-! ### Values of syntax trees -/

/-- The value of a conjunction of terms. -/
def ConjVal (ops : Operations R) (env : Env) (r : R) (ts : List Term) : Bool → Prop
  | true => ∀ t ∈ ts, TermVal ops env r t true
  | false => ∃ t ∈ ts, TermVal ops env r t false

/-- The value of a disjunction of conjunctions. -/
def DisjVal (ops : Operations R) (env : Env) (r : R) (e : Expr) : Bool → Prop
  | true => ∃ ts ∈ e, ConjVal ops env r ts true
  | false => ∀ ts ∈ e, ConjVal ops env r ts false

theorem exprVal_disj (ops : Operations R) (env : Env) (r : R) (e : Expr) (b : Bool) : ExprVal ops env r e b ↔ DisjVal ops env r e b := by
  constructor
  · intro h
    cases h with
    | holds _ c hc h => exact ⟨c, hc, h⟩
    | fails _ w h1 h2 => exact fun c hc => ⟨w c, h1 c hc, h2 c hc⟩
  · intro h
    cases b with
    | true =>
      obtain ⟨c, hc, h⟩ := h
      exact .holds e c hc h
    | false =>
      have : ∀ c : List Term, ∃ t : Term, c ∈ e → t ∈ c ∧ TermVal ops env r t false := by
        intro c
        by_cases hc : c ∈ e
        · obtain ⟨t, h1, h2⟩ := h c hc
          exact ⟨t, fun _ => ⟨h1, h2⟩⟩
        · exact ⟨.ref [], fun h => absurd h hc⟩
      obtain ⟨w, hw⟩ := Classical.axiomOfChoice this
      exact .fails e w (fun c hc => (hw c hc).1) (fun c hc => (hw c hc).2)

theorem conjVal_append (ops : Operations R) (env : Env) (r : R) (u v : List Term) :
    (ConjVal ops env r (u ++ v) true ↔ ConjVal ops env r u true ∧ ConjVal ops env r v true) ∧
    (ConjVal ops env r (u ++ v) false ↔ ConjVal ops env r u false ∨ ConjVal ops env r v false) := by
  unfold ConjVal
  constructor
  · constructor
    · intro h
      exact ⟨fun t ht => h t (List.mem_append_left _ ht), fun t ht => h t (List.mem_append_right _ ht)⟩
    · rintro ⟨h1, h2⟩ t ht
      rcases List.mem_append.mp ht with h | h
      · exact h1 t h
      · exact h2 t h
  · constructor
    · rintro ⟨t, ht, hv⟩
      rcases List.mem_append.mp ht with h | h
      · exact .inl ⟨t, h, hv⟩
      · exact .inr ⟨t, h, hv⟩
    · rintro (⟨t, ht, hv⟩ | ⟨t, ht, hv⟩)
      · exact ⟨t, List.mem_append_left _ ht, hv⟩
      · exact ⟨t, List.mem_append_right _ ht, hv⟩

theorem disjVal_append (ops : Operations R) (env : Env) (r : R) (u v : Expr) :
    (DisjVal ops env r (u ++ v) false ↔ DisjVal ops env r u false ∧ DisjVal ops env r v false) ∧
    (DisjVal ops env r (u ++ v) true ↔ DisjVal ops env r u true ∨ DisjVal ops env r v true) := by
  constructor
  · constructor
    · intro h
      exact ⟨fun t ht => h t (List.mem_append_left _ ht), fun t ht => h t (List.mem_append_right _ ht)⟩
    · rintro ⟨h1, h2⟩ t ht
      rcases List.mem_append.mp ht with h | h
      · exact h1 t h
      · exact h2 t h
  · constructor
    · rintro ⟨t, ht, hv⟩
      rcases List.mem_append.mp ht with h | h
      · exact .inl ⟨t, h, hv⟩
      · exact .inr ⟨t, h, hv⟩
    · rintro (⟨t, ht, hv⟩ | ⟨t, ht, hv⟩)
      · exact ⟨t, List.mem_append_left _ ht, hv⟩
      · exact ⟨t, List.mem_append_right _ ht, hv⟩

theorem conjVal_one (ops : Operations R) (env : Env) (r : R) (t : Term) (b : Bool) : ConjVal ops env r [t] b ↔ TermVal ops env r t b := by
  cases b
  · constructor
    · rintro ⟨t', ht, h⟩; rw [List.mem_singleton] at ht; subst ht; exact h
    · intro h; exact ⟨t, List.mem_cons_self, h⟩
  · constructor
    · intro h; exact h t List.mem_cons_self
    · intro h t' ht; rw [List.mem_singleton] at ht; subst ht; exact h

theorem disjVal_one (ops : Operations R) (env : Env) (r : R) (c : List Term) (b : Bool) : DisjVal ops env r [c] b ↔ ConjVal ops env r c b := by
  cases b
  · constructor
    · intro h; exact h c List.mem_cons_self
    · intro h t' ht; rw [List.mem_singleton] at ht; subst ht; exact h
  · constructor
    · rintro ⟨t', ht, h⟩; rw [List.mem_singleton] at ht; subst ht; exact h
    · intro h; exact ⟨c, List.mem_cons_self, h⟩

theorem termVal_paren (ops : Operations R) (env : Env) (r : R) (e : Expr) (b : Bool) : TermVal ops env r (.paren e) b ↔ ExprVal ops env r e b := by
  constructor
  · intro h; cases h with | paren _ _ h => exact h
  · exact .paren e b

theorem termVal_not (ops : Operations R) (env : Env) (r : R) (t : Term) (b : Bool) : TermVal ops env r (.not t) b ↔ TermVal ops env r t (!b) := by
  constructor
  · intro h; cases h with | not _ b' h => rw [Bool.not_not]; exact h
  · intro h
    have := TermVal.not t (!b) h
    rw [Bool.not_not] at this
    exact this

theorem condVal_not (ops : Operations R) (env : Env) (r : R) (c : Cond) (b : Bool) : CondVal ops env r (.not c) b ↔ CondVal ops env r c (!b) := by
  constructor
  · intro h; cases h with | not _ b' h => rw [Bool.not_not]; exact h
  · intro h
    have := CondVal.not c (!b) h
    rw [Bool.not_not] at this
    exact this

theorem condVal_and (ops : Operations R) (env : Env) (r : R) (c d : Cond) :
    (CondVal ops env r (.and c d) true ↔ CondVal ops env r c true ∧ CondVal ops env r d true) ∧
    (CondVal ops env r (.and c d) false ↔ CondVal ops env r c false ∨ CondVal ops env r d false) := by
  refine ⟨⟨fun h => ?_, fun h => .andT c d h.1 h.2⟩, ⟨fun h => ?_, fun h => ?_⟩⟩
  · cases h with | andT _ _ h1 h2 => exact ⟨h1, h2⟩
  · cases h with
    | andL _ _ h => exact .inl h
    | andR _ _ h => exact .inr h
  · rcases h with h | h
    · exact .andL c d h
    · exact .andR c d h

theorem condVal_or (ops : Operations R) (env : Env) (r : R) (c d : Cond) :
    (CondVal ops env r (.or c d) false ↔ CondVal ops env r c false ∧ CondVal ops env r d false) ∧
    (CondVal ops env r (.or c d) true ↔ CondVal ops env r c true ∨ CondVal ops env r d true) := by
  refine ⟨⟨fun h => ?_, fun h => .orF c d h.1 h.2⟩, ⟨fun h => ?_, fun h => ?_⟩⟩
  · cases h with | orF _ _ h1 h2 => exact ⟨h1, h2⟩
  · cases h with
    | orL _ _ h => exact .inl h
    | orR _ _ h => exact .inr h
  · rcases h with h | h
    · exact .orL c d h
    · exact .orR c d h

/-! ### Derivations -/

theorem der_conj_append {w w' : List Token} {o : Token} {ts ts' : List Term} (h : Der .conj w ts) (ho : o.kind = .AND) (h' : Der .conj w' ts') :
    Der .conj (w ++ o :: w') (ts ++ ts') := by
  have key : ∀ (nt : Nt) (w : List Token) (t : nt.T), Der nt w t → ∀ (e : nt = .conj), ∀ ts, (e ▸ t : Nt.T .conj) = ts → Der .conj (w ++ o :: w') (ts ++ ts') := by
    intro nt w t h
    induction h with
    | conjOne w t h _ =>
      intro e ts hts
      cases hts
      exact .conjMore w w' o t ts' h ho h'
    | conjMore w1 w2 o' t ts1 h1 ho' h2 _ ih =>
      intro e ts hts
      cases hts
      have := ih rfl ts1 rfl
      rw [List.append_assoc, List.cons_append]
      exact .conjMore w1 _ o' t _ h1 ho' this
    | _ => intro e; cases e
  exact key _ w ts h rfl ts rfl

theorem der_expr_append {w w' : List Token} {o : Token} {cs cs' : List (List Term)} (h : Der .expr w cs) (ho : o.kind = .OR) (h' : Der .expr w' cs') :
    Der .expr (w ++ o :: w') (cs ++ cs') := by
  have key : ∀ (nt : Nt) (w : List Token) (t : nt.T), Der nt w t → ∀ (e : nt = .expr), ∀ ts, (e ▸ t : Nt.T .expr) = ts → Der .expr (w ++ o :: w') (ts ++ cs') := by
    intro nt w t h
    induction h with
    | exprOne w t h _ =>
      intro e ts hts
      cases hts
      exact .exprMore w w' o t cs' h ho h'
    | exprMore w1 w2 o' t ts1 h1 ho' h2 _ ih =>
      intro e ts hts
      cases hts
      have := ih rfl ts1 rfl
      rw [List.append_assoc, List.cons_append]
      exact .exprMore w1 _ o' t _ h1 ho' this
    | _ => intro e; cases e
  exact key _ w cs h rfl cs rfl

/-- Same value, for all definitions, operations and records. -/
def SameT (c : Cond) (t : Term) : Prop := ∀ {R : Type} (ops : Operations R) (env : Env) (r : R) (b : Bool), TermVal ops env r t b ↔ CondVal ops env r c b
def SameC (c : Cond) (ts : List Term) : Prop := ∀ {R : Type} (ops : Operations R) (env : Env) (r : R) (b : Bool), ConjVal ops env r ts b ↔ CondVal ops env r c b
def SameE (c : Cond) (e : Expr) : Prop := ∀ {R : Type} (ops : Operations R) (env : Env) (r : R) (b : Bool), ExprVal ops env r e b ↔ CondVal ops env r c b

theorem sameC_of {c : Cond} {t : Term} (h : SameT c t) : SameC c [t] := fun ops env r b => (conjVal_one ops env r t b).trans (h ops env r b)
theorem sameE_of {c : Cond} {ts : List Term} (h : SameC c ts) : SameE c [ts] := fun ops env r b =>
  (exprVal_disj ops env r [ts] b).trans ((disjVal_one ops env r ts b).trans (h ops env r b))
theorem sameT_paren {c : Cond} {e : Expr} (h : SameE c e) : SameT c (.paren e) := fun ops env r b =>
  (termVal_paren ops env r e b).trans (h ops env r b)

theorem same_prim {c : Cond} {t : Term} (h1 : ∀ {R : Type} (ops : Operations R) (env : Env) (r : R) (b : Bool), TermVal ops env r t b → CondVal ops env r c b)
    (h2 : ∀ {R : Type} (ops : Operations R) (env : Env) (r : R) (b : Bool), CondVal ops env r c b → TermVal ops env r t b) : SameT c t :=
  fun ops env r b => ⟨h1 ops env r b, h2 ops env r b⟩

theorem same_mac (id : Str) : SameT (.mac id) (.ref id) :=
  same_prim (fun _ _ _ b h => .mac id b h) (fun _ _ _ _ h => by cases h; assumption)
theorem same_exist (f : Str) : SameT (.exist f) (.exist f) :=
  same_prim (fun _ _ _ b h => .exist f b h) (fun _ _ _ _ h => by cases h; assumption)
theorem same_cmp (op : BinOp) (f v : Str) : SameT (.cmp op f v) (.binop op f v) :=
  same_prim (fun _ _ _ b h => .cmp op f v b h) (fun _ _ _ _ h => by cases h; assumption)
theorem same_isIn (f : Str) (as : List Arg) : SameT (.isIn f as) (.inList f as) :=
  same_prim (fun _ _ _ b h => .isIn f as b h) (fun _ _ _ _ h => by cases h; assumption)
theorem same_pmatch (f : Str) (as : List Arg) : SameT (.pmatch f as) (.pmatch f as) :=
  same_prim (fun _ _ _ b h => .pmatch f as b h) (fun _ _ _ _ h => by cases h; assumption)
theorem same_not {c : Cond} {t : Term} (h : SameT c t) : SameT (.not c) (.not t) := fun ops env r b =>
  (termVal_not ops env r t b).trans ((h ops env r (!b)).trans (condVal_not ops env r c b).symm)

theorem same_and {c d : Cond} {u v : List Term} (h : SameC c u) (h' : SameC d v) : SameC (.and c d) (u ++ v) := by
  intro R ops env r b
  cases b
  · rw [(conjVal_append ops env r u v).2, (condVal_and ops env r c d).2, h ops env r, h' ops env r]
  · rw [(conjVal_append ops env r u v).1, (condVal_and ops env r c d).1, h ops env r, h' ops env r]

theorem same_or {c d : Cond} {u v : Expr} (h : SameE c u) (h' : SameE d v) : SameE (.or c d) (u ++ v) := by
  intro R ops env r b
  have g := fun b => (exprVal_disj ops env r u b).symm.trans (h ops env r b)
  have g' := fun b => (exprVal_disj ops env r v b).symm.trans (h' ops env r b)
  rw [exprVal_disj]
  cases b
  · rw [(disjVal_append ops env r u v).1, (condVal_or ops env r c d).1, g, g']
  · rw [(disjVal_append ops env r u v).2, (condVal_or ops env r c d).2, g, g']

/-- A written condition is derivable at every level at which it may stand, with its meaning. -/
theorem writes_der {l : Nat} {c : Cond} {w : List Token} (h : Writes l c w) :
    (∃ e, Der .expr w e ∧ SameE c e) ∧ (1 ≤ l → ∃ ts, Der .conj w ts ∧ SameC c ts) ∧ (2 ≤ l → ∃ t, Der .term w t ∧ SameT c t) := by
  have term : ∀ {l : Nat} {c : Cond} {w : List Token} {t : Term}, Der .term w t → SameT c t →
      (∃ e, Der .expr w e ∧ SameE c e) ∧ (1 ≤ l → ∃ ts, Der .conj w ts ∧ SameC c ts) ∧ (2 ≤ l → ∃ t, Der .term w t ∧ SameT c t) := by
    intro l c w t hd hs
    refine ⟨⟨[[t]], .exprOne w _ (.conjOne w t hd), sameE_of (sameC_of hs)⟩, fun _ => ⟨[t], .conjOne w t hd, sameC_of hs⟩, fun _ => ⟨t, hd, hs⟩⟩
  induction h with
  | mac l a ha => exact term (.ref a ha) (same_mac _)
  | exist l a o ha ho => exact term (.exist a o ha ho) (same_exist _)
  | cmp l a o b op ha ho hb => exact term (.binop a o b op ha ho hb) (same_cmp _ _ _)
  | isIn l a o lp rp w args ha ho hl hw hr => exact term (.inList a o lp rp w args ha ho hl hw hr) (same_isIn _ _)
  | pmatch l a o lp rp w args ha ho hl hw hr => exact term (.pmatch a o lp rp w args ha ho hl hw hr) (same_pmatch _ _)
  | not l n c w hn _ ih =>
    obtain ⟨t, hd, hs⟩ := ih.2.2 (by omega)
    exact term (.not n w t hn hd) (same_not hs)
  | and l o c d w w' hl ho _ _ ih1 ih2 =>
    obtain ⟨u, hu, su⟩ := ih1.2.1 (by omega)
    obtain ⟨v, hv, sv⟩ := ih2.2.1 (by omega)
    have hd := der_conj_append hu ho hv
    have hs : SameC (.and c d) (u ++ v) := same_and su sv
    exact ⟨⟨[u ++ v], .exprOne _ _ hd, sameE_of hs⟩, fun _ => ⟨u ++ v, hd, hs⟩, fun h => by omega⟩
  | or l o c d w w' hl ho _ _ ih1 ih2 =>
    obtain ⟨u, hu, su⟩ := ih1.1
    obtain ⟨v, hv, sv⟩ := ih2.1
    exact ⟨⟨u ++ v, der_expr_append hu ho hv, same_or su sv⟩, fun h => by omega, fun h => by omega⟩
  | paren l lp rp c w hl hr _ ih =>
    obtain ⟨e, hd, hs⟩ := ih.1
    exact term (.paren lp rp w e hl hd hr) (sameT_paren hs)

/-- Every derivable text is a written condition. -/
def Written : (nt : Nt) → List Token → nt.T → Prop
  | .term, w, t => ∃ c, (∀ l, Writes l c w) ∧ SameT c t
  | .conj, w, ts => ∃ c, (∀ l, l ≤ 1 → Writes l c w) ∧ SameC c ts
  | .expr, w, e => ∃ c, Writes 0 c w ∧ SameE c e

theorem der_writes {nt : Nt} {w : List Token} {t : nt.T} (h : Der nt w t) : Written nt w t := by
  induction h with
  | ref a ha => exact ⟨.mac a.text, fun l => .mac l a ha, same_mac _⟩
  | not n w t hn _ ih =>
    obtain ⟨c, hc, hs⟩ := ih
    exact ⟨.not c, fun l => .not l n c w hn (hc 2), same_not hs⟩
  | exist a o ha ho => exact ⟨.exist a.text, fun l => .exist l a o ha ho, same_exist _⟩
  | binop a o b op ha ho hb => exact ⟨.cmp op a.text b.text, fun l => .cmp l a o b op ha ho hb, same_cmp _ _ _⟩
  | inList a o l r w args ha ho hl hw hr => exact ⟨.isIn a.text args, fun lv => .isIn lv a o l r w args ha ho hl hw hr, same_isIn _ _⟩
  | pmatch a o l r w args ha ho hl hw hr => exact ⟨.pmatch a.text args, fun lv => .pmatch lv a o l r w args ha ho hl hw hr, same_pmatch _ _⟩
  | paren l r w e hl _ hr ih =>
    obtain ⟨c, hc, hs⟩ := ih
    exact ⟨c, fun lv => .paren lv l r c w hl hr hc, sameT_paren hs⟩
  | conjOne w t _ ih =>
    obtain ⟨c, hc, hs⟩ := ih
    exact ⟨c, fun l _ => hc l, sameC_of hs⟩
  | conjMore w w' o t ts _ ho _ ih1 ih2 =>
    obtain ⟨c, hc, hs⟩ := ih1
    obtain ⟨d, hd, hs'⟩ := ih2
    exact ⟨.and c d, fun l hl => .and l o c d w w' hl ho (hc 1) (hd 1 (Nat.le_refl _)), same_and (sameC_of hs) hs'⟩
  | exprOne w c _ ih =>
    obtain ⟨d, hd, hs⟩ := ih
    exact ⟨d, hd 0 (by omega), sameE_of hs⟩
  | exprMore w w' o c cs _ ho _ ih1 ih2 =>
    obtain ⟨d, hd, hs⟩ := ih1
    obtain ⟨d', hd', hs'⟩ := ih2
    exact ⟨.or d d', .or 0 o d d' w w' rfl ho (hd 0 (by omega)) hd', same_or (sameE_of hs) hs'⟩

/-! ### Results -/

/-- **C67** A sequence of tokens is accepted exactly if it is a way of writing some condition. -/
theorem accepted_iff (w : List Token) : (∃ e, parse w = some e) ↔ ∃ c, Writes 0 c w := by
  constructor
  · rintro ⟨e, h⟩
    obtain ⟨c, hc, _⟩ := der_writes ((parse_iff w e).mp h)
    exact ⟨c, hc⟩
  · rintro ⟨c, h⟩
    obtain ⟨⟨e, hd, _⟩, _, _⟩ := writes_der h
    exact ⟨e, (parse_iff w e).mpr hd⟩

/-- **C67** The parsed condition means what was written: `not` applies to the part after it, `and` binds tighter than `or`, parentheses
group; and two conditions that are written the same way mean the same. -/
theorem written_meaning {R : Type} {w : List Token} {c : Cond} {e : Expr} (hw : Writes 0 c w) (he : parse w = some e) (ops : Operations R) (env : Env) (r : R)
    (b : Bool) : ExprVal ops env r e b ↔ CondVal ops env r c b := by
  obtain ⟨⟨e', hd, hs⟩, _, _⟩ := writes_der hw
  rw [(parse_iff w e').mpr hd] at he
  cases he
  exact hs ops env r b

/-- **C67** From the text of a condition to the compiled criterion: however the words are laid out, the criterion evaluates on
every record to the truth value of the condition as written. -/
theorem condition_text_meaning {R : Type} {str : Str → Option Nat} (hs : StrRule str) {ts : List LTok} {s : Str} (hl : Lay ts s) {c : Cond}
    (hw : Writes 0 c (ts.map (·.tok))) :
    ∃ e, parse (tokens str s) = some e ∧ ∀ (ops : Operations R) (env : Env) (crit : Criterion R), Compiles ops env e crit →
      ∀ (r : R) (b : Bool), crit.eval r = b ↔ CondVal ops env r c b := by
  rw [lay_visible hs hl]
  obtain ⟨e, he⟩ := (accepted_iff _).mpr ⟨c, hw⟩
  refine ⟨e, he, ?_⟩
  intro ops env crit hc r b
  rw [← falco_condition_meaning ops env e crit hc r b]
  exact written_meaning hw he ops env r b

/-- A token that no part of a condition can be: it is not an atom, an operator or one of the marks. -/
def foreign (k : Tok) : Bool :=
  !(isAtom k || isOp k || k = .NOT || k = .AND || k = .OR || k = .LPAREN || k = .RPAREN || k = .LBRACK || k = .RBRACK || k = .LISTSEP)

theorem gseq_native {w : List Token} (h : GSeq w) : ∀ t ∈ w, foreign t.kind = false := by
  have hat : ∀ k : Tok, isAtom k = true → foreign k = false := fun k hk => by simp [foreign, hk]
  induction h with
  | one a ha => intro t ht; rw [List.mem_singleton] at ht; subst ht; exact hat _ ha
  | cons a c w ha hc _ ih =>
    intro t ht
    rcases List.mem_cons.mp ht with rfl | ht
    · exact hat _ ha
    · rcases List.mem_cons.mp ht with rfl | ht
      · rw [hc]; rfl
      · exact ih t ht

theorem gargs_native {w : List Token} {as : List Arg} (h : GArgs w as) : ∀ t ∈ w, foreign t.kind = false := by
  have hat : ∀ k : Tok, isAtom k = true → foreign k = false := fun k hk => by simp [foreign, hk]
  have harg : ∀ {w : List Token} {a : Arg}, GArg w a → ∀ t ∈ w, foreign t.kind = false := by
    intro w a h
    cases h with
    | atom a ha => intro t ht; rw [List.mem_singleton] at ht; subst ht; exact hat _ ha
    | items w hw =>
      cases hw with
      | empty l r hl hr =>
        intro t ht
        simp only [List.mem_cons, List.not_mem_nil, or_false] at ht
        rcases ht with rfl | rfl
        · rw [hl]; rfl
        · rw [hr]; rfl
      | sep l c r hl hc hr =>
        intro t ht
        simp only [List.mem_cons, List.not_mem_nil, or_false] at ht
        rcases ht with rfl | rfl | rfl
        · rw [hl]; rfl
        · rw [hc]; rfl
        · rw [hr]; rfl
      | seq l r w hl hw hr =>
        intro t ht
        simp only [List.mem_cons, List.mem_append, List.not_mem_nil, or_false] at ht
        rcases ht with rfl | ht | rfl
        · rw [hl]; rfl
        · exact gseq_native hw t ht
        · rw [hr]; rfl
      | seqSep l c r w hl hw hc hr =>
        intro t ht
        simp only [List.mem_cons, List.mem_append, List.not_mem_nil, or_false] at ht
        rcases ht with rfl | ht | rfl | rfl
        · rw [hl]; rfl
        · exact gseq_native hw t ht
        · rw [hc]; rfl
        · rw [hr]; rfl
  induction h with
  | one w a ha => exact harg ha
  | cons w a c w' as ha hc _ ih =>
    intro t ht
    rcases List.mem_append.mp ht with ht | ht
    · exact harg ha t ht
    · rcases List.mem_cons.mp ht with rfl | ht
      · rw [hc]; rfl
      · exact ih t ht

/-- Every token of a written condition can be part of a condition. -/
theorem writes_native {l : Nat} {c : Cond} {w : List Token} (h : Writes l c w) : ∀ t ∈ w, foreign t.kind = false := by
  have hat : ∀ k : Tok, isAtom k = true → foreign k = false := fun k hk => by simp [foreign, hk]
  have hop : ∀ k : Tok, isOp k = true → foreign k = false := fun k hk => by simp [foreign, hk]
  have hlist : ∀ (a o lp rp : Token) (w : List Token) (args : List Arg), isAtom a.kind = true → isOp o.kind = true → lp.kind = .LPAREN → GArgs w args →
      rp.kind = .RPAREN → ∀ t ∈ a :: o :: lp :: (w ++ [rp]), foreign t.kind = false := by
    intro a o lp rp w args ha ho hl hw hr t ht
    simp only [List.mem_cons, List.mem_append, List.not_mem_nil, or_false] at ht
    rcases ht with rfl | rfl | rfl | ht | rfl
    · exact hat _ ha
    · exact hop _ ho
    · rw [hl]; rfl
    · exact gargs_native hw t ht
    · rw [hr]; rfl
  induction h with
  | mac l a ha => intro t ht; rw [List.mem_singleton] at ht; subst ht; rw [ha]; rfl
  | exist l a o ha ho =>
    intro t ht
    simp only [List.mem_cons, List.not_mem_nil, or_false] at ht
    rcases ht with rfl | rfl
    · exact hat _ ha
    · rw [ho]; rfl
  | cmp l a o b op ha ho hb =>
    intro t ht
    simp only [List.mem_cons, List.not_mem_nil, or_false] at ht
    rcases ht with rfl | rfl | rfl
    · exact hat _ ha
    · exact hop _ (by simp [isOp, ho])
    · exact hat _ hb
  | isIn l a o lp rp w args ha ho hl hw hr => exact hlist a o lp rp w args ha (by rw [ho]; rfl) hl hw hr
  | pmatch l a o lp rp w args ha ho hl hw hr => exact hlist a o lp rp w args ha (by rw [ho]; rfl) hl hw hr
  | not l n c w hn _ ih =>
    intro t ht
    rcases List.mem_cons.mp ht with rfl | ht
    · rw [hn]; rfl
    · exact ih t ht
  | and l o c d w w' _ ho _ _ ih1 ih2 =>
    intro t ht
    rcases List.mem_append.mp ht with ht | ht
    · exact ih1 t ht
    · rcases List.mem_cons.mp ht with rfl | ht
      · rw [ho]; rfl
      · exact ih2 t ht
  | or l o c d w w' _ ho _ _ ih1 ih2 =>
    intro t ht
    rcases List.mem_append.mp ht with ht | ht
    · exact ih1 t ht
    · rcases List.mem_cons.mp ht with rfl | ht
      · rw [ho]; rfl
      · exact ih2 t ht
  | paren l lp rp c w hl hr _ ih =>
    intro t ht
    simp only [List.mem_cons, List.mem_append, List.not_mem_nil, or_false] at ht
    rcases ht with rfl | ht | rfl
    · rw [hl]; rfl
    · exact ih t ht
    · rw [hr]; rfl

/-- **C67** A severity (`low`, `Info`, ...) or one of the words of the rule syntax (`rule`, `name`, `output`, `tags`, ...) written
without quotes anywhere in a condition, for instance as a value, makes the condition be rejected. -/
theorem reserved_word_rejected {str : Str → Option Nat} (hs : StrRule str) {ts : List LTok} {s : Str} (hl : Lay ts s) {t : LTok} (ht : t ∈ ts)
    (hf : foreign t.tok.kind = true) : parse (tokens str s) = none := by
  rw [lay_visible hs hl]
  cases hp : parse (ts.map (·.tok)) with
  | none => rfl
  | some e =>
    obtain ⟨c, hc⟩ := (accepted_iff _).mp ⟨e, hp⟩
    have := writes_native hc t.tok (List.mem_map_of_mem ht)
    rw [hf] at this
    cases this

/-- **C67** In particular no comparison with an unquoted severity is accepted. -/
example : foreign .SEVERITY = true ∧ foreign .RULE = true ∧ foreign .NAME = true ∧ foreign .OUTPUT = true ∧ foreign .ID = false := by decide

/-! ### Examples -/

/-- `a = 1 or not b exists and (c or d)` groups as expected. -/
example : Writes 0 (.or (.cmp .eq "a".toList "1".toList) (.and (.not (.exist "b".toList)) (.or (.mac "c".toList) (.mac "d".toList))))
    (tokens simpleStr "a = 1 or not b exists and (c or d) # done".toList) := by
  have h : tokens simpleStr "a = 1 or not b exists and (c or d) # done".toList =
      [⟨.ID, "a".toList⟩, ⟨.EQ, "=".toList⟩, ⟨.ID, "1".toList⟩] ++ ⟨.OR, "or".toList⟩ :: ((⟨.NOT, "not".toList⟩ :: [⟨.ID, "b".toList⟩, ⟨.EXISTS, "exists".toList⟩]) ++
        ⟨.AND, "and".toList⟩ :: (⟨.LPAREN, "(".toList⟩ :: (([⟨.ID, "c".toList⟩] ++ ⟨.OR, "or".toList⟩ :: [⟨.ID, "d".toList⟩]) ++ [⟨.RPAREN, ")".toList⟩]))) := by
    decide +kernel
  rw [h]
  have hb : Writes 2 (.exist "b".toList) [⟨.ID, "b".toList⟩, ⟨.EXISTS, "exists".toList⟩] :=
    .exist 2 ⟨.ID, "b".toList⟩ ⟨.EXISTS, "exists".toList⟩ rfl rfl
  have hc : Writes 0 (.mac "c".toList) [⟨.ID, "c".toList⟩] := .mac 0 ⟨.ID, "c".toList⟩ rfl
  have hd : Writes 0 (.mac "d".toList) [⟨.ID, "d".toList⟩] := .mac 0 ⟨.ID, "d".toList⟩ rfl
  have ha : Writes 0 (.cmp .eq "a".toList "1".toList) [⟨.ID, "a".toList⟩, ⟨.EQ, "=".toList⟩, ⟨.ID, "1".toList⟩] :=
    .cmp 0 ⟨.ID, "a".toList⟩ ⟨.EQ, "=".toList⟩ ⟨.ID, "1".toList⟩ .eq rfl rfl rfl
  exact .or 0 _ _ _ _ _ rfl rfl ha (.and 0 _ _ _ _ _ (by omega) rfl (.not 1 _ _ _ rfl hb) (.paren 1 _ _ _ _ rfl rfl (.or 0 _ _ _ _ _ rfl rfl hc hd)))

end Verif.Falco
