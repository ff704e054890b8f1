import Verif.Falco.Parser
/-
The parser accepts exactly the grammar, and every condition has one reading.
-/
namespace Verif.Falco
open Verif.Decimal (Str)

/-! ### Lists of atoms -/

theorem pClose_ok (rest : List Token) (r : Token) (hr : r.kind = .RBRACK) : pClose (r :: rest) = some ([r], rest) := by
  cases rest with
  | nil => rw [pClose, if_pos hr]
  | cons b r' => rw [pClose, if_pos hr]

theorem pClose_sep (rest : List Token) (c r : Token) (hc : c.kind = .LISTSEP) (hr : r.kind = .RBRACK) :
    pClose (c :: r :: rest) = some ([c, r], rest) := by
  have : ¬ c.kind = .RBRACK := by rw [hc]; decide
  rw [pClose, if_neg this, if_pos ⟨hc, hr⟩]

theorem pClose_sound {ts w rest : List Token} (h : pClose ts = some (w, rest)) : ts = w ++ rest ∧
    ((∃ r, r.kind = Tok.RBRACK ∧ w = [r]) ∨ ∃ c r, c.kind = Tok.LISTSEP ∧ r.kind = Tok.RBRACK ∧ w = [c, r]) := by
  unfold pClose at h
  split at h
  · cases h
  · next a =>
    split at h
    · next ha =>
      simp only [Option.some.injEq, Prod.mk.injEq] at h
      obtain ⟨rfl, rfl⟩ := h
      exact ⟨rfl, .inl ⟨a, ha, rfl⟩⟩
    · cases h
  · next a b r =>
    split at h
    · next ha =>
      simp only [Option.some.injEq, Prod.mk.injEq] at h
      obtain ⟨rfl, rfl⟩ := h
      exact ⟨rfl, .inl ⟨a, ha, rfl⟩⟩
    · split at h
      · next hab =>
        simp only [Option.some.injEq, Prod.mk.injEq] at h
        obtain ⟨rfl, rfl⟩ := h
        exact ⟨rfl, .inr ⟨a, b, hab.1, hab.2, rfl⟩⟩
      · cases h

/-- After a list of atoms the loop stops at the bracket or separator that follows. -/
theorem pMore_seq {w : List Token} (hw : GSeq w) (rest : List Token)
    (hstop : ∀ c a r, rest = c :: a :: r → ¬ (c.kind = .LISTSEP ∧ isAtom a.kind = true)) :
    ∃ a w', w = a :: w' ∧ isAtom a.kind = true ∧ pMore (w' ++ rest) = (w', rest) := by
  induction hw with
  | one a ha =>
    refine ⟨a, [], rfl, ha, ?_⟩
    rw [List.nil_append]
    unfold pMore
    split
    · next c b r => rw [if_neg (hstop c b r rfl)]
    · rfl
  | cons a c w ha hc _ ih =>
    obtain ⟨b, w', rfl, hb, hm⟩ := ih
    refine ⟨a, c :: b :: w', rfl, ha, ?_⟩
    rw [List.cons_append, List.cons_append, pMore, if_pos ⟨hc, hb⟩, hm]

theorem pMore_sound (r : List Token) : r = (pMore r).1 ++ (pMore r).2 ∧ ∀ a : Token, isAtom a.kind = true → GSeq (a :: (pMore r).1) := by
  fun_induction pMore r with
  | case1 c a r h ih =>
    refine ⟨?_, fun b hb => ?_⟩
    · simp only [List.cons_append, List.cons.injEq, true_and]; exact ih.1
    · exact .cons b c _ hb h.1 (ih.2 a h.2)
  | case2 c a r h => exact ⟨rfl, fun b hb => .one b hb⟩
  | case3 ts => exact ⟨rfl, fun b hb => .one b hb⟩

theorem pItems_complete {w : List Token} (hw : GItems w) : ∃ l w', w = l :: w' ∧ l.kind = .LBRACK ∧ ∀ rest, pItems (w' ++ rest) = some (w', rest) := by
  have hna : ∀ t : Token, t.kind = .RBRACK ∨ t.kind = .LISTSEP → ¬ isAtom t.kind = true := by
    intro t h
    rcases h with h | h <;> rw [h] <;> decide
  cases hw with
  | empty l r hl hr =>
    refine ⟨l, [r], rfl, hl, fun rest => ?_⟩
    rw [List.cons_append, List.nil_append, pItems, if_neg (hna r (.inl hr)), pClose_ok rest r hr]
  | sep l c r hl hc hr =>
    refine ⟨l, [c, r], rfl, hl, fun rest => ?_⟩
    rw [List.cons_append, List.cons_append, List.nil_append, pItems, if_neg (hna c (.inr hc)), pClose_sep rest c r hc hr]
  | seq l r w hl hw hr =>
    refine ⟨l, w ++ [r], rfl, hl, fun rest => ?_⟩
    obtain ⟨a, w', rfl, ha, hm⟩ := pMore_seq hw (r :: rest) (fun c a r' h => by
      simp only [List.cons.injEq] at h
      rintro ⟨hc, _⟩
      rw [← h.1, hr] at hc
      cases hc)
    have e : a :: w' ++ [r] ++ rest = a :: (w' ++ (r :: rest)) := by simp
    rw [e, pItems, if_pos ha, hm]
    dsimp only
    rw [pClose_ok rest r hr]
    rfl
  | seqSep l c r w hl hw hc hr =>
    refine ⟨l, w ++ [c, r], rfl, hl, fun rest => ?_⟩
    obtain ⟨a, w', rfl, ha, hm⟩ := pMore_seq hw (c :: r :: rest) (fun c' a r' h => by
      simp only [List.cons.injEq] at h
      rintro ⟨_, ha⟩
      rw [← h.2.1] at ha
      exact hna r (.inl hr) ha)
    have e : a :: w' ++ [c, r] ++ rest = a :: (w' ++ (c :: r :: rest)) := by simp
    rw [e, pItems, if_pos ha, hm]
    dsimp only
    rw [pClose_sep rest c r hc hr]
    rfl

theorem pItems_sound {ts w rest : List Token} (h : pItems ts = some (w, rest)) : ts = w ++ rest ∧ ∀ l : Token, l.kind = .LBRACK → GItems (l :: w) := by
  cases ts with
  | nil => cases h
  | cons a r =>
    rw [pItems] at h
    split at h
    · next ha =>
      obtain ⟨x, hx, he⟩ := Option.map_eq_some_iff.mp h
      obtain ⟨x1, x2⟩ := x
      simp only [Prod.mk.injEq] at he
      obtain ⟨rfl, rfl⟩ := he
      obtain ⟨h1, h2⟩ := pClose_sound hx
      obtain ⟨h3, h4⟩ := pMore_sound r
      refine ⟨?_, fun l hl => ?_⟩
      · rw [h1] at h3
        rw [List.cons_append, List.append_assoc, ← h3]
      · rcases h2 with ⟨c, hc, rfl⟩ | ⟨c, d, hc, hd, rfl⟩
        · exact .seq l c (a :: (pMore r).1) hl (h4 a ha) hc
        · exact .seqSep l c d (a :: (pMore r).1) hl (h4 a ha) hc hd
    · obtain ⟨h1, h2⟩ := pClose_sound h
      refine ⟨h1, fun l hl => ?_⟩
      rcases h2 with ⟨c, hc, rfl⟩ | ⟨c, d, hc, hd, rfl⟩
      · exact .empty l c hl hc
      · exact .sep l c d hl hc hd

/-! ### Arguments -/

theorem pArg_complete {w : List Token} {a : Arg} (h : GArg w a) (rest : List Token) : pArg (w ++ rest) = some (a, rest) := by
  cases h with
  | atom t ht => rw [List.cons_append, List.nil_append, pArg, if_pos ht]
  | items w hw =>
    obtain ⟨l, w', rfl, hl, hp⟩ := pItems_complete hw
    have : ¬ isAtom l.kind = true := by rw [hl]; decide
    rw [List.cons_append, pArg, if_neg this, if_pos hl, hp rest]
    rfl

theorem pArg_sound {ts rest : List Token} {a : Arg} (h : pArg ts = some (a, rest)) : ∃ w, ts = w ++ rest ∧ GArg w a := by
  cases ts with
  | nil => cases h
  | cons t r =>
    rw [pArg] at h
    split at h
    · next ht =>
      simp only [Option.some.injEq, Prod.mk.injEq] at h
      obtain ⟨rfl, rfl⟩ := h
      exact ⟨[t], rfl, .atom t ht⟩
    · split at h
      · next hl =>
        obtain ⟨x, hx, he⟩ := Option.map_eq_some_iff.mp h
        obtain ⟨x1, x2⟩ := x
        simp only [Prod.mk.injEq] at he
        obtain ⟨rfl, rfl⟩ := he
        obtain ⟨h1, h2⟩ := pItems_sound hx
        exact ⟨t :: x1, by rw [h1]; rfl, .items _ (h2 t hl)⟩
      · cases h

theorem gArg_ne {w : List Token} {a : Arg} (h : GArg w a) : 0 < w.length := by
  cases h with
  | atom t ht => simp
  | items w hw => cases hw <;> simp

theorem pArgs_complete {w : List Token} {as : List Arg} (h : GArgs w as) : ∀ (n : Nat), w.length ≤ n → ∀ (r : Token) (rest : List Token),
    r.kind = .RPAREN → pArgs n (w ++ r :: rest) = some (as, rest) := by
  induction h with
  | one w a ha =>
    intro n hn r rest hr
    have := gArg_ne ha
    obtain ⟨n, rfl⟩ : ∃ m, n = m + 1 := ⟨n - 1, by omega⟩
    have hc : ¬ r.kind = .LISTSEP := by rw [hr]; decide
    rw [pArgs, pArg_complete ha]
    dsimp only
    rw [if_neg hc, if_pos hr]
  | cons w a c w' as ha hc _ ih =>
    intro n hn r rest hr
    have := gArg_ne ha
    rw [List.length_append, List.length_cons] at hn
    obtain ⟨n, rfl⟩ : ∃ m, n = m + 1 := ⟨n - 1, by omega⟩
    have e : w ++ c :: w' ++ r :: rest = w ++ (c :: (w' ++ r :: rest)) := by simp
    rw [e, pArgs, pArg_complete ha]
    dsimp only
    rw [if_pos hc, ih n (by omega) r rest hr]
    rfl

theorem pArgs_sound : ∀ (n : Nat) {ts rest : List Token} {as : List Arg}, pArgs n ts = some (as, rest) →
    ∃ w r, ts = w ++ r :: rest ∧ r.kind = .RPAREN ∧ GArgs w as := by
  intro n
  induction n with
  | zero => intro ts rest as h; cases h
  | succ n ih =>
    intro ts rest as h
    rw [pArgs] at h
    split at h
    · next a c r hp =>
      obtain ⟨w, rfl, hw⟩ := pArg_sound hp
      split at h
      · next hc =>
        obtain ⟨x, hx, he⟩ := Option.map_eq_some_iff.mp h
        obtain ⟨x1, x2⟩ := x
        simp only [Prod.mk.injEq] at he
        obtain ⟨rfl, rfl⟩ := he
        obtain ⟨w2, r2, rfl, hr2, hw2⟩ := ih hx
        exact ⟨w ++ c :: w2, r2, by simp, hr2, .cons w a c w2 x1 hw hc hw2⟩
      · split at h
        · next hr =>
          simp only [Option.some.injEq, Prod.mk.injEq] at h
          obtain ⟨rfl, rfl⟩ := h
          exact ⟨w, c, rfl, hr, .one w a hw⟩
        · cases h
    · cases h

/-! ### Terms -/

theorem isAtom_not {k : Tok} (h : isAtom k = true) : k ≠ .NOT ∧ k ≠ .LPAREN := by
  cases k <;> first | exact absurd h (by decide) | exact ⟨by decide, by decide⟩

theorem binOp_not {k : Tok} {op : BinOp} (h : binOp k = some op) : k ≠ .EXISTS ∧ k ≠ .IN ∧ k ≠ .PMATCH := by
  refine ⟨?_, ?_, ?_⟩ <;> (rintro rfl; cases h)

/-- The tokens that may not follow a term, conjunction, expression. -/
def Follow (p : Tok → Bool) (rest : List Token) : Prop := ∀ t r, rest = t :: r → p t.kind = false

def stopTerm (k : Tok) : Bool := isOp k
def stopConj (k : Tok) : Bool := isOp k || k = .AND
def stopExpr (k : Tok) : Bool := isOp k || k = .AND || k = .OR

theorem follow_term_conj {rest : List Token} (h : Follow stopConj rest) : Follow stopTerm rest := by
  intro t r e
  have := h t r e
  simp only [stopConj, Bool.or_eq_false_iff] at this
  exact this.1

theorem follow_conj_expr {rest : List Token} (h : Follow stopExpr rest) : Follow stopConj rest := by
  intro t r e
  have := h t r e
  simp only [stopExpr, Bool.or_eq_false_iff] at this
  simp only [stopConj, Bool.or_eq_false_iff]
  exact this.1

theorem pAtomic_ref (n : Nat) {a : Token} (ha : a.kind = .ID) {rest : List Token} (hf : Follow stopTerm rest) :
    pAtomic n a rest = some (.ref a.text, rest) := by
  cases rest with
  | nil => rw [pAtomic, if_pos ha]
  | cons o r =>
    have ho := hf o r rfl
    simp only [stopTerm, isOp, Bool.or_eq_false_iff, decide_eq_false_iff_not] at ho
    obtain ⟨⟨⟨h1, h2⟩, h3⟩, h4⟩ := ho
    rw [pAtomic, if_neg h2, if_neg h3, if_neg h4]
    have : binOp o.kind = none := by
      cases hb : binOp o.kind with
      | none => rfl
      | some _ => rw [hb] at h1; cases h1
    rw [this]
    dsimp only
    rw [if_pos ha]

/-- What the parser does on a derivation, with enough fuel and a follower that cannot continue it. -/
def Good : (nt : Nt) → List Token → nt.T → Prop
  | .term, w, t => 0 < w.length ∧ ∀ n, 3 * w.length ≤ n → ∀ rest, Follow stopTerm rest → pTerm n (w ++ rest) = some (t, rest)
  | .conj, w, t => 0 < w.length ∧ ∀ n, 3 * w.length + 1 ≤ n → ∀ rest, Follow stopConj rest → pConj n (w ++ rest) = some (t, rest)
  | .expr, w, t => 0 < w.length ∧ ∀ n, 3 * w.length + 2 ≤ n → ∀ rest, Follow stopExpr rest → pExpr n (w ++ rest) = some (t, rest)

theorem follow_cons {p : Tok → Bool} {t : Token} {r : List Token} (h : p t.kind = false) : Follow p (t :: r) := by
  intro t' r' e
  simp only [List.cons.injEq] at e
  rw [← e.1]; exact h

theorem pTerm_atom (n : Nat) {a : Token} (ha : isAtom a.kind = true) (r : List Token) : pTerm (n + 1) (a :: r) = pAtomic n a r := by
  obtain ⟨h1, h2⟩ := isAtom_not ha
  rw [pTerm, if_neg h1, if_neg h2, if_pos ha]

theorem good_of_der {nt : Nt} {w : List Token} {t : nt.T} (h : Der nt w t) : Good nt w t := by
  induction h with
  | ref a ha =>
    refine ⟨by simp, fun n hn rest hf => ?_⟩
    simp only [List.length_cons, List.length_nil] at hn
    obtain ⟨n, rfl⟩ : ∃ m, n = m + 1 := ⟨n - 1, by omega⟩
    rw [List.cons_append, List.nil_append, pTerm_atom n (by rw [ha]; rfl), pAtomic_ref n ha hf]
  | not o w t ho _ ih =>
    obtain ⟨h1, h2⟩ := ih
    refine ⟨by simp, fun n hn rest hf => ?_⟩
    simp only [List.length_cons] at hn
    obtain ⟨n, rfl⟩ : ∃ m, n = m + 1 := ⟨n - 1, by omega⟩
    rw [List.cons_append, pTerm, if_pos ho, h2 n (by omega) rest hf]
    rfl
  | exist a o ha ho =>
    refine ⟨by simp, fun n hn rest hf => ?_⟩
    simp only [List.length_cons, List.length_nil] at hn
    obtain ⟨n, rfl⟩ : ∃ m, n = m + 1 := ⟨n - 1, by omega⟩
    rw [List.cons_append, List.cons_append, List.nil_append, pTerm_atom n ha, pAtomic, if_pos ho]
  | binop a o b op ha ho hb =>
    refine ⟨by simp, fun n hn rest hf => ?_⟩
    simp only [List.length_cons, List.length_nil] at hn
    obtain ⟨n, rfl⟩ : ∃ m, n = m + 1 := ⟨n - 1, by omega⟩
    obtain ⟨g1, g2, g3⟩ := binOp_not ho
    rw [List.cons_append, List.cons_append, List.cons_append, List.nil_append, pTerm_atom n ha, pAtomic, if_neg g1, if_neg g2, if_neg g3, ho]
    dsimp only
    rw [pAtom, if_pos hb]
    rfl
  | inList a o l r w args ha ho hl hw hr =>
    refine ⟨by simp, fun n hn rest hf => ?_⟩
    simp only [List.length_cons, List.length_append, List.length_nil] at hn
    obtain ⟨n, rfl⟩ : ∃ m, n = m + 1 := ⟨n - 1, by omega⟩
    have hne : ¬ o.kind = .EXISTS := by rw [ho]; decide
    have e : a :: o :: l :: (w ++ [r]) ++ rest = a :: o :: l :: (w ++ r :: rest) := by simp
    rw [e, pTerm_atom n ha, pAtomic, if_neg hne, if_pos ho, pList, if_pos hl, pArgs_complete hw n (by omega) r rest hr]
    rfl
  | pmatch a o l r w args ha ho hl hw hr =>
    refine ⟨by simp, fun n hn rest hf => ?_⟩
    simp only [List.length_cons, List.length_append, List.length_nil] at hn
    obtain ⟨n, rfl⟩ : ∃ m, n = m + 1 := ⟨n - 1, by omega⟩
    have hne : ¬ o.kind = .EXISTS := by rw [ho]; decide
    have hni : ¬ o.kind = .IN := by rw [ho]; decide
    have e : a :: o :: l :: (w ++ [r]) ++ rest = a :: o :: l :: (w ++ r :: rest) := by simp
    rw [e, pTerm_atom n ha, pAtomic, if_neg hne, if_neg hni, if_pos ho, pList, if_pos hl, pArgs_complete hw n (by omega) r rest hr]
    rfl
  | paren l r w e hl _ hr ih =>
    obtain ⟨h1, h2⟩ := ih
    refine ⟨by simp, fun n hn rest hf => ?_⟩
    simp only [List.length_cons, List.length_append, List.length_nil] at hn
    obtain ⟨n, rfl⟩ : ∃ m, n = m + 1 := ⟨n - 1, by omega⟩
    have hnn : ¬ l.kind = .NOT := by rw [hl]; decide
    have e' : l :: (w ++ [r]) ++ rest = l :: (w ++ r :: rest) := by simp
    rw [e', pTerm, if_neg hnn, if_pos hl, h2 n (by omega) (r :: rest) (follow_cons (by rw [hr]; decide))]
    dsimp only
    rw [if_pos hr]
  | conjOne w t _ ih =>
    obtain ⟨h1, h2⟩ := ih
    refine ⟨h1, fun n hn rest hf => ?_⟩
    obtain ⟨n, rfl⟩ : ∃ m, n = m + 1 := ⟨n - 1, by omega⟩
    rw [pConj, h2 n (by omega) rest (follow_term_conj hf)]
    cases rest with
    | nil => rfl
    | cons o r =>
      have := hf o r rfl
      simp only [stopConj, Bool.or_eq_false_iff, decide_eq_false_iff_not] at this
      dsimp only
      rw [if_neg this.2]
  | conjMore w w' o t ts _ ho _ ih1 ih2 =>
    obtain ⟨h1, h2⟩ := ih1
    obtain ⟨h3, h4⟩ := ih2
    refine ⟨by rw [List.length_append]; omega, fun n hn rest hf => ?_⟩
    simp only [List.length_append, List.length_cons] at hn
    obtain ⟨n, rfl⟩ : ∃ m, n = m + 1 := ⟨n - 1, by omega⟩
    have e : w ++ o :: w' ++ rest = w ++ (o :: (w' ++ rest)) := by simp
    rw [e, pConj, h2 n (by omega) _ (follow_cons (by rw [ho]; decide))]
    dsimp only
    rw [if_pos ho, h4 n (by omega) rest hf]
    rfl
  | exprOne w c _ ih =>
    obtain ⟨h1, h2⟩ := ih
    refine ⟨h1, fun n hn rest hf => ?_⟩
    obtain ⟨n, rfl⟩ : ∃ m, n = m + 1 := ⟨n - 1, by omega⟩
    rw [pExpr, h2 n (by omega) rest (follow_conj_expr hf)]
    cases rest with
    | nil => rfl
    | cons o r =>
      have := hf o r rfl
      simp only [stopExpr, Bool.or_eq_false_iff, decide_eq_false_iff_not] at this
      dsimp only
      rw [if_neg this.2]
  | exprMore w w' o c cs _ ho _ ih1 ih2 =>
    obtain ⟨h1, h2⟩ := ih1
    obtain ⟨h3, h4⟩ := ih2
    refine ⟨by rw [List.length_append]; omega, fun n hn rest hf => ?_⟩
    simp only [List.length_append, List.length_cons] at hn
    obtain ⟨n, rfl⟩ : ∃ m, n = m + 1 := ⟨n - 1, by omega⟩
    have e : w ++ o :: w' ++ rest = w ++ (o :: (w' ++ rest)) := by simp
    rw [e, pExpr, h2 n (by omega) _ (follow_cons (by rw [ho]; decide))]
    dsimp only
    rw [if_pos ho, h4 n (by omega) rest hf]
    rfl

theorem pList_sound {n : Nat} {ts rest : List Token} {as : List Arg} (h : pList n ts = some (as, rest)) :
    ∃ l w c, ts = l :: (w ++ c :: rest) ∧ l.kind = .LPAREN ∧ c.kind = .RPAREN ∧ GArgs w as := by
  cases ts with
  | nil => cases h
  | cons l r =>
    rw [pList] at h
    split at h
    · next hl =>
      obtain ⟨w, c, rfl, hc, hw⟩ := pArgs_sound n h
      exact ⟨l, w, c, rfl, hl, hc, hw⟩
    · cases h

theorem pAtom_sound {ts rest : List Token} {x : Str} (h : pAtom ts = some (x, rest)) :
    ∃ b, ts = b :: rest ∧ isAtom b.kind = true ∧ b.text = x := by
  cases ts with
  | nil => cases h
  | cons b r =>
    rw [pAtom] at h
    split at h
    · next hb =>
      simp only [Option.some.injEq, Prod.mk.injEq] at h
      obtain ⟨rfl, rfl⟩ := h
      exact ⟨b, rfl, hb, rfl⟩
    · cases h

theorem pAtomic_sound {n : Nat} {a : Token} (ha : isAtom a.kind = true) {ts rest : List Token} {t : Term} (h : pAtomic n a ts = some (t, rest)) :
    ∃ w, ts = w ++ rest ∧ Der .term (a :: w) t := by
  cases ts with
  | nil =>
    rw [pAtomic] at h
    split at h
    · next hid =>
      simp only [Option.some.injEq, Prod.mk.injEq] at h
      obtain ⟨rfl, rfl⟩ := h
      exact ⟨[], rfl, .ref a hid⟩
    · cases h
  | cons o r =>
    rw [pAtomic] at h
    split at h
    · next ho =>
      simp only [Option.some.injEq, Prod.mk.injEq] at h
      obtain ⟨rfl, rfl⟩ := h
      exact ⟨[o], rfl, .exist a o ha ho⟩
    · split at h
      · next ho =>
        obtain ⟨x, hx, he⟩ := Option.map_eq_some_iff.mp h
        obtain ⟨x1, x2⟩ := x
        simp only [Prod.mk.injEq] at he
        obtain ⟨rfl, rfl⟩ := he
        obtain ⟨l, w, c, rfl, hl, hc, hw⟩ := pList_sound hx
        exact ⟨o :: l :: (w ++ [c]), by simp, .inList a o l c w x1 ha ho hl hw hc⟩
      · split at h
        · next ho =>
          obtain ⟨x, hx, he⟩ := Option.map_eq_some_iff.mp h
          obtain ⟨x1, x2⟩ := x
          simp only [Prod.mk.injEq] at he
          obtain ⟨rfl, rfl⟩ := he
          obtain ⟨l, w, c, rfl, hl, hc, hw⟩ := pList_sound hx
          exact ⟨o :: l :: (w ++ [c]), by simp, .pmatch a o l c w x1 ha ho hl hw hc⟩
        · split at h
          · next op hop =>
            obtain ⟨x, hx, he⟩ := Option.map_eq_some_iff.mp h
            obtain ⟨x1, x2⟩ := x
            simp only [Prod.mk.injEq] at he
            obtain ⟨rfl, rfl⟩ := he
            obtain ⟨b, rfl, hb, rfl⟩ := pAtom_sound hx
            exact ⟨[o, b], rfl, .binop a o b op ha hop hb⟩
          · split at h
            · next hid =>
              simp only [Option.some.injEq, Prod.mk.injEq] at h
              obtain ⟨rfl, rfl⟩ := h
              exact ⟨[], rfl, .ref a hid⟩
            · cases h

theorem parser_sound (n : Nat) :
    (∀ {ts rest : List Token} {t : Term}, pTerm n ts = some (t, rest) → ∃ w, ts = w ++ rest ∧ Der .term w t) ∧
    (∀ {ts rest : List Token} {c : List Term}, pConj n ts = some (c, rest) → ∃ w, ts = w ++ rest ∧ Der .conj w c) ∧
    (∀ {ts rest : List Token} {e : List (List Term)}, pExpr n ts = some (e, rest) → ∃ w, ts = w ++ rest ∧ Der .expr w e) := by
  induction n with
  | zero =>
    refine ⟨fun h => ?_, fun h => ?_, fun h => ?_⟩
    · rw [pTerm] at h; cases h
    · rw [pConj] at h; cases h
    · rw [pExpr] at h; cases h
  | succ n ih =>
    obtain ⟨iht, ihc, ihe⟩ := ih
    refine ⟨?_, ?_, ?_⟩
    · intro ts rest t h
      cases ts with
      | nil => rw [pTerm] at h; cases h
      | cons a r =>
        rw [pTerm] at h
        split at h
        · next hn =>
          obtain ⟨x, hx, he⟩ := Option.map_eq_some_iff.mp h
          obtain ⟨x1, x2⟩ := x
          simp only [Prod.mk.injEq] at he
          obtain ⟨rfl, rfl⟩ := he
          obtain ⟨w, rfl, hw⟩ := iht hx
          exact ⟨a :: w, rfl, .not a w x1 hn hw⟩
        · split at h
          · next hl =>
            split at h
            · next e c r' hx =>
              split at h
              · next hc =>
                simp only [Option.some.injEq, Prod.mk.injEq] at h
                obtain ⟨rfl, rfl⟩ := h
                obtain ⟨w, rfl, hw⟩ := ihe hx
                exact ⟨a :: (w ++ [c]), by simp, .paren a c w e hl hw hc⟩
              · cases h
            · cases h
          · split at h
            · next ha =>
              obtain ⟨w, rfl, hw⟩ := pAtomic_sound ha h
              exact ⟨a :: w, rfl, hw⟩
            · cases h
    · intro ts rest c h
      rw [pConj] at h
      split at h
      · next t o r hx =>
        obtain ⟨w, rfl, hw⟩ := iht hx
        split at h
        · next ho =>
          obtain ⟨x, hx, he⟩ := Option.map_eq_some_iff.mp h
          obtain ⟨x1, x2⟩ := x
          simp only [Prod.mk.injEq] at he
          obtain ⟨rfl, rfl⟩ := he
          obtain ⟨w', rfl, hw'⟩ := ihc hx
          exact ⟨w ++ o :: w', by simp, .conjMore w w' o t x1 hw ho hw'⟩
        · simp only [Option.some.injEq, Prod.mk.injEq] at h
          obtain ⟨rfl, rfl⟩ := h
          exact ⟨w, rfl, .conjOne w t hw⟩
      · next t hx =>
        obtain ⟨w, hw1, hw⟩ := iht hx
        simp only [Option.some.injEq, Prod.mk.injEq] at h
        obtain ⟨rfl, rfl⟩ := h
        exact ⟨w, hw1, .conjOne w t hw⟩
      · cases h
    · intro ts rest e h
      rw [pExpr] at h
      split at h
      · next c o r hx =>
        obtain ⟨w, rfl, hw⟩ := ihc hx
        split at h
        · next ho =>
          obtain ⟨x, hx, he⟩ := Option.map_eq_some_iff.mp h
          obtain ⟨x1, x2⟩ := x
          simp only [Prod.mk.injEq] at he
          obtain ⟨rfl, rfl⟩ := he
          obtain ⟨w', rfl, hw'⟩ := ihe hx
          exact ⟨w ++ o :: w', by simp, .exprMore w w' o c x1 hw ho hw'⟩
        · simp only [Option.some.injEq, Prod.mk.injEq] at h
          obtain ⟨rfl, rfl⟩ := h
          exact ⟨w, rfl, .exprOne w c hw⟩
      · next c hx =>
        obtain ⟨w, hw1, hw⟩ := ihc hx
        simp only [Option.some.injEq, Prod.mk.injEq] at h
        obtain ⟨rfl, rfl⟩ := h
        exact ⟨w, hw1, .exprOne w c hw⟩
      · cases h

/-! ### Results -/

/-- **C67** The parser accepts exactly the token sequences of the grammar, with their syntax trees. -/
theorem parse_iff (ts : List Token) (e : List (List Term)) : parse ts = some e ↔ Der .expr ts e := by
  unfold parse
  constructor
  · intro h
    split at h
    · next e' hx =>
      simp only [Option.some.injEq] at h
      subst h
      obtain ⟨w, hw, hd⟩ := (parser_sound _).2.2 hx
      rw [List.append_nil] at hw
      rw [hw]; exact hd
    · cases h
  · intro h
    obtain ⟨_, h2⟩ := good_of_der h
    have := h2 (3 * ts.length + 3) (by omega) [] (fun t r e => by cases e)
    rw [List.append_nil] at this
    rw [this]

/-- **C67** A condition has at most one reading: no sequence of tokens has two syntax trees (so whatever algorithm the
generated parser uses, a successful parse yields this tree). -/
theorem one_reading {ts : List Token} {e e' : List (List Term)} (h : Der .expr ts e) (h' : Der .expr ts e') : e = e' := by
  have h1 := (parse_iff ts e).mpr h
  have h2 := (parse_iff ts e').mpr h'
  rw [h1] at h2
  exact Option.some.inj h2

/-- **C67** Within a policy file a condition ends at the first token that cannot continue it: whatever follows, only one
beginning of the tokens is a condition that is followed by such a token. -/
theorem condition_end {w w' rest rest' : List Token} {e e' : List (List Term)} (h : Der .expr w e) (h' : Der .expr w' e')
    (heq : w ++ rest = w' ++ rest') (hf : Follow stopExpr rest) (hf' : Follow stopExpr rest') : w = w' ∧ e = e' ∧ rest = rest' := by
  obtain ⟨_, h2⟩ := good_of_der h
  obtain ⟨_, h2'⟩ := good_of_der h'
  have a := h2 (3 * w.length + 2 + (3 * w'.length + 2)) (by omega) rest hf
  have b := h2' (3 * w.length + 2 + (3 * w'.length + 2)) (by omega) rest' hf'
  rw [heq, b] at a
  simp only [Option.some.injEq, Prod.mk.injEq] at a
  obtain ⟨rfl, rfl⟩ := a
  exact ⟨List.append_cancel_right heq, rfl, rfl⟩

end Verif.Falco
