import Verif.Base.Decimal
/-
The order of Go strings.
-/
namespace Verif.Strings
open Verif.Decimal (Str)

/-- Comparison of Go strings (byte by byte; for UTF-8 the same as by code points). -/
def nameLe : Str → Str → Bool
  | [], _ => true
  | _ :: _, [] => false
  | c :: a, d :: b => if c.toNat < d.toNat then true else if d.toNat < c.toNat then false else nameLe a b

/-- The alphabetical order of names: the first is a proper beginning of the second, or has the smaller character at the first place where they differ. -/
def Precedes (a b : Str) : Prop :=
  (∃ c t, b = a ++ c :: t) ∨ ∃ p c d s t, a = p ++ c :: s ∧ b = p ++ d :: t ∧ c.toNat < d.toNat

theorem nameLe_iff : ∀ a b : Str, nameLe a b = true ↔ a = b ∨ Precedes a b := by
  intro a
  induction a with
  | nil =>
    intro b
    refine ⟨fun _ => ?_, fun _ => rfl⟩
    cases b with
    | nil => exact .inl rfl
    | cons c t => exact .inr (.inl ⟨c, t, rfl⟩)
  | cons x a ih =>
    intro b
    cases b with
    | nil =>
      refine ⟨fun h => (by cases h), ?_⟩
      rintro (h | ⟨c, t, h⟩ | ⟨p, c, d, s, t, h1, h2, h3⟩)
      · cases h
      · cases h
      · cases p <;> cases h2
    | cons y b =>
      rw [nameLe]
      by_cases h1 : x.toNat < y.toNat
      · rw [if_pos h1]
        exact ⟨fun _ => .inr (.inr ⟨[], x, y, a, b, rfl, rfl, h1⟩), fun _ => rfl⟩
      · rw [if_neg h1]
        by_cases h2 : y.toNat < x.toNat
        · rw [if_pos h2]
          refine ⟨fun h => (by cases h), ?_⟩
          rintro (h | ⟨c, t, h⟩ | ⟨p, c, d, s, t, e1, e2, h3⟩)
          · cases h; omega
          · cases h; omega
          · cases p with
            | nil => cases e1; cases e2; omega
            | cons q p => cases e1; cases e2; omega
        · rw [if_neg h2]
          have hxy : x = y := by
            have : x.toNat = y.toNat := by omega
            exact Char.ext (UInt32.toNat_inj.1 this)
          subst hxy
          rw [ih b]
          constructor
          · rintro (h | ⟨c, t, h⟩ | ⟨p, c, d, s, t, e1, e2, h3⟩)
            · exact .inl (by rw [h])
            · exact .inr (.inl ⟨c, t, by rw [h]; rfl⟩)
            · exact .inr (.inr ⟨x :: p, c, d, s, t, by rw [e1]; rfl, by rw [e2]; rfl, h3⟩)
          · rintro (h | ⟨c, t, h⟩ | ⟨p, c, d, s, t, e1, e2, h3⟩)
            · exact .inl (List.cons.inj h).2
            · exact .inr (.inl ⟨c, t, (List.cons.inj h).2⟩)
            · cases p with
              | nil => cases e1; cases e2; omega
              | cons q p => exact .inr (.inr ⟨p, c, d, s, t, (List.cons.inj e1).2, (List.cons.inj e2).2, h3⟩)

theorem nameLe_total : ∀ a b : Str, (nameLe a b || nameLe b a) = true := by
  intro a
  induction a with
  | nil => intro b; rfl
  | cons x a ih =>
    intro b
    cases b with
    | nil => rfl
    | cons y b =>
      rw [nameLe, nameLe]
      by_cases h1 : x.toNat < y.toNat
      · rw [if_pos h1]; rfl
      · rw [if_neg h1]
        by_cases h2 : y.toNat < x.toNat
        · rw [if_pos h2, if_pos h2]; rfl
        · rw [if_neg h2, if_neg h2, if_neg h1]
          exact ih b

theorem nameLe_trans : ∀ a b c : Str, nameLe a b = true → nameLe b c = true → nameLe a c = true := by
  intro a
  induction a with
  | nil => intro b c _ _; rfl
  | cons x a ih =>
    intro b c h1 h2
    cases b with
    | nil => cases h1
    | cons y b =>
      cases c with
      | nil => cases h2
      | cons z c =>
        rw [nameLe] at h1 h2 ⊢
        split at h1
        · split at h2
          · rw [if_pos (by omega)]
          · split at h2
            · cases h2
            · rw [if_pos (by omega)]
        · split at h1
          · cases h1
          · split at h2
            · rw [if_pos (by omega)]
            · split at h2
              · cases h2
              · rw [if_neg (by omega), if_neg (by omega)]
                exact ih b c h1 h2

theorem nameLe_antisymm : ∀ a b : Str, nameLe a b = true → nameLe b a = true → a = b := by
  intro a
  induction a with
  | nil =>
    intro b _ h
    cases b with
    | nil => rfl
    | cons y b => cases h
  | cons x a ih =>
    intro b h1 h2
    cases b with
    | nil => cases h1
    | cons y b =>
      rw [nameLe] at h1 h2
      split at h1
      · rw [if_neg (by omega), if_pos (by omega)] at h2; cases h2
      · split at h1
        · cases h1
        · rw [if_neg (by omega), if_neg (by omega)] at h2
          have hxy : x = y := Char.ext (UInt32.toNat_inj.1 (by show x.toNat = y.toNat; omega))
          rw [hxy, ih b h1 h2]

theorem Precedes.ne {a b : Str} (h : Precedes a b) : a ≠ b := by
  rintro rfl
  rcases h with ⟨c, t, h⟩ | ⟨p, c, d, s, t, e1, e2, h⟩
  · exact absurd (congrArg List.length h) (by simp)
  · rw [e1] at e2
    have := (List.cons.inj (List.append_cancel_left e2)).1
    rw [this] at h; omega


end Verif.Strings
