import Verif.Base.Strings
/-
Regular expressions for lexer rules, with their languages and a longest-match function.
-/
namespace Verif.Falco
open Verif.Decimal (Str)

/-- Regular expressions over characters, as written in lexer rules. `set neg rs`: one character inside (`neg = false`) or
outside (`neg = true`) the ranges. -/
inductive Re where
  | none
  | eps
  | set (neg : Bool) (rs : List (Char × Char))
  | seq (a b : Re)
  | alt (a b : Re)
  | star (a : Re)
deriving DecidableEq, Repr

/-- Membership of a character in a set. -/
def inSet (neg : Bool) (rs : List (Char × Char)) (c : Char) : Bool :=
  (rs.any (fun r => decide (r.1.toNat ≤ c.toNat) && decide (c.toNat ≤ r.2.toNat))) != neg

/-- The language of a regular expression. -/
inductive Re.M : Re → Str → Prop where
  | eps : Re.M .eps []
  | set {neg rs c} : inSet neg rs c = true → Re.M (.set neg rs) [c]
  | seq {a b u v} : Re.M a u → Re.M b v → Re.M (.seq a b) (u ++ v)
  | altL {a b u} : Re.M a u → Re.M (.alt a b) u
  | altR {a b u} : Re.M b u → Re.M (.alt a b) u
  | starNil {a} : Re.M (.star a) []
  | starCons {a u v} : Re.M a u → Re.M (.star a) v → Re.M (.star a) (u ++ v)

/-- One given character. -/
def Re.ch (c : Char) : Re := .set false [(c, c)]
/-- A given text. -/
def Re.lit : Str → Re
  | [] => .eps
  | c :: cs => .seq (Re.ch c) (Re.lit cs)
/-- `r?` -/
def Re.opt (r : Re) : Re := .alt r .eps
/-- `r+` -/
def Re.plus (r : Re) : Re := .seq r (.star r)
/-- `r | s | ...` -/
def Re.alts : List Re → Re
  | [] => .none
  | [r] => r
  | r :: rs => .alt r (Re.alts rs)

/-- Whether the empty text matches. -/
def Re.nullable : Re → Bool
  | .none => false
  | .eps => true
  | .set _ _ => false
  | .seq a b => a.nullable && b.nullable
  | .alt a b => a.nullable || b.nullable
  | .star _ => true

/-- Sequence with trivial cases removed. -/
def Re.seq' : Re → Re → Re
  | .none, _ => .none
  | .eps, b => b
  | a, b => .seq a b

/-- Alternative with trivial cases removed. -/
def Re.alt' : Re → Re → Re
  | .none, b => b
  | a, .none => a
  | a, b => .alt a b

/-- The expression for what may follow the character `c`. -/
def Re.deriv (c : Char) : Re → Re
  | .none => .none
  | .eps => .none
  | .set neg rs => if inSet neg rs c then .eps else .none
  | .seq a b => if a.nullable then Re.alt' (Re.seq' (a.deriv c) b) (b.deriv c) else Re.seq' (a.deriv c) b
  | .alt a b => Re.alt' (a.deriv c) (b.deriv c)
  | .star a => Re.seq' (a.deriv c) (.star a)

/-- The length of the longest prefix of a text that matches. -/
def Re.longest (r : Re) : Str → Option Nat
  | [] => if r.nullable then some 0 else Option.none
  | c :: cs =>
    match (r.deriv c).longest cs with
    | some n => some (n + 1)
    | Option.none => if r.nullable then some 0 else Option.none

/-! ### Correctness -/

theorem Re.nullable_iff (r : Re) : r.nullable = true ↔ r.M [] := by
  induction r with
  | none => exact ⟨fun h => by simp [nullable] at h, fun h => by cases h⟩
  | eps => exact ⟨fun _ => .eps, fun _ => rfl⟩
  | set neg rs => exact ⟨fun h => by simp [nullable] at h, fun h => by cases h⟩
  | seq a b iha ihb =>
    constructor
    · intro h
      simp only [nullable, Bool.and_eq_true] at h
      exact Re.M.seq (u := []) (v := []) (iha.mp h.1) (ihb.mp h.2)
    · intro h
      generalize hw : ([] : Str) = w at h
      cases h with
      | seq hu hv =>
        have := List.append_eq_nil_iff.mp hw.symm
        rw [this.1] at hu; rw [this.2] at hv
        simp only [nullable, Bool.and_eq_true]
        exact ⟨iha.mpr hu, ihb.mpr hv⟩
  | alt a b iha ihb =>
    constructor
    · intro h
      simp only [nullable, Bool.or_eq_true] at h
      rcases h with h | h
      · exact .altL (iha.mp h)
      · exact .altR (ihb.mp h)
    · intro h
      simp only [nullable, Bool.or_eq_true]
      cases h with
      | altL h => exact .inl (iha.mpr h)
      | altR h => exact .inr (ihb.mpr h)
  | star a _ => exact ⟨fun _ => .starNil, fun _ => rfl⟩

theorem Re.seq'_M (a b : Re) (w : Str) : (Re.seq' a b).M w ↔ (Re.seq a b).M w := by
  unfold Re.seq'
  split
  · constructor
    · intro h; cases h
    · intro h; cases h with | seq hu _ => cases hu
  · constructor
    · intro h; exact Re.M.seq (u := []) .eps h
    · intro h; cases h with | seq hu hv => cases hu; exact hv
  · exact Iff.rfl

theorem Re.alt'_M (a b : Re) (w : Str) : (Re.alt' a b).M w ↔ (Re.alt a b).M w := by
  unfold Re.alt'
  split
  · constructor
    · intro h; exact .altR h
    · intro h; cases h with | altL h => cases h | altR h => exact h
  · constructor
    · intro h; exact .altL h
    · intro h; cases h with | altL h => exact h | altR h => cases h
  · exact Iff.rfl

theorem Re.alt_M (a b : Re) (w : Str) : (Re.alt a b).M w ↔ a.M w ∨ b.M w := by
  constructor
  · intro h; cases h with | altL h => exact .inl h | altR h => exact .inr h
  · intro h; rcases h with h | h
    · exact .altL h
    · exact .altR h

theorem Re.seq_M (a b : Re) (w : Str) : (Re.seq a b).M w ↔ ∃ u v, w = u ++ v ∧ a.M u ∧ b.M v := by
  constructor
  · intro h; cases h with | seq hu hv => exact ⟨_, _, rfl, hu, hv⟩
  · rintro ⟨u, v, rfl, hu, hv⟩; exact .seq hu hv

theorem Re.seq_cons (a b : Re) (c : Char) (s : Str) :
    (Re.seq a b).M (c :: s) ↔ (a.M [] ∧ b.M (c :: s)) ∨ ∃ u v, s = u ++ v ∧ a.M (c :: u) ∧ b.M v := by
  rw [Re.seq_M]
  constructor
  · rintro ⟨u, v, hw, hu, hv⟩
    cases u with
    | nil => simp only [List.nil_append] at hw; subst hw; exact .inl ⟨hu, hv⟩
    | cons x u =>
      simp only [List.cons_append, List.cons.injEq] at hw
      obtain ⟨rfl, rfl⟩ := hw
      exact .inr ⟨u, v, rfl, hu, hv⟩
  · rintro (⟨hu, hv⟩ | ⟨u, v, rfl, hu, hv⟩)
    · exact ⟨[], c :: s, rfl, hu, hv⟩
    · exact ⟨c :: u, v, rfl, hu, hv⟩

theorem Re.star_cons (a : Re) (c : Char) (s : Str) :
    (Re.star a).M (c :: s) ↔ ∃ u v, s = u ++ v ∧ a.M (c :: u) ∧ (Re.star a).M v := by
  constructor
  · intro h
    generalize hw : c :: s = w at h
    generalize hr : Re.star a = r at h
    induction h with
    | eps => cases hr
    | set _ => cases hr
    | seq _ _ => cases hr
    | altL _ => cases hr
    | altR _ => cases hr
    | starNil => cases hw
    | @starCons a' u v hu hv _ ih =>
      cases hr
      cases u with
      | nil => exact ih hw rfl
      | cons x u =>
        simp only [List.cons_append, List.cons.injEq] at hw
        obtain ⟨rfl, rfl⟩ := hw
        exact ⟨u, v, rfl, hu, hv⟩
  · rintro ⟨u, v, rfl, hu, hv⟩
    exact Re.M.starCons (u := c :: u) hu hv

theorem Re.deriv_iff (r : Re) : ∀ (c : Char) (s : Str), (r.deriv c).M s ↔ r.M (c :: s) := by
  induction r with
  | none => intro c s; exact ⟨fun h => (by cases h), fun h => (by cases h)⟩
  | eps => intro c s; exact ⟨fun h => (by cases h), fun h => (by cases h)⟩
  | set neg rs =>
    intro c s
    unfold Re.deriv
    split
    · next h =>
      constructor
      · intro h2; cases h2; exact .set h
      · intro h2; cases h2; exact .eps
    · next h =>
      constructor
      · intro h2; cases h2
      · intro h2
        cases h2 with | set h2 => exact absurd h2 h
  | seq a b iha ihb =>
    intro c s
    have hs : (Re.seq' (a.deriv c) b).M s ↔ ∃ u v, s = u ++ v ∧ a.M (c :: u) ∧ b.M v := by
      rw [Re.seq'_M, Re.seq_M]
      constructor
      · rintro ⟨u, v, h, hu, hv⟩; exact ⟨u, v, h, (iha c u).mp hu, hv⟩
      · rintro ⟨u, v, h, hu, hv⟩; exact ⟨u, v, h, (iha c u).mpr hu, hv⟩
    rw [Re.seq_cons]
    unfold Re.deriv
    split
    · next h =>
      rw [Re.alt'_M, Re.alt_M, hs, ihb]
      constructor
      · rintro (h1 | h1)
        · exact .inr h1
        · exact .inl ⟨(Re.nullable_iff a).mp h, h1⟩
      · rintro (h1 | h1)
        · exact .inr h1.2
        · exact .inl h1
    · next h =>
      rw [hs]
      constructor
      · exact .inr
      · rintro (h1 | h1)
        · exact absurd ((Re.nullable_iff a).mpr h1.1) h
        · exact h1
  | alt a b iha ihb =>
    intro c s
    rw [Re.alt_M, ← iha, ← ihb]
    exact (Re.alt'_M _ _ _).trans (Re.alt_M _ _ _)
  | star a iha =>
    intro c s
    rw [Re.star_cons]
    refine (Re.seq'_M _ _ _).trans ((Re.seq_M _ _ _).trans ?_)
    constructor
    · rintro ⟨u, v, h, hu, hv⟩; exact ⟨u, v, h, (iha c u).mp hu, hv⟩
    · rintro ⟨u, v, h, hu, hv⟩; exact ⟨u, v, h, (iha c u).mpr hu, hv⟩

/-- `longest` finds the longest matching prefix. -/
theorem Re.longest_some (r : Re) (s : Str) (n : Nat) : r.longest s = some n ↔
    (n ≤ s.length ∧ r.M (s.take n) ∧ ∀ m, m ≤ s.length → r.M (s.take m) → m ≤ n) := by
  induction s generalizing r n with
  | nil =>
    unfold Re.longest
    split
    · next h =>
      constructor
      · intro h2; cases h2
        exact ⟨Nat.le_refl _, by simpa using (Re.nullable_iff r).mp h, fun m hm _ => hm⟩
      · rintro ⟨h1, _, _⟩
        simp only [List.length_nil, Nat.le_zero_eq] at h1; subst h1; rfl
    · next h =>
      constructor
      · intro h2; cases h2
      · rintro ⟨_, h2, _⟩
        rw [List.take_nil] at h2
        exact absurd ((Re.nullable_iff r).mpr h2) h
  | cons c cs ih =>
    have hz : r.M ((c :: cs).take 0) ↔ r.nullable = true := by
      rw [List.take_zero]; exact (Re.nullable_iff r).symm
    have hsucc : ∀ m, r.M ((c :: cs).take (m + 1)) ↔ (r.deriv c).M (cs.take m) := by
      intro m; rw [List.take_succ_cons, Re.deriv_iff]
    unfold Re.longest
    cases hd : (r.deriv c).longest cs with
    | some k =>
      obtain ⟨h1, h2, h3⟩ := (ih (r.deriv c) k).mp hd
      dsimp only
      constructor
      · intro h; cases h
        refine ⟨Nat.succ_le_succ h1, (hsucc k).mpr h2, ?_⟩
        intro m hm hmm
        cases m with
        | zero => exact Nat.zero_le _
        | succ m => exact Nat.succ_le_succ (h3 m (Nat.le_of_succ_le_succ hm) ((hsucc m).mp hmm))
      · rintro ⟨g1, g2, g3⟩
        have hk := g3 (k + 1) (Nat.succ_le_succ h1) ((hsucc k).mpr h2)
        cases n with
        | zero => exact absurd hk (by omega)
        | succ n =>
          have := h3 n (Nat.le_of_succ_le_succ g1) ((hsucc n).mp g2)
          have : n = k := by omega
          subst this; rfl
    | none =>
      have hno : ∀ m, m ≤ cs.length → ¬ (r.deriv c).M (cs.take m) := by
        -- otherwise there would be a longest match
        intro m hm hmm
        have : ∃ k, (r.deriv c).longest cs = some k := by
          -- take the largest matching length
          have key : ∀ b, ∀ m, m ≤ cs.length → cs.length - m ≤ b → (r.deriv c).M (cs.take m) →
              ∃ k, k ≤ cs.length ∧ (r.deriv c).M (cs.take k) ∧ ∀ m', m' ≤ cs.length → (r.deriv c).M (cs.take m') → m' ≤ k := by
            intro b
            induction b with
            | zero =>
              intro m hm hb hM
              exact ⟨m, hm, hM, fun m' hm' _ => by omega⟩
            | succ b ihb =>
              intro m hm hb hM
              by_cases hbig : ∃ m', m' ≤ cs.length ∧ m < m' ∧ (r.deriv c).M (cs.take m')
              · obtain ⟨m', a1, a2, a3⟩ := hbig
                exact ihb m' a1 (by omega) a3
              · refine ⟨m, hm, hM, fun m' hm' hM' => ?_⟩
                exact Classical.byContradiction (fun hlt => hbig ⟨m', hm', by omega, hM'⟩)
          obtain ⟨k, a1, a2, a3⟩ := key _ m hm (Nat.le_refl _) hmm
          exact ⟨k, (ih (r.deriv c) k).mpr ⟨a1, a2, a3⟩⟩
        obtain ⟨k, hk⟩ := this
        rw [hd] at hk; cases hk
      dsimp only
      split
      · next h =>
        constructor
        · intro h2; cases h2
          refine ⟨Nat.zero_le _, hz.mpr h, ?_⟩
          intro m hm hmm
          cases m with
          | zero => exact Nat.le_refl _
          | succ m => exact absurd ((hsucc m).mp hmm) (hno m (Nat.le_of_succ_le_succ hm))
        · rintro ⟨g1, g2, g3⟩
          cases n with
          | zero => rfl
          | succ n => exact absurd ((hsucc n).mp g2) (hno n (Nat.le_of_succ_le_succ g1))
      · next h =>
        constructor
        · intro h2; cases h2
        · rintro ⟨g1, g2, g3⟩
          cases n with
          | zero => exact absurd (hz.mp g2) h
          | succ n => exact absurd ((hsucc n).mp g2) (hno n (Nat.le_of_succ_le_succ g1))

theorem Re.longest_exists (r : Re) (s : Str) {m : Nat} (hm : m ≤ s.length) (hM : r.M (s.take m)) : ∃ n, r.longest s = some n ∧ m ≤ n := by
  have key : ∀ b, ∀ m, m ≤ s.length → s.length - m ≤ b → r.M (s.take m) →
      ∃ k, m ≤ k ∧ k ≤ s.length ∧ r.M (s.take k) ∧ ∀ m', m' ≤ s.length → r.M (s.take m') → m' ≤ k := by
    intro b
    induction b with
    | zero => intro m hm hb hM; exact ⟨m, Nat.le_refl _, hm, hM, fun m' hm' _ => by omega⟩
    | succ b ihb =>
      intro m hm hb hM
      by_cases hbig : ∃ m', m' ≤ s.length ∧ m < m' ∧ r.M (s.take m')
      · obtain ⟨m', a1, a2, a3⟩ := hbig
        obtain ⟨k, b1, b2⟩ := ihb m' a1 (by omega) a3
        exact ⟨k, by omega, b2⟩
      · refine ⟨m, Nat.le_refl _, hm, hM, fun m' hm' hM' => ?_⟩
        exact Classical.byContradiction (fun hlt => hbig ⟨m', hm', by omega, hM'⟩)
  obtain ⟨k, h0, h1, h2, h3⟩ := key _ m hm (Nat.le_refl _) hM
  exact ⟨k, (Re.longest_some r s k).mpr ⟨h1, h2, h3⟩, h0⟩

theorem Re.longest_none (r : Re) (s : Str) : r.longest s = Option.none ↔ ∀ m, m ≤ s.length → ¬ r.M (s.take m) := by
  constructor
  · intro h m hm hM
    obtain ⟨n, hn, _⟩ := Re.longest_exists r s hm hM
    rw [h] at hn; cases hn
  · intro h
    cases hl : r.longest s with
    | none => rfl
    | some n =>
      obtain ⟨h1, h2, _⟩ := (Re.longest_some r s n).mp hl
      exact absurd h2 (h n h1)

/-! ### Characters an expression can use -/

/-- Whether an expression can use the character `c` at all. -/
def Re.uses (c : Char) : Re → Bool
  | .none => false
  | .eps => false
  | .set neg rs => inSet neg rs c
  | .seq a b => a.uses c || b.uses c
  | .alt a b => a.uses c || b.uses c
  | .star a => a.uses c

theorem Re.uses_sound {r : Re} {s : Str} (h : r.M s) {c : Char} (hu : r.uses c = false) : c ∉ s := by
  induction h with
  | eps => simp
  | @set neg rs d hd =>
    simp only [List.mem_singleton]
    rintro rfl
    have : inSet neg rs c = false := hu
    rw [this] at hd; cases hd
  | seq _ _ iha ihb =>
    simp only [Re.uses, Bool.or_eq_false_iff] at hu
    simp only [List.mem_append, not_or]
    exact ⟨iha hu.1, ihb hu.2⟩
  | altL _ ih => simp only [Re.uses, Bool.or_eq_false_iff] at hu; exact ih hu.1
  | altR _ ih => simp only [Re.uses, Bool.or_eq_false_iff] at hu; exact ih hu.2
  | starNil => simp
  | starCons _ _ iha ihb =>
    simp only [List.mem_append, not_or]
    exact ⟨iha hu, ihb hu⟩

/-- A match never reaches past a character the expression cannot use. -/
theorem Re.longest_stop (r : Re) (c : Char) (hu : r.uses c = false) (w rest : Str) : r.longest (w ++ c :: rest) = r.longest w := by
  have hcut : ∀ m, m ≤ (w ++ c :: rest).length → r.M ((w ++ c :: rest).take m) → m ≤ w.length ∧ r.M (w.take m) := by
    intro m hm hM
    have hle : m ≤ w.length := by
      refine Classical.byContradiction (fun hlt => ?_)
      refine Re.uses_sound hM hu ?_
      rw [List.take_append, List.mem_append]
      right
      obtain ⟨j, hj⟩ : ∃ j, m - w.length = j + 1 := ⟨m - w.length - 1, by omega⟩
      rw [hj, List.take_succ_cons]
      exact List.mem_cons_self
    rw [List.take_append_of_le_length hle] at hM
    exact ⟨hle, hM⟩
  cases hl : r.longest w with
  | some n =>
    obtain ⟨h1, h2, h3⟩ := (Re.longest_some r w n).mp hl
    rw [Re.longest_some]
    refine ⟨by rw [List.length_append]; omega, by rw [List.take_append_of_le_length h1]; exact h2, ?_⟩
    intro m hm hM
    obtain ⟨a, b⟩ := hcut m hm hM
    exact h3 m a b
  | none =>
    rw [Re.longest_none] at hl ⊢
    intro m hm hM
    obtain ⟨a, b⟩ := hcut m hm hM
    exact hl m a b

end Verif.Falco
