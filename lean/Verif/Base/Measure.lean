/-! A quantity that falls at marked moments and otherwise stays falls finitely often. -/
namespace Verif

theorem finitely_often {α : Type} {r : α → α → Prop} (wf : WellFounded r) (v : Nat → α) (own : Nat → Bool)
    (same : ∀ k, own k = false → v (k + 1) = v k) (less : ∀ k, own k = true → r (v (k + 1)) (v k)) : ∃ K, ∀ k, K ≤ k → own k = false := by
  have key : ∀ x, ∀ k, v k = x → ∃ K, ∀ j, K ≤ j → own j = false := by
    intro x
    induction x using wf.induction with
    | _ x ih =>
      intro k hk
      by_cases hex : ∃ d, own (k + d) = true
      · have hmin : ∀ d, own (k + d) = true → ∃ d, own (k + d) = true ∧ ∀ e, e < d → own (k + e) = false := by
          intro d
          induction d using Nat.strongRecOn with
          | _ d ihd =>
            intro hd
            by_cases hlow : ∃ e, e < d ∧ own (k + e) = true
            · obtain ⟨e, he, ho⟩ := hlow
              exact ihd e he ho
            · refine ⟨d, hd, fun e he => ?_⟩
              cases ho : own (k + e) with
              | false => rfl
              | true => exact absurd ⟨e, he, ho⟩ hlow
        obtain ⟨d0, hd0⟩ := hex
        obtain ⟨d, hd, hmin⟩ := hmin d0 hd0
        have eq : ∀ e, e ≤ d → v (k + e) = x := by
          intro e
          induction e with
          | zero => intro _; exact hk
          | succ e ihe =>
            intro he
            rw [← Nat.add_assoc, same (k + e) (hmin e (by omega))]
            exact ihe (by omega)
        have := less (k + d) hd
        rw [eq d (Nat.le_refl _)] at this
        exact ih _ this (k + d + 1) rfl
      · refine ⟨k, fun j hj => ?_⟩
        cases ho : own j with
        | false => rfl
        | true => exact absurd ⟨j - k, by rwa [Nat.add_sub_cancel' hj]⟩ hex
  exact key _ 0 rfl

end Verif
