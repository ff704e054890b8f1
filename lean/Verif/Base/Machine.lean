/-! Generic labelled state machines: a step function `S → L → Option (S × List O)` (`none` = the
step is not enabled), executions from an initial state with the trace of observations, and an
executable runner used to exhibit concrete executions. -/
namespace Verif.Machine

/-- `Exec step init tr s`: some sequence of enabled steps leads from `init` to `s`, emitting `tr`. -/
inductive Exec {S L O : Type _} (step : S → L → Option (S × List O)) (init : S) : List O → S → Prop where
  | nil : Exec step init [] init
  | snoc {tr s l s' os} : Exec step init tr s → step s l = some (s', os) → Exec step init (tr ++ os) s'

/-- Execute a list of labels. -/
def run {S L O : Type _} (step : S → L → Option (S × List O)) : S → List L → Option (S × List O)
  | s, [] => some (s, [])
  | s, l :: ls =>
    match step s l with
    | none => none
    | some (s', os) =>
      match run step s' ls with
      | none => none
      | some (s'', os') => some (s'', os ++ os')

theorem Exec.append {S L O : Type _} {step : S → L → Option (S × List O)} {init s s' : S} {tr tr' : List O}
    (h : Exec step init tr s) (h' : Exec step s tr' s') : Exec step init (tr ++ tr') s' := by
  induction h' with
  | nil => simpa using h
  | snoc _ hs ih => rw [← List.append_assoc]; exact .snoc ih hs

theorem exec_of_run {S L O : Type _} {step : S → L → Option (S × List O)} {s : S} {ls : List L} {s' : S} {tr : List O}
    (h : run step s ls = some (s', tr)) : Exec step s tr s' := by
  induction ls generalizing s tr with
  | nil => simp [run] at h; obtain ⟨rfl, rfl⟩ := h; exact .nil
  | cons l ls ih =>
    unfold run at h
    split at h
    · cases h
    · rename_i s1 os hs
      split at h
      · cases h
      · rename_i s2 os' hr
        cases h
        have h1 : Exec step s ([] ++ os) s1 := .snoc .nil hs
        simpa using Exec.append h1 (ih hr)

/-- An invariant relating trace and state that holds initially and is preserved by every step holds
in every execution. -/
theorem Exec.invariant {S L O : Type _} {step : S → L → Option (S × List O)} {init : S}
    (I : List O → S → Prop) (h0 : I [] init)
    (hstep : ∀ tr s l s' os, I tr s → step s l = some (s', os) → I (tr ++ os) s')
    {tr s} (h : Exec step init tr s) : I tr s := by
  induction h with
  | nil => exact h0
  | snoc _ hs ih => exact hstep _ _ _ _ _ ih hs

end Verif.Machine
