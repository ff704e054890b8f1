import Verif.Engine.Pool
/-! Projections of pool traces used in the statements. -/
namespace Verif.Engine.Pool

/-- Records accepted by `ProcessAsync`, in order. -/
def accepts {R : Type u} (tr : List (Obs R)) : List R :=
  tr.filterMap (fun | .accepted r => some r | _ => none)

/-- Records evaluated by some worker, in order of evaluation. -/
def evals {R : Type u} (tr : List (Obs R)) : List R :=
  tr.filterMap (fun | .evaluated r => some r | _ => none)

/-- Records delivered on output channel `k`, in order. -/
def sends {R : Type u} (k : Nat) (tr : List (Obs R)) : List R :=
  tr.filterMap (fun | .sent j r => if j = k then some r else none | _ => none)

@[simp] theorem accepts_append {R : Type u} (a b : List (Obs R)) : accepts (a ++ b) = accepts a ++ accepts b := by simp [accepts]
@[simp] theorem evals_append {R : Type u} (a b : List (Obs R)) : evals (a ++ b) = evals a ++ evals b := by simp [evals]
@[simp] theorem sends_append {R : Type u} (k : Nat) (a b : List (Obs R)) : sends k (a ++ b) = sends k a ++ sends k b := by simp [sends]

@[simp] theorem accepts_nil {R : Type u} : accepts ([] : List (Obs R)) = [] := rfl
@[simp] theorem evals_nil {R : Type u} : evals ([] : List (Obs R)) = [] := rfl
@[simp] theorem sends_nil {R : Type u} (k : Nat) : sends k ([] : List (Obs R)) = [] := rfl
@[simp] theorem accepts_acc {R : Type u} (r : R) : accepts [.accepted r] = [r] := rfl
@[simp] theorem accepts_ev {R : Type u} (r : R) : accepts [.evaluated r] = [] := rfl
@[simp] theorem accepts_se {R : Type u} (k : Nat) (r : R) : accepts [.sent k r] = [] := rfl
@[simp] theorem accepts_cl {R : Type u} : accepts [(.closing : Obs R)] = [] := rfl
@[simp] theorem evals_acc {R : Type u} (r : R) : evals [.accepted r] = [] := rfl
@[simp] theorem evals_ev {R : Type u} (r : R) : evals [.evaluated r] = [r] := rfl
@[simp] theorem evals_se {R : Type u} (k : Nat) (r : R) : evals [.sent k r] = [] := rfl
@[simp] theorem evals_cl {R : Type u} : evals [(.closing : Obs R)] = [] := rfl
@[simp] theorem sends_acc {R : Type u} (j : Nat) (r : R) : sends j [.accepted r] = [] := rfl
@[simp] theorem sends_ev {R : Type u} (j : Nat) (r : R) : sends j [.evaluated r] = [] := rfl
@[simp] theorem sends_se {R : Type u} (j k : Nat) (r : R) : sends j [.sent k r] = if k = j then [r] else [] := by
  by_cases h : k = j <;> simp [sends, h]
@[simp] theorem sends_cl {R : Type u} (j : Nat) : sends j [(.closing : Obs R)] = [] := rfl

end Verif.Engine.Pool
