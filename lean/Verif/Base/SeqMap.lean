import Verif.Base.Decimal
/-
Loops that may fail, and Go maps.
-/
namespace Verif
open Verif.Decimal (Str)

/-- A Go map built by assignments: the newest assignment is first. -/
abbrev GoMap (α : Type u) := List (Str × α)

/-- Map lookup `v, ok := m[k]`. -/
def GoMap.get {α : Type u} (m : GoMap α) (k : Str) : Option α :=
  match m with
  | [] => none
  | (k', v) :: rest => if k' = k then some v else GoMap.get rest k

/-- Map assignment `m[k] = v`. -/
def GoMap.set {α : Type u} (m : GoMap α) (k : Str) (v : α) : GoMap α := (k, v) :: m

/-- Apply a partial computation to every element, left to right (the Go `for` loops with `append`). -/
def seqMap {α β : Type _} (f : α → Option β) : List α → Option (List β)
  | [] => some []
  | a :: as => match f a with
    | none => none
    | some b => match seqMap f as with
      | none => none
      | some bs => some (b :: bs)

theorem seqMap_some {α β : Type _} (f : α → Option β) (as : List α) (bs : List β) (h : seqMap f as = some bs) :
    bs = as.filterMap f ∧ ∀ a ∈ as, (f a).isSome := by
  induction as generalizing bs with
  | nil => simp [seqMap] at h; simp [h]
  | cons a as ih =>
    unfold seqMap at h
    cases hf : f a with
    | none => simp [hf] at h
    | some b =>
      cases hs : seqMap f as with
      | none => simp [hf, hs] at h
      | some cs =>
        simp only [hf, hs, Option.some.injEq] at h
        obtain ⟨h1, h2⟩ := ih cs hs
        subst h
        constructor
        · simp [hf, h1]
        · intro x hx
          rcases List.mem_cons.1 hx with rfl | hx
          · simp [hf]
          · exact h2 x hx

theorem seqMap_of_isSome {α β : Type _} (f : α → Option β) (as : List α) (h : ∀ a ∈ as, (f a).isSome) :
    seqMap f as = some (as.filterMap f) := by
  induction as with
  | nil => rfl
  | cons a as ih =>
    obtain ⟨b, hb⟩ := Option.isSome_iff_exists.1 (h a (by simp))
    simp [seqMap, hb, ih (fun x hx => h x (by simp [hx]))]

theorem seqMap_congr {α β : Type _} (f g : α → Option β) (as : List α) (bs : List β) (h : seqMap f as = some bs)
    (hfg : ∀ a ∈ as, ∀ b, f a = some b → g a = some b) : seqMap g as = some bs := by
  obtain ⟨h1, h2⟩ := seqMap_some f as bs h
  have e : ∀ a ∈ as, g a = f a := by
    intro a ha
    obtain ⟨b, hb⟩ := Option.isSome_iff_exists.1 (h2 a ha)
    rw [hb, hfg a ha b hb]
  rw [seqMap_of_isSome g as (fun a ha => by rw [e a ha]; exact h2 a ha), h1]
  congr 1
  clear h h1 h2 hfg
  induction as with
  | nil => rfl
  | cons a as ih => rw [List.filterMap_cons, List.filterMap_cons, e a (by simp), ih (fun x hx => e x (by simp [hx]))]

theorem seqMap_eq_map {α β : Type _} (f : α → Option β) (g : α → β) (as : List α) (h : ∀ a ∈ as, f a = some (g a)) :
    seqMap f as = some (as.map g) := by
  induction as with
  | nil => rfl
  | cons a as ih => simp [seqMap, h a (by simp), ih (fun x hx => h x (by simp [hx]))]

theorem seqMap_eq_map' {α β : Type _} (f : α → Option (List β)) (as : List α) (bs : List (List β)) (h : seqMap f as = some bs) :
    bs = as.map (fun a => (f a).getD []) := by
  obtain ⟨h1, h2⟩ := seqMap_some f as bs h
  have := seqMap_eq_map f (fun a => (f a).getD []) as (fun a ha => by
    obtain ⟨b, hb⟩ := Option.isSome_iff_exists.1 (h2 a ha); simp [hb])
  rw [h] at this; simpa using this

theorem get_mem {α : Type _} (m : GoMap α) (k : Str) (v : α) (h : m.get k = some v) : (k, v) ∈ m := by
  induction m with
  | nil => simp [GoMap.get] at h
  | cons p m ih =>
    obtain ⟨k', v'⟩ := p
    rw [GoMap.get] at h
    split at h
    · rename_i hk; simp_all
    · exact List.mem_cons_of_mem _ (ih h)

end Verif
