import Verif.Base.AMap
/-
C120: the set of strings of the exporter's helpers.
Source: /repo/core/exporter/utils/set.go:23-66
-/
namespace Verif.Exporter.NameSet

abbrev Str := List Char

/-! ### Model -/

/-- `Set` (set.go:25-28): a Go map to empty structs; modelled as the list of its keys. -/
structure NSet where
  keys : List Str
deriving DecidableEq, Repr

/-- `NewSet` (set.go:31-35). -/
def newSet : NSet := ⟨[]⟩

/-- `Contains` (set.go:48-51). -/
def NSet.contains (s : NSet) (v : Str) : Bool := s.keys.contains v

/-- `Add` (set.go:38-40): assignment to a map entry. -/
def NSet.add (s : NSet) (v : Str) : NSet := if s.keys.contains v then s else ⟨s.keys ++ [v]⟩

/-- `Remove` (set.go:43-45): `delete`. -/
def NSet.remove (s : NSet) (v : Str) : NSet := ⟨s.keys.filter (· != v)⟩

/-- `Len` (set.go:54-56). -/
def NSet.len (s : NSet) : Nat := s.keys.length

/-- `IsSubset` (set.go:59-66), with the keys in the order `ks` in which Go happens to iterate. -/
def isSubsetIn (l : NSet) : List Str → Bool
  | [] => true
  | k :: ks => if !l.contains k then false else isSubsetIn l ks

def NSet.isSubset (s l : NSet) : Bool := isSubsetIn l s.keys

/-! ### Specification -/

/-- What a program does with a set. -/
inductive SetOp where
  | add (v : Str)
  | remove (v : Str)
deriving DecidableEq, Repr

/-- A set after these operations. -/
def after (ops : List SetOp) : NSet := ops.foldl (fun s o => match o with
  | .add v => s.add v
  | .remove v => s.remove v) newSet

/-- The last operation on `v` was to add it. -/
def LastAdded (ops : List SetOp) (v : Str) : Prop := ∃ pre post, ops = pre ++ .add v :: post ∧ .remove v ∉ post

/-! ### Proofs -/

theorem after_snoc (ops : List SetOp) (o : SetOp) : after (ops ++ [o]) = (match o with
  | .add v => (after ops).add v
  | .remove v => (after ops).remove v) := by
  unfold after
  rw [List.foldl_append]
  rfl

theorem mem_add (s : NSet) (v w : Str) : w ∈ (s.add v).keys ↔ w = v ∨ w ∈ s.keys := by
  unfold NSet.add
  split
  · rename_i h
    have h : v ∈ s.keys := by simpa using h
    exact ⟨.inr, fun h' => h'.elim (fun e => e ▸ h) id⟩
  · simp only [List.mem_append, List.mem_singleton]
    exact or_comm

theorem mem_remove (s : NSet) (v w : Str) : w ∈ (s.remove v).keys ↔ w ≠ v ∧ w ∈ s.keys := by
  unfold NSet.remove
  simp only [List.mem_filter, bne_iff_ne, ne_eq]
  exact and_comm

theorem snocCases {α : Type} {motive : List α → Prop} (l : List α) (h0 : motive []) (h1 : ∀ l a, motive l → motive (l ++ [a])) : motive l := by
  have : ∀ l : List α, motive l.reverse := by
    intro l
    induction l with
    | nil => exact h0
    | cons a l ih => rw [List.reverse_cons]; exact h1 _ _ ih
  have h := this l.reverse
  rwa [List.reverse_reverse] at h

theorem lastAdded_snoc_add (ops : List SetOp) (v w : Str) : LastAdded (ops ++ [.add v]) w ↔ w = v ∨ LastAdded ops w := by
  constructor
  · rintro ⟨pre, post, h1, h2⟩
    rcases List.eq_nil_or_concat post with rfl | ⟨post', o, rfl⟩
    · have h1 : ops ++ [.add v] = pre ++ [.add w] := h1
      have := List.append_inj_right' h1 rfl
      cases this
      exact .inl rfl
    · right
      have h1 : ops ++ [.add v] = (pre ++ .add w :: post') ++ [o] := by rw [h1]; simp
      have h3 := List.append_inj_left' h1 rfl
      exact ⟨pre, post', h3, fun h => h2 (by simp [h])⟩
  · rintro (rfl | ⟨pre, post, h1, h2⟩)
    · exact ⟨ops, [], rfl, by simp⟩
    · exact ⟨pre, post ++ [.add v], by rw [h1]; simp, by simp [h2]⟩

theorem lastAdded_snoc_remove (ops : List SetOp) (v w : Str) : LastAdded (ops ++ [.remove v]) w ↔ w ≠ v ∧ LastAdded ops w := by
  constructor
  · rintro ⟨pre, post, h1, h2⟩
    rcases List.eq_nil_or_concat post with rfl | ⟨post', o, rfl⟩
    · have h1 : ops ++ [.remove v] = pre ++ [.add w] := h1
      have := List.append_inj_right' h1 rfl
      cases this
    · have h1 : ops ++ [.remove v] = (pre ++ .add w :: post') ++ [o] := by rw [h1]; simp
      have h3 := List.append_inj_left' h1 rfl
      have h4 := List.append_inj_right' h1 rfl
      cases h4
      refine ⟨?_, pre, post', h3, fun h => h2 (by simp [h])⟩
      rintro rfl
      exact h2 (by simp)
  · rintro ⟨hne, pre, post, h1, h2⟩
    refine ⟨pre, post ++ [.remove v], by rw [h1]; simp, ?_⟩
    simp only [List.mem_append, List.mem_singleton, SetOp.remove.injEq, not_or]
    exact ⟨h2, hne⟩

theorem mem_after (ops : List SetOp) : ∀ v, v ∈ (after ops).keys ↔ LastAdded ops v := by
  refine snocCases (motive := fun ops => ∀ v, v ∈ (after ops).keys ↔ LastAdded ops v) ops ?_ ?_
  · intro v
    refine ⟨fun h => (by cases h), ?_⟩
    rintro ⟨pre, post, h, _⟩
    cases pre <;> cases h
  · intro ops o ih v
    rw [after_snoc]
    cases o with
    | add w =>
      show v ∈ ((after ops).add w).keys ↔ _
      rw [mem_add, ih, lastAdded_snoc_add]
    | remove w =>
      show v ∈ ((after ops).remove w).keys ↔ _
      rw [mem_remove, ih, lastAdded_snoc_remove]

theorem nodup_after (ops : List SetOp) : (after ops).keys.Nodup := by
  refine snocCases (motive := fun ops => (after ops).keys.Nodup) ops List.nodup_nil ?_
  intro ops o ih
  rw [after_snoc]
  cases o with
  | add w =>
    show ((after ops).add w).keys.Nodup
    unfold NSet.add
    split
    · exact ih
    · rename_i h
      refine List.nodup_append.2 ⟨ih, List.nodup_cons.2 ⟨by simp, List.nodup_nil⟩, ?_⟩
      intro a ha b hb
      rw [List.mem_singleton.1 hb]
      rintro rfl
      exact h (by simpa using ha)
  | remove w => exact ih.filter _

theorem isSubsetIn_iff (l : NSet) (ks : List Str) : isSubsetIn l ks = true ↔ ∀ k ∈ ks, k ∈ l.keys := by
  induction ks with
  | nil => simp [isSubsetIn]
  | cons k ks ih =>
    rw [isSubsetIn]
    unfold NSet.contains
    by_cases h : k ∈ l.keys
    · have : l.keys.contains k = true := by simpa using h
      rw [this]
      show isSubsetIn l ks = true ↔ _
      rw [ih]
      simp [h]
    · have : l.keys.contains k = false := by simpa using h
      rw [this]
      show false = true ↔ _
      simp [h]

/-! ## C120 -/

/-- **C120** After any operations the set contains exactly the strings whose last operation added them; its length is their number; and one set is a subset of another exactly if every
string contained in it is contained in the other, in whichever order the map is iterated. -/
theorem set_is_a_set (ops : List SetOp) :
    (∀ v, (after ops).contains v = true ↔ LastAdded ops v) ∧
    (∃ vs : List Str, vs.Nodup ∧ (∀ v, v ∈ vs ↔ LastAdded ops v) ∧ (after ops).len = vs.length) ∧
    (∀ ops' order, order.Perm (after ops).keys → (isSubsetIn (after ops') order = true ↔ ∀ v, LastAdded ops v → LastAdded ops' v)) := by
  refine ⟨fun v => ?_, ⟨(after ops).keys, nodup_after ops, mem_after ops, rfl⟩, fun ops' order ho => ?_⟩
  · rw [← mem_after]
    unfold NSet.contains
    simp
  · rw [isSubsetIn_iff]
    constructor
    · intro h v hv
      exact (mem_after ops' v).1 (h v (ho.symm.subset ((mem_after ops v).2 hv)))
    · intro h v hv
      exact (mem_after ops' v).2 (h v ((mem_after ops v).1 (ho.subset hv)))

example : LastAdded [.add "a".toList, .remove "b".toList, .add "b".toList, .remove "a".toList] "b".toList ∧
    (after [.add "a".toList, .remove "b".toList, .add "b".toList, .remove "a".toList, .add "b".toList]).len = 1 := by
  refine ⟨⟨[.add "a".toList, .remove "b".toList], [.remove "a".toList], rfl, by decide⟩, by decide⟩

end Verif.Exporter.NameSet
