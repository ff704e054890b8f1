import Verif.FlatRecord.TableFacts
import Verif.Base.Order
/-
C119: the published list of fields.
Sources: /repo/core/policyengine/source/flatrecord/fieldmapper.go:195, 200-216
-/
namespace Verif.FlatRecord.FieldList
open Verif.Decimal (Str)
open Verif.Strings (nameLe Precedes nameLe_iff nameLe_total nameLe_trans nameLe_antisymm)

/-! ### Model -/

/-- `strings.Compare(a, b) < 0`. -/
def strLess (a b : Str) : Bool := !nameLe b a

/-- The comparison of `getFields` (fieldmapper.go:207-214). -/
def fieldLess (a b : Str) : Bool :=
  let ka := (Strings.split '.' a).length
  let kb := (Strings.split '.' b).length
  if ka = kb then strLess a b else decide (ka < kb)

/-- `sort.SliceStable` (Go library): elements of which neither is less keep their order. -/
def sliceStable (less : Str → Str → Bool) (l : List Str) : List Str := l.mergeSort (fun a b => !less b a)

/-- `getFields` (fieldmapper.go:200-216); `keys`: the names of the exported fields in the order in which Go happens to iterate over the map. -/
def getFields (keys : List Str) : List Str := sliceStable fieldLess keys

/-! ### Specification -/

/-- The parts of a name, separated by dots. -/
def parts (n : Str) : Nat := n.count '.' + 1

/-- One field is listed before another: it has fewer parts, or as many and comes first in the alphabet. -/
def Before (a b : Str) : Prop := parts a < parts b ∨ (parts a = parts b ∧ Precedes a b)

/-! ### Proofs -/

theorem split_parts (n : Str) : (Strings.split '.' n).length = parts n := by
  unfold parts
  induction n with
  | nil => rfl
  | cons c n ih =>
    by_cases h : c = '.'
    · subst h
      have : Strings.split '.' ('.' :: n) = [] :: Strings.split '.' n := by simp [Strings.split]
      rw [this, List.length_cons, ih, List.count_cons_self]
    · obtain ⟨w, ws, h1, h2⟩ := Strings.split_cons_ne '.' c n h
      rw [h2, List.count_cons_of_ne h, ← ih, h1]
      rfl

theorem less_iff (a b : Str) : fieldLess a b = true ↔ Before a b := by
  have hs : strLess a b = true ↔ Precedes a b := by
    unfold strLess
    cases h : nameLe b a with
    | true =>
      refine ⟨fun h => (by cases h), fun hp => ?_⟩
      have := nameLe_antisymm a b ((nameLe_iff a b).2 (.inr hp)) h
      exact absurd this hp.ne
    | false =>
      refine ⟨fun _ => ?_, fun _ => rfl⟩
      have ht := nameLe_total a b
      rw [h, Bool.or_false] at ht
      rcases (nameLe_iff a b).1 ht with rfl | hp
      · rw [ht] at h; cases h
      · exact hp
  unfold fieldLess Before
  dsimp only
  rw [split_parts, split_parts]
  by_cases h : parts a = parts b
  · rw [if_pos h, hs]
    exact ⟨fun hp => .inr ⟨h, hp⟩, fun hp => by
      rcases hp with hp | hp
      · omega
      · exact hp.2⟩
  · rw [if_neg h]
    exact ⟨fun hp => .inl (of_decide_eq_true hp), fun hp => by
      rcases hp with hp | hp
      · exact decide_eq_true hp
      · exact absurd hp.1 h⟩

/-- Not before: the order the sort uses. -/
theorem notLess_iff (a b : Str) : (!fieldLess b a) = true ↔ a = b ∨ Before a b := by
  have hn : (!fieldLess b a) = true ↔ ¬ Before b a := by
    rw [← less_iff]
    cases fieldLess b a <;> simp
  rw [hn]
  constructor
  · intro h
    rcases Nat.lt_trichotomy (parts a) (parts b) with h1 | h1 | h1
    · exact .inr (.inl h1)
    · have ht := nameLe_total a b
      cases hab : nameLe a b with
      | true =>
        rcases (nameLe_iff a b).1 hab with h2 | h2
        · exact .inl h2
        · exact .inr (.inr ⟨h1, h2⟩)
      | false =>
        rw [hab, Bool.false_or] at ht
        rcases (nameLe_iff b a).1 ht with h2 | h2
        · exact .inl h2.symm
        · exact absurd (.inr ⟨h1.symm, h2⟩) h
    · exact absurd (.inl h1) h
  · rintro (rfl | h | ⟨h1, h2⟩) hb
    · rcases hb with hb | hb
      · omega
      · exact hb.2.ne rfl
    · rcases hb with hb | hb <;> omega
    · rcases hb with hb | hb
      · omega
      · exact h2.ne (nameLe_antisymm a b ((nameLe_iff _ _).2 (.inr h2)) ((nameLe_iff _ _).2 (.inr hb.2)))

theorem le_trans' (a b c : Str) (h1 : (!fieldLess b a) = true) (h2 : (!fieldLess c b) = true) : (!fieldLess c a) = true := by
  rw [notLess_iff] at h1 h2 ⊢
  rcases h1 with rfl | h1
  · exact h2
  · rcases h2 with rfl | h2
    · exact .inr h1
    · right
      unfold Before at h1 h2 ⊢
      rcases h1 with h1 | ⟨h1, p1⟩
      · rcases h2 with h2 | ⟨h2, p2⟩
        · exact .inl (by omega)
        · exact .inl (by omega)
      · rcases h2 with h2 | ⟨h2, p2⟩
        · exact .inl (by omega)
        · refine .inr ⟨by omega, ?_⟩
          have := nameLe_trans a b c ((nameLe_iff _ _).2 (.inr p1)) ((nameLe_iff _ _).2 (.inr p2))
          rcases (nameLe_iff _ _).1 this with rfl | h
          · exact absurd (nameLe_antisymm a b ((nameLe_iff _ _).2 (.inr p1)) ((nameLe_iff _ _).2 (.inr p2))) p1.ne
          · exact h

theorem le_total' (a b : Str) : ((!fieldLess b a) || (!fieldLess a b)) = true := by
  cases h1 : fieldLess b a with
  | false => rfl
  | true =>
    cases h2 : fieldLess a b with
    | false => rfl
    | true =>
      have h3 := (less_iff _ _).1 h1
      have h4 : ¬ Before b a := by
        have := (notLess_iff a b).2 (.inr ((less_iff _ _).1 h2))
        rw [h1] at this; cases this
      exact absurd h3 h4

/-! ## C119 -/

/-- **C119** Whatever the order in which the map is iterated: the list has every exported field exactly once, fields with fewer parts first, those with as many parts in alphabetical order. -/
theorem fields_listed (keys : List Str) (hk : keys.Perm (exportedMappers.map (·.name))) :
    (getFields keys).Perm (exportedMappers.map (·.name)) ∧ (getFields keys).Nodup ∧ (getFields keys).Pairwise Before := by
  have hp : (getFields keys).Perm (exportedMappers.map (·.name)) := (List.mergeSort_perm _ _).trans hk
  have hn : (exportedMappers.map (·.name)).Nodup := by decide +kernel
  have hnd : (getFields keys).Nodup := hp.nodup_iff.2 hn
  refine ⟨hp, hnd, ?_⟩
  have hs : (getFields keys).Pairwise (fun a b => (!fieldLess b a) = true) := List.pairwise_mergeSort le_trans' le_total' _
  refine List.Pairwise.imp ?_ (hs.and hnd)
  rintro a b ⟨h, hne⟩
  exact ((notLess_iff a b).1 h).resolve_left hne

/-- **C119** There is only one such list: the list of fields does not depend on the order of the map. -/
theorem fields_order_irrelevant (keys keys' : List Str) (h : keys.Perm keys') : getFields keys = getFields keys' := by
  have h1 : (getFields keys).Pairwise (fun a b => (!fieldLess b a) = true) := List.pairwise_mergeSort le_trans' le_total' _
  have h2 : (getFields keys').Pairwise (fun a b => (!fieldLess b a) = true) := List.pairwise_mergeSort le_trans' le_total' _
  have h3 : (getFields keys).Perm (getFields keys') := (List.mergeSort_perm _ _).trans (h.trans (List.mergeSort_perm _ _).symm)
  refine h3.eq_of_pairwise (fun a b _ _ hab hba => ?_) h1 h2
  rcases (notLess_iff a b).1 hab with h | h
  · exact h
  · rw [(less_iff a b).2 h] at hba; cases hba

/-- "ts" (one part) comes before "sf.type" (two parts), which comes before "sf.ret" no more than the alphabet allows. -/
example : Before "sf.ret".toList "sf.type".toList ∧ Before "sf.type".toList "sf.proc.exe".toList := by
  refine ⟨.inr ⟨by decide, .inr ⟨"sf.".toList, 'r', 't', "et".toList, "ype".toList, by decide, by decide, by decide⟩⟩, .inl (by decide)⟩

end Verif.FlatRecord.FieldList
