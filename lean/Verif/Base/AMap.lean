/-! Finite maps with deletion (Go maps used as mutable state): association lists without duplicate
keys. -/
namespace Verif

/-- A Go map `map[K]V`. -/
abbrev AMap (K V : Type _) := List (K × V)

namespace AMap
variable {K V : Type _} [DecidableEq K]

/-- `v, ok := m[k]`. -/
def get : AMap K V → K → Option V
  | [], _ => none
  | (k', v) :: m, k => if k' = k then some v else get m k

/-- `delete(m, k)`. -/
def del : AMap K V → K → AMap K V
  | [], _ => []
  | (k', v) :: m, k => if k' = k then del m k else (k', v) :: del m k

/-- `m[k] = v`. -/
def set (m : AMap K V) (k : K) (v : V) : AMap K V := (k, v) :: del m k

/-- The keys of the map. -/
def keys (m : AMap K V) : List K := m.map (·.1)

@[simp] theorem get_nil (k : K) : get ([] : AMap K V) k = none := rfl

theorem get_del (m : AMap K V) (k k' : K) : get (del m k) k' = if k = k' then none else get m k' := by
  induction m with
  | nil => simp [del]
  | cons p m ih =>
    obtain ⟨a, v⟩ := p
    unfold del
    by_cases ha : a = k
    · rw [if_pos ha, ih]
      by_cases hk : k = k'
      · simp [hk]
      · have : ¬ a = k' := fun e => hk (ha.symm.trans e)
        simp [hk, get, this]
    · rw [if_neg ha]
      unfold get
      by_cases hk : a = k'
      · have : ¬ k = k' := fun e => ha (hk.trans e.symm)
        simp [hk, this]
      · simp [hk, ih]

theorem get_set (m : AMap K V) (k k' : K) (v : V) : get (set m k v) k' = if k = k' then some v else get m k' := by
  show (if k = k' then some v else get (del m k) k') = _
  by_cases h : k = k'
  · simp [h]
  · simp [h, get_del]

theorem get_isSome_iff (m : AMap K V) (k : K) : (get m k).isSome ↔ k ∈ keys m := by
  induction m with
  | nil => simp [keys]
  | cons p m ih =>
    obtain ⟨a, v⟩ := p
    unfold get
    by_cases h : a = k
    · simp [h, keys]
    · have h' : ¬ k = a := fun e => h e.symm
      simp only [h, if_false, ih, keys, List.map_cons, List.mem_cons, h', false_or]

theorem keys_del (m : AMap K V) (k : K) : keys (del m k) = (keys m).filter (fun x => decide (x ≠ k)) := by
  induction m with
  | nil => rfl
  | cons p m ih =>
    obtain ⟨a, v⟩ := p
    unfold del
    by_cases h : a = k
    · simp [h, keys] at ih ⊢; exact ih
    · simp only [h, if_false, keys, List.map_cons] at ih ⊢
      rw [List.filter_cons_of_pos (by simpa using h), ← ih]

theorem nodup_del (m : AMap K V) (k : K) (h : (keys m).Nodup) : (keys (del m k)).Nodup := by
  rw [keys_del]; exact h.filter _

theorem nodup_set (m : AMap K V) (k : K) (v : V) (h : (keys m).Nodup) : (keys (set m k v)).Nodup := by
  show (k :: keys (del m k)).Nodup
  rw [List.nodup_cons]
  refine ⟨?_, nodup_del m k h⟩
  rw [keys_del]; simp

end AMap
end Verif
