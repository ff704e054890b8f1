import Verif.Shared.Noting
/-
C125: proofs. What engines note at the same time is never taken for anything else and never listed twice; what is listed when nobody is in the middle of an `append` stays; but rules get lost.
-/
namespace Verif.Shared.Noting
open Verif.Decimal (Str)

abbrev Arrays := Loc → Nat → Nat → Option Elem

/-- What belongs into a slice. -/
def Proper (name : Nat → Str) (tags : Nat → List Str) : Loc → Elem → Prop
  | .scopes, .own _ => True
  | .scopes, .scope _ => True
  | .attrs _, .attr _ _ => True
  | .values _ .rules, .value i .rules t => t = name i
  | .values _ .tags, .value i .tags t => t ∈ tags i
  | _, _ => False

/-- The texts that a call has to append. -/
structure Data (name : Str) (tags : List Str) (c : Call) : Prop where
  nodup : c.todo.Nodup
  subset : ∀ t ∈ c.todo, t ∈ tags
  rule : ∀ t a, c.pc = .append (.value .rules t) a → t = name
  tag : ∀ t a, c.pc = .append (.value .tags t) a → t ∈ tags ∧ t ∉ c.todo
  first : c.pc = .start → c.todo = tags

/-- The element that is being appended is nowhere but where it belongs. -/
def Placed (arr : Arrays) (i : Nat) (c : Call) : Prop :=
  ∀ job a p, c.pc = .append job a → a.position = some p → ∀ l n k, arr l n k = some (elem i job) → l = c.loc job ∧ k = p

structure Inv (name : Nat → Str) (tags : Nat → List Str) (arr : Arrays) (calls : Nat → Call) : Prop where
  once : ∀ x, ∃ l k, ∀ l' n k', arr l' n k' = some x → l' = l ∧ k' = k
  left : ∀ i x, Left i (calls i) x → ∀ l n k, arr l n k ≠ some x
  placed : ∀ i, Placed arr i (calls i)
  typed : ∀ l n k x, arr l n k = some x → Proper name tags l x
  mine : ∀ i, Data (name i) (tags i) (calls i)

theorem inv_set {name : Nat → Str} {tags : Nat → List Str} {arr : Arrays} {m : Mem} (h : Inv name tags arr m.calls) (i : Nat) (c : Call) (hl : ∀ x, Left i c x → Left i (m.calls i) x) (hp : Placed arr i c)
    (hd : Data (name i) (tags i) c) : Inv name tags arr (m.set i c).calls := by
  unfold Mem.set
  refine ⟨h.once, fun j x hx => ?_, fun j => ?_, h.typed, fun j => ?_⟩ <;> dsimp only at *
  · split at hx
    · rename_i hj; subst hj; exact h.left j x (hl x hx)
    · exact h.left j x hx
  · split
    · rename_i hj; subst hj; exact hp
    · exact h.placed j
  · split
    · rename_i hj; subst hj; exact hd
    · exact h.mine j

theorem put_some {arr : Arrays} {l l' : Loc} {n n' k k' : Nat} {x : Option Elem} {y : Elem} (h : put arr l n k x l' n' k' = some y) : (l' = l ∧ k' = k ∧ x = some y) ∨ arr l' n' k' = some y := by
  unfold put at h
  split at h
  · rename_i hc; exact .inl ⟨hc.1, hc.2.2, h⟩
  · exact .inr h

/-- Copying an element to the same position of another array of the slice. -/
theorem inv_copy {name : Nat → Str} {tags : Nat → List Str} {arr : Arrays} {calls : Nat → Call} (h : Inv name tags arr calls) (l : Loc) (n n' k : Nat) : Inv name tags (put arr l n k (arr l n' k)) calls := by
  have key : ∀ {l' n'' k'} {x : Elem}, put arr l n k (arr l n' k) l' n'' k' = some x → ∃ n₀, arr l' n₀ k' = some x := by
    intro l' n'' k' x hx
    rcases put_some hx with ⟨rfl, rfl, h1⟩ | h1
    · exact ⟨_, h1⟩
    · exact ⟨_, h1⟩
  refine ⟨fun x => ?_, fun i x hx l' n'' k' hc => ?_, fun i job a p hpc0 h2 l' n'' k' hx => ?_, fun l' n'' k' x hx => ?_, h.mine⟩
  · obtain ⟨l0, k0, h0⟩ := h.once x
    refine ⟨l0, k0, fun l' n'' k' hx => ?_⟩
    obtain ⟨n₀, h1⟩ := key hx
    exact h0 l' n₀ k' h1
  · obtain ⟨n₀, h1⟩ := key hc
    exact h.left i x hx _ _ _ h1
  · obtain ⟨n₀, h1⟩ := key hx
    exact h.placed i job a p hpc0 h2 l' n₀ k' h1
  · obtain ⟨n₀, h1⟩ := key hx
    exact h.typed _ _ _ _ h1

theorem left_owner {i j : Nat} {c : Call} {job : Job} (h : Left j c (elem i job)) : i = j := by
  cases job with
  | scope => exact h.1
  | attr key => cases key <;> exact h.1
  | value key t => cases key <;> exact h.1

theorem elem_inj {i j : Nat} {job job' : Job} (h : elem i job = elem j job') : i = j ∧ job = job' := by
  cases job <;> cases job' <;> cases h <;> exact ⟨rfl, rfl⟩

/-- What is being appended is no longer to be appended. -/
theorem not_left {name : Str} {tags : List Str} {i : Nat} {c : Call} {job : Job} {a : App} {p : Nat} (hd : Data name tags c) (h : c.pc = .append job a) (ha : a.position = some p) : ¬Left i c (elem i job) := by
  have hb : a ≠ .begin := by intro hb; rw [hb] at ha; cases ha
  intro hl
  cases job with
  | scope =>
    have := hl.2; rw [h] at this
    cases a <;> first | exact hb rfl | cases this
  | attr key =>
    cases key <;>
    · have := hl.2; rw [h] at this
      revert this
      cases a <;> first | exact absurd rfl hb | exact Nat.not_le_of_lt (Nat.le_of_ble_eq_true rfl)
  | value key t =>
    cases key with
    | rules =>
      have := hl.2; rw [h] at this
      revert this
      cases a <;> first | exact absurd rfl hb | exact Nat.not_le_of_lt (Nat.le_of_ble_eq_true rfl)
    | tags =>
      rcases hl.2 with h1 | h1
      · exact (hd.tag t a h).2 h1
      · rw [h] at h1; injection h1 with _ h1; exact hb h1

/-- Writing the element that is being appended, at its position. -/
theorem inv_write {name : Nat → Str} {tags : Nat → List Str} {arr : Arrays} {calls : Nat → Call} (h : Inv name tags arr calls) (i : Nat) {job : Job} {a : App} {p : Nat} (n : Nat) (hpc : (calls i).pc = .append job a)
    (hp : a.position = some p) : Inv name tags (put arr ((calls i).loc job) n p (some (elem i job))) calls := by
  refine ⟨fun x => ?_, fun j x hx l n' k hc => ?_, fun j job' a' p' h1 h2 l n' k hx => ?_, fun l n' k x hx => ?_, h.mine⟩
  · by_cases hx : x = elem i job
    · refine ⟨(calls i).loc job, p, fun l' n' k' h1 => ?_⟩
      rcases put_some h1 with ⟨h2, h3, -⟩ | h2
      · exact ⟨h2, h3⟩
      · rw [hx] at h2; exact h.placed i job a p hpc hp _ _ _ h2
    · obtain ⟨l0, k0, h0⟩ := h.once x
      refine ⟨l0, k0, fun l' n' k' h1 => ?_⟩
      rcases put_some h1 with ⟨-, -, h2⟩ | h2
      · injection h2 with h2; exact absurd h2.symm hx
      · exact h0 _ _ _ h2
  · rcases put_some hc with ⟨-, -, h2⟩ | h2
    · injection h2 with h2
      subst h2
      have := left_owner hx
      subst this
      exact not_left (h.mine i) hpc hp hx
    · exact h.left j x hx _ _ _ h2
  · rcases put_some hx with ⟨h3, h4, h5⟩ | h3
    · injection h5 with h5
      obtain ⟨h6, h7⟩ := elem_inj h5
      subst h6; subst h7
      rw [hpc] at h1
      injection h1 with _ h1
      subst h1
      rw [hp] at h2
      injection h2 with h2
      exact ⟨h3, h4.trans h2⟩
    · exact h.placed j job' a' p' h1 h2 _ _ _ h3
  · rcases put_some hx with ⟨h3, -, h5⟩ | h3
    · injection h5 with h5
      subst h3; subst h5
      cases job with
      | scope => trivial
      | attr key => trivial
      | value key t =>
        cases key with
        | rules => exact (h.mine i).rule t a hpc
        | tags => exact ((h.mine i).tag t a hpc).1
    · exact h.typed _ _ _ _ h3

/-- A call that is about to read the slice it appends to has yet to append the element. -/
theorem left_begin {i : Nat} {c : Call} {job : Job} (h : c.pc = .append job .begin) : Left i c (elem i job) := by
  cases job with
  | scope => exact ⟨rfl, by rw [h]; rfl⟩
  | attr key => cases key <;> exact ⟨rfl, by rw [h]; exact Nat.le_of_ble_eq_true rfl⟩
  | value key t =>
    cases key with
    | rules => exact ⟨rfl, by rw [h]; exact Nat.le_of_ble_eq_true rfl⟩
    | tags => exact ⟨rfl, .inr h⟩

/-- A call that goes on, in a later stage or the same, has nothing more to append than before. -/
theorem left_later {i : Nat} {c c' : Call} (hs : stage c.pc ≤ stage c'.pc) (ht : ∀ t, t ∈ c'.todo ∨ c'.pc = .append (.value .tags t) .begin → t ∈ c.todo ∨ c.pc = .append (.value .tags t) .begin) (x : Elem)
    (h : Left i c' x) : Left i c x := by
  cases x with
  | own k => exact h
  | scope j => exact ⟨h.1, by have := h.2; omega⟩
  | attr j key => cases key <;> exact ⟨h.1, Nat.le_trans hs h.2⟩
  | value j key t =>
    cases key with
    | rules => exact ⟨h.1, Nat.le_trans hs h.2⟩
    | tags => exact ⟨h.1, ht t h.2⟩

theorem placed_other {arr : Arrays} {i : Nat} {c : Call} (h : ∀ job a p, c.pc = .append job a → a.position = some p → False) : Placed arr i c :=
  fun job a p h1 h2 => (h job a p h1 h2).elim

theorem placed_begin {arr : Arrays} {i : Nat} {c : Call} {job : Job} (h : c.pc = .append job .begin) : Placed arr i c :=
  placed_other fun job' a p h1 h2 => by
    rw [h] at h1; injection h1 with _ h1; subst h1; cases h2

/-- What comes after an attribute has been found or made. -/
theorem settle_keeps {name : Nat → Str} {tags : Nat → List Str} {arr : Arrays} {i : Nat} {c : Call} (hd : Data (name i) (tags i) c) (key : Key) (j : Nat) (hs : stage c.pc ≤ stage (c.settle (name i) key j).pc)
    : (∀ x, Left i (c.settle (name i) key j) x → Left i c x) ∧ Placed arr i (c.settle (name i) key j) ∧ Data (name i) (tags i) (c.settle (name i) key j) := by
  cases key with
  | rules =>
    exact ⟨left_later hs (fun t ht => ht.imp id fun h => by cases h), placed_other fun job a p h1 _ => (by cases h1), hd.nodup, hd.subset, fun t a h1 => (by cases h1), fun t a h1 => (by cases h1), fun h1 => (by cases h1)⟩
  | tags =>
    exact ⟨left_later hs (fun t ht => ht.imp id fun h => by cases h), placed_begin rfl, hd.nodup, hd.subset, fun t a h1 => (by cases h1; rfl), fun t a h1 => (by cases h1), fun h1 => (by cases h1)⟩

theorem inv_step {grow : Nat → Nat → Nat} {name : Nat → Str} {tags : Nat → List Str} {m m' : Mem} {i : Nat} (h : Inv name tags m.arr m.calls) (hs : m.step grow name i = some m') : Inv name tags m'.arr m'.calls := by
  have hd := h.mine i
  unfold Mem.step at hs
  split at hs
  · rename_i hpc
    cases hs
    refine inv_set h i _ (left_later (by rw [hpc]; exact Nat.le_of_ble_eq_true rfl) fun t ht => ht.imp id fun h => by cases h) (placed_other fun job a p h1 _ => by cases h1) ?_
    exact ⟨hd.nodup, hd.subset, fun t a h1 => (by cases h1), fun t a h1 => (by cases h1), fun h1 => (by cases h1)⟩
  · rename_i s k hpc
    split at hs
    · split at hs
      · cases hs
        refine inv_set h i _ (left_later (by rw [hpc]; exact Nat.le_of_ble_eq_true rfl) fun t ht => ht.imp id fun h => by cases h) (placed_other fun job a p h1 _ => by cases h1) ?_
        exact ⟨hd.nodup, hd.subset, fun t a h1 => (by cases h1), fun t a h1 => (by cases h1), fun h1 => (by cases h1)⟩
      · cases hs
        refine inv_set h i _ (left_later (by rw [hpc]; exact Nat.le_of_ble_eq_true rfl) fun t ht => ht.imp id fun h => by cases h) (placed_other fun job a p h1 _ => by cases h1) ?_
        exact ⟨hd.nodup, hd.subset, fun t a h1 => (by cases h1), fun t a h1 => (by cases h1), fun h1 => (by cases h1)⟩
    · cases hs
      refine inv_set h i _ (left_later (by rw [hpc]; exact Nat.le_of_ble_eq_true rfl) fun t ht => ht.imp id fun h => by cases h) (placed_begin rfl) ?_
      exact ⟨hd.nodup, hd.subset, fun t a h1 => (by cases h1), fun t a h1 => (by cases h1), fun h1 => (by cases h1)⟩
  · rename_i key last hpc
    cases hs
    refine inv_set h i _ (left_later (by rw [hpc]; cases key <;> exact Nat.le_refl _) fun t ht => ht.imp id fun h => by cases h) (placed_other fun job a p h1 _ => by cases h1) ?_
    exact ⟨hd.nodup, hd.subset, fun t a h1 => (by cases h1), fun t a h1 => (by cases h1), fun h1 => (by cases h1)⟩
  · rename_i key s last hpc
    split at hs
    · rename_i j _
      cases hs
      obtain ⟨h1, h2, h3⟩ := settle_keeps (arr := m.arr) hd key j (by rw [hpc]; cases key <;> exact Nat.le_of_ble_eq_true rfl)
      exact inv_set h i _ h1 h2 h3
    · cases hs
      cases last with
      | true =>
        refine inv_set h i _ (left_later (by rw [hpc]; cases key <;> exact Nat.le_refl _) fun t ht => ht.imp id fun h => by cases h) (placed_begin rfl) ?_
        exact ⟨hd.nodup, hd.subset, fun t a h1 => (by cases h1), fun t a h1 => (by cases h1), fun h1 => (by cases h1)⟩
      | false =>
        refine inv_set h i _ (left_later (by rw [hpc]; cases key <;> exact Nat.le_refl _) fun t ht => ht.imp id fun h => by cases h) (placed_other fun job a p h1 _ => by cases h1) ?_
        exact ⟨hd.nodup, hd.subset, fun t a h1 => (by cases h1), fun t a h1 => (by cases h1), fun h1 => (by cases h1)⟩
  · rename_i job hpc
    have hno := h.left i _ (left_begin hpc)
    have hmore : ∀ a : App, a ≠ .begin → stage (m.calls i).pc ≤ stage (.append job a) := by
      intro a ha
      rw [hpc]
      cases job with
      | scope => exact Nat.zero_le _
      | attr key => cases key <;> cases a <;> first | exact absurd rfl ha | exact Nat.le_of_ble_eq_true rfl
      | value key t => cases key <;> cases a <;> first | exact absurd rfl ha | exact Nat.le_of_ble_eq_true rfl
    have hdata : ∀ a : App, Data (name i) (tags i) { m.calls i with pc := .append job a } := fun a =>
      ⟨hd.nodup, hd.subset, fun t a' h1 => (by cases h1; exact hd.rule t _ hpc), fun t a' h1 => (by cases h1; exact hd.tag t _ hpc), fun h1 => (by cases h1)⟩
    have hplaced : ∀ a : App, Placed m.arr i { m.calls i with pc := .append job a } := fun a job' a' p h1 _ l n k hx => by
      cases h1
      exact absurd hx (hno l n k)
    split at hs
    · cases hs
      exact inv_set h i _ (left_later (hmore _ (by intro h; cases h)) fun t ht => ht.imp id fun h => by cases h) (hplaced _) (hdata _)
    · cases hs
      exact inv_set h i _ (left_later (hmore _ (by intro h; cases h)) fun t ht => ht.imp id fun h => by cases h) (hplaced _) (hdata _)
  · rename_i job s hpc
    cases hs
    have hw := inv_write h i s.array hpc rfl
    refine inv_set hw i _ (left_later ?_ fun t ht => ht.imp id fun h => by cases h) (fun job' a p h1 h2 => ?_) ?_
    · rw [hpc]; cases job with
      | scope => exact Nat.le_refl _
      | attr key => cases key <;> exact Nat.le_refl _
      | value key t => cases key <;> exact Nat.le_refl _
    · cases h1
      cases h2
      exact hw.placed i job _ _ hpc rfl
    · exact ⟨hd.nodup, hd.subset, fun t a' h1 => (by cases h1; exact hd.rule t _ hpc), fun t a' h1 => (by cases h1; exact hd.tag t _ hpc), fun h1 => (by cases h1)⟩
  · rename_i job s n cap k hpc
    have hsame : ∀ a : App, a ≠ .begin → stage (m.calls i).pc ≤ stage (.append job a) := by
      intro a ha
      rw [hpc]
      cases job with
      | scope => cases a <;> first | exact absurd rfl ha | exact Nat.le_refl _
      | attr key => cases key <;> cases a <;> first | exact absurd rfl ha | exact Nat.le_refl _
      | value key t => cases key <;> cases a <;> first | exact absurd rfl ha | exact Nat.le_refl _
    have hdata : ∀ a : App, Data (name i) (tags i) { m.calls i with pc := .append job a } := fun a =>
      ⟨hd.nodup, hd.subset, fun t a' h1 => (by cases h1; exact hd.rule t _ hpc), fun t a' h1 => (by cases h1; exact hd.tag t _ hpc), fun h1 => (by cases h1)⟩
    split at hs
    · cases hs
      have hw := inv_copy h ((m.calls i).loc job) n s.array k
      refine inv_set hw i _ (left_later (hsame _ (by intro h; cases h)) fun t ht => ht.imp id fun h => by cases h) (fun job' a p h1 h2 => ?_) (hdata _)
      cases h1
      cases h2
      exact hw.placed i job _ _ hpc rfl
    · cases hs
      have hw := inv_write h i n hpc rfl
      refine inv_set hw i _ (left_later (hsame _ (by intro h; cases h)) fun t ht => ht.imp id fun h => by cases h) (fun job' a p h1 h2 => ?_) (hdata _)
      cases h1
      cases h2
      exact hw.placed i job _ _ hpc rfl
  · rename_i job s hpc
    cases hs
    cases job with
    | scope =>
      refine inv_set h i _ (left_later (by rw [hpc]; exact Nat.le_of_ble_eq_true rfl) fun t ht => ht.imp id fun h => by cases h) (placed_other fun job a p h1 _ => by cases h1) ?_
      exact ⟨hd.nodup, hd.subset, fun t a h1 => (by cases h1), fun t a h1 => (by cases h1), fun h1 => (by cases h1)⟩
    | attr key =>
      obtain ⟨h1, h2, h3⟩ := settle_keeps (arr := m.arr) hd key i (by rw [hpc]; cases key <;> exact Nat.le_of_ble_eq_true rfl)
      exact inv_set h i _ h1 h2 h3
    | value key t =>
      have hst : ∀ pc, stage pc = 4 → stage (m.calls i).pc ≤ stage pc := by
        intro pc h4
        rw [h4]
        cases (m.calls i).pc with
        | append job a => cases job with
          | scope => cases a <;> exact Nat.le_of_ble_eq_true rfl
          | attr key => cases key <;> cases a <;> exact Nat.le_of_ble_eq_true rfl
          | value key t => cases key <;> cases a <;> exact Nat.le_of_ble_eq_true rfl
        | start => exact Nat.le_of_ble_eq_true rfl
        | scan _ _ => exact Nat.le_of_ble_eq_true rfl
        | look key _ => cases key <;> exact Nat.le_of_ble_eq_true rfl
        | probe key _ _ => cases key <;> exact Nat.le_of_ble_eq_true rfl
        | done => exact Nat.le_of_ble_eq_true rfl
      unfold Call.next
      dsimp only
      cases ht : (m.calls i).todo with
      | nil =>
        refine inv_set h i _ (left_later (hst _ rfl) fun t' ht' => ?_) (placed_other fun job a p h1 _ => by cases h1) ?_
        · rcases ht' with ht' | ht'
          · cases ht'
          · cases ht'
        · exact ⟨List.nodup_nil, fun t h0 => (by cases h0), fun t a h1 => (by cases h1), fun t a h1 => (by cases h1), fun h1 => (by cases h1)⟩
      | cons t₁ ts =>
        have hnd := hd.nodup
        rw [ht] at hnd
        refine inv_set h i _ (left_later (hst _ rfl) fun t' ht' => .inl ?_) (placed_begin rfl) ?_
        · rw [ht]
          rcases ht' with ht' | ht'
          · exact List.mem_cons_of_mem _ ht'
          · cases ht'
            exact List.mem_cons_self
        · refine ⟨(List.nodup_cons.1 hnd).2, fun t' h' => hd.subset t' (by rw [ht]; exact List.mem_cons_of_mem _ h'), fun t a h1 => (by cases h1), fun t a h1 => ?_, fun h1 => (by cases h1)⟩
          cases h1
          exact ⟨hd.subset t₁ (by rw [ht]; exact List.mem_cons_self), (List.nodup_cons.1 hnd).1⟩
  · cases hs

theorem inv_run {grow : Nat → Nat → Nat} {name : Nat → Str} {tags : Nat → List Str} {n : Nat} {m m' : Mem} (htags : ∀ i, (tags i).Nodup) (hstart : Starts tags n m) (h : Run grow name m m') : Inv name tags m'.arr m'.calls := by
  induction h with
  | refl =>
    refine ⟨fun x => ?_, fun i x hx l a k hc => ?_, fun i => placed_other fun job a p h1 _ => ?_, fun l a k x hx => ?_, fun i => ?_⟩
    · cases x with
      | own j =>
        refine ⟨.scopes, j, fun l' a k hx => ?_⟩
        obtain ⟨h1, h2⟩ := hstart.nothing _ _ _ _ hx
        cases h2
        exact ⟨h1, rfl⟩
      | scope j => exact ⟨.scopes, 0, fun l' a k hx => by obtain ⟨-, h2⟩ := hstart.nothing _ _ _ _ hx; cases h2⟩
      | attr j key => exact ⟨.scopes, 0, fun l' a k hx => by obtain ⟨-, h2⟩ := hstart.nothing _ _ _ _ hx; cases h2⟩
      | value j key t => exact ⟨.scopes, 0, fun l' a k hx => by obtain ⟨-, h2⟩ := hstart.nothing _ _ _ _ hx; cases h2⟩
    · obtain ⟨-, h2⟩ := hstart.nothing _ _ _ _ hc
      subst h2
      exact hx
    · rw [(hstart.started i).1] at h1; cases h1
    · obtain ⟨h1, h2⟩ := hstart.nothing _ _ _ _ hx
      subst h1; subst h2
      trivial
    · obtain ⟨h1, h2⟩ := hstart.started i
      refine ⟨by rw [h2]; exact htags i, fun t ht => by rwa [h2] at ht, fun t a h3 => ?_, fun t a h3 => ?_, fun _ => h2⟩
      · rw [h1] at h3; cases h3
      · rw [h1] at h3; cases h3
  | step i _ hs ih => exact inv_step ih hs

/-! ### Nothing is invented, nothing is listed twice -/

/-- **C125** Whatever the record lists has been noted: a value under sf.processor.rules is the name of the rule of a call that has begun, a value under sf.processor.tags one of its tags. -/
theorem noted_only {grow : Nat → Nat → Nat} {name : Nat → Str} {tags : Nat → List Str} {n : Nat} {m m' : Mem} (htags : ∀ i, (tags i).Nodup) (hstart : Starts tags n m) (h : Run grow name m m')
    {k₁ k₂ k₃ : Nat} {key : Key} {x : Elem} (hx : Listed m' k₁ k₂ k₃ key x) : ∃ i, (m'.calls i).pc ≠ .start ∧ ((key = .rules ∧ x = .value i .rules (name i)) ∨ ∃ t ∈ tags i, key = .tags ∧ x = .value i .tags t) := by
  obtain ⟨s, a, -, -, -, hx⟩ := hx
  have hi := inv_run htags hstart h
  have ht := hi.typed _ _ _ _ hx
  cases x with
  | own j => cases key <;> exact ht.elim
  | scope j => cases key <;> exact ht.elim
  | attr j k => cases key <;> exact ht.elim
  | value i k t =>
    cases key <;> cases k
    · have hname : t = name i := ht
      refine ⟨i, fun hpc => hi.left i (.value i .rules t) ⟨rfl, ?_⟩ _ _ _ hx, .inl ⟨rfl, by rw [hname]⟩⟩
      rw [hpc]; exact Nat.zero_le _
    · exact ht.elim
    · exact ht.elim
    · refine ⟨i, fun hpc => hi.left i (.value i .tags t) ⟨rfl, .inl ?_⟩ _ _ _ hx, .inr ⟨t, ht, rfl, rfl⟩⟩
      rw [(hi.mine i).first hpc]; exact ht

/-- **C125** Nothing is listed twice: what a call notes is at one place of the record at most. -/
theorem listed_once {grow : Nat → Nat → Nat} {name : Nat → Str} {tags : Nat → List Str} {n : Nat} {m m' : Mem} (htags : ∀ i, (tags i).Nodup) (hstart : Starts tags n m) (h : Run grow name m m')
    {k₁ k₂ k₃ j₁ j₂ j₃ : Nat} {key key' : Key} {x : Elem} (hx : Listed m' k₁ k₂ k₃ key x) (hy : Listed m' j₁ j₂ j₃ key' x) : k₁ = j₁ ∧ k₂ = j₂ ∧ k₃ = j₃ ∧ key = key' := by
  have hi := inv_run htags hstart h
  have same : ∀ {l l' k k' x}, At m' l k x → At m' l' k' x → l = l' ∧ k = k' := by
    intro l l' k k' x h1 h2
    obtain ⟨l0, k0, h0⟩ := hi.once x
    obtain ⟨q1, q2⟩ := h0 _ _ _ h1.2
    obtain ⟨q3, q4⟩ := h0 _ _ _ h2.2
    exact ⟨q1.trans q3.symm, q2.trans q4.symm⟩
  obtain ⟨s, a, h1, h2, h3⟩ := hx
  obtain ⟨s', a', g1, g2, g3⟩ := hy
  obtain ⟨q1, q2⟩ := same h3 g3
  injection q1 with q3 q4
  subst q3; subst q4
  obtain ⟨q5, q6⟩ := same h2 g2
  injection q5 with q5
  subst q5
  exact ⟨(same h1 g1).2, q6, q2, rfl⟩

/-! ### What is listed while nobody is in the middle of an append stays -/

/-- An append under way that leaves the element where it is. -/
def Respects (arr : Arrays) (l : Loc) (k : Nat) (x : Elem) : App → Prop
  | .begin => True
  | .write h => k < h.len ∧ arr l h.array k = some x
  | .copy h n _ c => k < h.len ∧ arr l h.array k = some x ∧ (k < c → arr l n k = some x)
  | .store s => k < s.len ∧ arr l s.array k = some x

/-- The element is in the slice, and every append to it that is under way leaves it there. -/
def Safe (m : Mem) (l : Loc) (k : Nat) (x : Elem) : Prop := At m l k x ∧ ∀ i job a, (m.calls i).pc = .append job a → (m.calls i).loc job = l → Respects m.arr l k x a

theorem respects_mono {arr arr' : Arrays} {l : Loc} {k : Nat} {x : Elem} {a : App} (h : ∀ n, arr l n k = some x → arr' l n k = some x) (hr : Respects arr l k x a) : Respects arr' l k x a := by
  cases a with
  | begin => trivial
  | write s => exact ⟨hr.1, h _ hr.2⟩
  | copy s n c j => exact ⟨hr.1, h _ hr.2.1, fun hj => h _ (hr.2.2 hj)⟩
  | store s => exact ⟨hr.1, h _ hr.2⟩

/-- A step that changes no slice, and arrays only where the element stays. -/
theorem safe_set {m : Mem} {l : Loc} {k : Nat} {x : Elem} {arr : Arrays} {made : Loc → Nat} (i : Nat) (c : Call) (h : Safe m l k x) (harr : ∀ n, m.arr l n k = some x → arr l n k = some x)
    (hc : ∀ job a, c.pc = .append job a → c.loc job = l → Respects arr l k x a) : Safe { m.set i c with arr := arr, made := made } l k x := by
  refine ⟨⟨h.1.1, harr _ h.1.2⟩, fun j job a h1 h2 => ?_⟩
  unfold Mem.set at h1 h2
  dsimp only at *
  by_cases hj : j = i
  · rw [if_pos hj] at h1 h2
    exact hc job a h1 h2
  · rw [if_neg hj] at h1 h2
    exact respects_mono harr (h.2 j job a h1 h2)

theorem put_other {arr : Arrays} {l l' : Loc} {n n' k k' : Nat} {x : Option Elem} (h : l' = l → k' ≠ k) : put arr l n k x l' n' k' = arr l' n' k' := by
  unfold put
  rw [if_neg]
  rintro ⟨h1, -, h3⟩
  exact h h1 h3

theorem put_at (arr : Arrays) (l : Loc) (n k : Nat) (x : Option Elem) : put arr l n k x l n k = x := by
  unfold put
  rw [if_pos ⟨rfl, rfl, rfl⟩]

theorem settle_append {name : Str} {c : Call} {key : Key} {j : Nat} {job : Job} {a : App} (h : (c.settle name key j).pc = .append job a) : a = .begin := by
  cases key <;> cases h
  rfl

theorem next_append {i : Nat} {name : Str} {c : Call} {job' job : Job} {a : App} (h : (c.next i name job').pc = .append job a) : a = .begin := by
  cases job' with
  | scope => cases h
  | attr key => exact settle_append h
  | value key t =>
    unfold Call.next at h
    dsimp only at h
    split at h
    · cases h
    · cases h; rfl

theorem safe_step {grow : Nat → Nat → Nat} {name : Nat → Str} {m m' : Mem} {i : Nat} {l : Loc} {k : Nat} {x : Elem} (h : Safe m l k x) (hs : m.step grow name i = some m') : Safe m' l k x := by
  have hself : ∀ {c : Call}, (∀ job a, c.pc = .append job a → a = .begin) → Safe (m.set i c) l k x := fun {c} hc =>
    safe_set (arr := m.arr) (made := m.made) i c h (fun _ h0 => h0) fun job a h1 _ => by rw [hc job a h1]; trivial
  unfold Mem.step at hs
  split at hs
  · cases hs
    exact hself fun job a h1 => by cases h1
  · split at hs
    · split at hs
      · cases hs
        exact hself fun job a h1 => by cases h1
      · cases hs
        exact hself fun job a h1 => by cases h1
    · cases hs
      exact hself fun job a h1 => by cases h1; rfl
  · cases hs
    exact hself fun job a h1 => by cases h1
  · split at hs
    · cases hs
      exact hself fun job a h1 => settle_append h1
    · rename_i last _ _ _
      cases hs
      refine hself fun job a h1 => ?_
      cases last <;> cases h1
      rfl
  · rename_i job hpc
    split at hs
    · cases hs
      refine safe_set (arr := m.arr) (made := m.made) i _ h (fun _ h0 => h0) fun job' a h1 h2 => ?_
      cases h1
      have h2 : (m.calls i).loc job = l := h2
      rw [h2]
      exact h.1
    · cases hs
      refine safe_set (arr := m.arr) i _ h (fun _ h0 => h0) fun job' a h1 h2 => ?_
      cases h1
      have h2 : (m.calls i).loc job = l := h2
      rw [h2]
      exact ⟨h.1.1, h.1.2, fun h0 => absurd h0 (Nat.not_lt_zero _)⟩
  · rename_i job s hpc
    cases hs
    have hr := h.2 i job _ hpc
    have harr : ∀ n, m.arr l n k = some x → put m.arr ((m.calls i).loc job) s.array s.len (some (elem i job)) l n k = some x := by
      intro n h0
      rw [put_other]
      · exact h0
      · intro hl
        exact Nat.ne_of_lt (hr hl.symm).1
    refine safe_set (made := m.made) i _ h harr fun job' a h1 h2 => ?_
    cases h1
    have h2 : (m.calls i).loc job = l := h2
    exact ⟨Nat.lt_succ_of_lt (hr h2).1, harr _ (hr h2).2⟩
  · rename_i job s n cap c hpc
    have hr := h.2 i job _ hpc
    split at hs
    · rename_i hlt
      cases hs
      have harr : ∀ n', m.arr l n' k = some x → put m.arr ((m.calls i).loc job) n c (m.arr ((m.calls i).loc job) s.array c) l n' k = some x := by
        intro n' h0
        by_cases hl : l = (m.calls i).loc job ∧ n' = n ∧ k = c
        · obtain ⟨h1, h2, h3⟩ := hl
          unfold put
          rw [if_pos ⟨h1, h2, h3⟩, ← h1, ← h3]
          exact (hr h1.symm).2.1
        · unfold put
          rw [if_neg hl]
          exact h0
      refine safe_set (made := m.made) i _ h harr fun job' a h1 h2 => ?_
      cases h1
      have h3 : (m.calls i).loc job = l := h2
      refine ⟨(hr h3).1, harr _ (hr h3).2.1, fun hk => ?_⟩
      by_cases hkc : k = c
      · subst hkc
        rw [h3, put_at]
        exact (hr h3).2.1
      · exact harr _ ((hr h3).2.2 (by omega))
    · rename_i hlt
      cases hs
      have harr : ∀ n', m.arr l n' k = some x → put m.arr ((m.calls i).loc job) n s.len (some (elem i job)) l n' k = some x := by
        intro n' h0
        rw [put_other]
        · exact h0
        · intro hl
          exact Nat.ne_of_lt (hr hl.symm).1
      refine safe_set (made := m.made) i _ h harr fun job' a h1 h2 => ?_
      cases h1
      have h2 : (m.calls i).loc job = l := h2
      exact ⟨Nat.lt_succ_of_lt (hr h2).1, harr _ ((hr h2).2.2 (by have := (hr h2).1; omega))⟩
  · rename_i job s hpc
    cases hs
    have hr := h.2 i job _ hpc
    refine ⟨?_, fun j job' a h1 h2 => ?_⟩
    · unfold At
      dsimp only
      split
      · rename_i hl
        exact hr hl.symm
      · exact h.1
    · unfold Mem.set at h1 h2
      dsimp only at *
      by_cases hj : j = i
      · rw [if_pos hj] at h1
        rw [next_append h1]
        trivial
      · rw [if_neg hj] at h1 h2
        exact h.2 j job' a h1 h2
  · cases hs

theorem safe_run {grow : Nat → Nat → Nat} {name : Nat → Str} {m m' : Mem} {l : Loc} {k : Nat} {x : Elem} (h : Safe m l k x) (hrun : Run grow name m m') : Safe m' l k x := by
  induction hrun with
  | refl => exact h
  | step i _ hs ih => exact safe_step ih hs

/-- **C125** The scopes that the record arrived with stay what they are and where they are, at the beginning, whatever engines note at the same time. -/
theorem own_scopes_stay {grow : Nat → Nat → Nat} {name : Nat → Str} {tags : Nat → List Str} {n : Nat} {m m' : Mem} (hstart : Starts tags n m) (h : Run grow name m m') (k : Nat) (hk : k < n) : At m' .scopes k (.own k) :=
  (safe_run ⟨⟨by rw [hstart.scopes]; exact hk, hstart.own k hk⟩, fun i job a h1 _ => by rw [(hstart.started i).1] at h1; cases h1⟩ h).1

/-! ### Who notes alone notes for good -/

/-- Executions in which only call `i` makes steps. -/
inductive RunOf (grow : Nat → Nat → Nat) (name : Nat → Str) (i : Nat) (m : Mem) : Mem → Prop where
  | refl : RunOf grow name i m m
  | step {m' m'' : Mem} : RunOf grow name i m m' → m'.step grow name i = some m'' → RunOf grow name i m m''

/-- How much of its work a call has done. -/
def rank : Pc → Nat
  | .start | .scan _ _ | .append .scope _ => 0
  | .look .rules _ | .probe .rules _ _ | .append (.attr .rules) _ => 1
  | .look .tags _ | .probe .tags _ _ | .append (.attr .tags) _ => 2
  | .append (.value .rules _) _ => 3
  | _ => 4

/-- What a call that is alone knows: its scope, its attributes and what it has noted are there, and the slice it looks at is the present one. -/
structure Knows (name : Str) (tags : List Str) (i : Nat) (m : Mem) (c : Call) : Prop where
  scopeAt : 1 ≤ rank c.pc → ∃ k, Safe m .scopes k (.scope c.scope)
  rulesAt : 2 ≤ rank c.pc → ∃ k, Safe m (.attrs c.scope) k (.attr c.rules .rules)
  tagsAt : 3 ≤ rank c.pc → ∃ k, Safe m (.attrs c.scope) k (.attr c.tags .tags)
  ruleAt : 4 ≤ rank c.pc → ∃ k, Safe m (.values c.rules .rules) k (.value i .rules name)
  tagAt : ∀ t ∈ tags, t ∈ c.todo ∨ (∃ a, c.pc = .append (.value .tags t) a) ∨ (4 ≤ rank c.pc ∧ ∃ k, Safe m (.values c.tags .tags) k (.value i .tags t))
  scan : ∀ h k, c.pc = .scan h k → h = m.hdr .scopes
  probe : ∀ key h last, c.pc = .probe key h last → h = m.hdr (.attrs c.scope)
  store : ∀ job s, c.pc = .append job (.store s) → 0 < s.len ∧ m.arr (c.loc job) s.array (s.len - 1) = some (elem i job)
  text : ∀ t a, c.pc = .append (.value .rules t) a → t = name
  fin : c.pc = .done → c.todo = []

/-- The others are not under way. -/
def Others (i : Nat) (m : Mem) : Prop := ∀ j, j ≠ i → (m.calls j).pc = .start ∨ (m.calls j).pc = .done

theorem safe_of_at {m : Mem} {i : Nat} (ho : Others i m) (hi : ∀ job a, (m.calls i).pc = .append job a → a = .begin) {l : Loc} {k : Nat} {x : Elem} (h : At m l k x) : Safe m l k x := by
  refine ⟨h, fun j job a h1 _ => ?_⟩
  by_cases hj : j = i
  · subst hj
    rw [hi job a h1]
    trivial
  · rcases ho j hj with h2 | h2 <;> rw [h2] at h1 <;> cases h1

theorem attrOf_some {key : Key} {x : Option Elem} {j : Nat} (h : attrOf key x = some j) : x = some (.attr j key) := by
  unfold attrOf at h
  split at h
  · split at h
    · rename_i hk
      injection h with h
      rw [h, hk]
    · cases h
  · cases h

theorem position_lt {h : Slice} {last : Bool} {k : Nat} (hp : position h last = some k) : k < h.len := by
  unfold position at hp
  split at hp <;> split at hp <;> cases hp <;> omega

theorem step_others {grow : Nat → Nat → Nat} {name : Nat → Str} {m m' : Mem} {i : Nat} (hs : m.step grow name i = some m') (j : Nat) (hj : j ≠ i) : m'.calls j = m.calls j := by
  have hset : ∀ c, (m.set i c).calls j = m.calls j := fun c => if_neg hj
  unfold Mem.step at hs
  split at hs
  · cases hs; exact hset _
  · split at hs
    · split at hs <;> cases hs <;> exact hset _
    · cases hs; exact hset _
  · cases hs; exact hset _
  · split at hs <;> cases hs <;> exact hset _
  · split at hs <;> cases hs <;> exact hset _
  · cases hs; exact hset _
  · split at hs <;> cases hs <;> exact hset _
  · cases hs; exact hset _
  · cases hs

/-- The scope or the attribute that has been found or made, or the value that has been appended, is there. -/
theorem knows_settle {name : Str} {tags : List Str} {i : Nat} {m m' : Mem} {c : Call} {key : Key} {j k : Nat} (h : Knows name tags i m c) (hr : rank c.pc = match key with | .rules => 1 | .tags => 2)
    (hsafe : ∀ l k x, Safe m l k x → Safe m' l k x) (hat : Safe m' (.attrs c.scope) k (.attr j key)) (hno : ∀ t a, c.pc ≠ .append (.value .tags t) a) : Knows name tags i m' (c.settle name key j) := by
  cases key with
  | rules =>
    have hr : rank c.pc = 1 := hr
    refine ⟨fun _ => (h.scopeAt (by omega)).imp fun k => hsafe _ _ _, fun _ => ⟨k, hat⟩, fun h0 => absurd h0 (Nat.not_le_of_lt (Nat.le_of_ble_eq_true rfl)), fun h0 => absurd h0 (Nat.not_le_of_lt (Nat.le_of_ble_eq_true rfl)), fun t ht => ?_,
      fun h k h0 => (by cases h0), fun key h last h0 => (by cases h0), fun job s h0 => (by cases h0), fun t a h0 => (by cases h0), fun h0 => (by cases h0)⟩
    rcases h.tagAt t ht with h1 | ⟨a, h1⟩ | ⟨h1, -⟩
    · exact .inl h1
    · exact absurd h1 (hno t a)
    · omega
  | tags =>
    have hr : rank c.pc = 2 := hr
    refine ⟨fun _ => (h.scopeAt (by omega)).imp fun k => hsafe _ _ _, fun _ => (h.rulesAt (by omega)).imp fun k => hsafe _ _ _, fun _ => ⟨k, hat⟩, fun h0 => absurd h0 (Nat.not_le_of_lt (Nat.le_of_ble_eq_true rfl)), fun t ht => ?_,
      fun h k h0 => (by cases h0), fun key h last h0 => (by cases h0), fun job s h0 => (by cases h0), fun t a h0 => (by cases h0; rfl), fun h0 => (by cases h0)⟩
    rcases h.tagAt t ht with h1 | ⟨a, h1⟩ | ⟨h1, -⟩
    · exact .inl h1
    · exact absurd h1 (hno t a)
    · omega

/-- A call whose work stays what it is. -/
theorem knows_same {name : Str} {tags : List Str} {i : Nat} {m m' : Mem} {c : Call} {pc : Pc} (h : Knows name tags i m c) (hsafe : ∀ l k x, Safe m l k x → Safe m' l k x) (hr : rank c.pc = rank pc)
    (htag : ∀ t a, c.pc = .append (.value .tags t) a → ∃ a, pc = .append (.value .tags t) a) (hscan : ∀ h k, pc = .scan h k → h = m'.hdr .scopes) (hprobe : ∀ key h last, pc = .probe key h last → h = m'.hdr (.attrs c.scope))
    (hstore : ∀ job s, pc = .append job (.store s) → 0 < s.len ∧ m'.arr (c.loc job) s.array (s.len - 1) = some (elem i job)) (htext : ∀ t a, pc = .append (.value .rules t) a → t = name) (hfin : pc ≠ .done) :
    Knows name tags i m' { c with pc := pc } := by
  refine ⟨fun h0 => (h.scopeAt (by rw [hr]; exact h0)).imp fun k => hsafe _ _ _, fun h0 => (h.rulesAt (by rw [hr]; exact h0)).imp fun k => hsafe _ _ _, fun h0 => (h.tagsAt (by rw [hr]; exact h0)).imp fun k => hsafe _ _ _,
    fun h0 => (h.ruleAt (by rw [hr]; exact h0)).imp fun k => hsafe _ _ _, fun t ht => ?_, hscan, hprobe, hstore, htext, fun h0 => absurd h0 hfin⟩
  rcases h.tagAt t ht with h1 | ⟨a, h1⟩ | ⟨h1, k, h2⟩
  · exact .inl h1
  · exact .inr (.inl (htag t a h1))
  · exact .inr (.inr ⟨by rw [← hr]; exact h1, k, hsafe _ _ _ h2⟩)

theorem knows_step {grow : Nat → Nat → Nat} {name : Nat → Str} {tags : List Str} {m m' : Mem} {i : Nat} (ho : Others i m) (h : Knows (name i) tags i m (m.calls i)) (hs : m.step grow name i = some m') :
    Knows (name i) tags i m' (m'.calls i) := by
  have hsafe : ∀ l k x, Safe m l k x → Safe m' l k x := fun l k x h0 => safe_step h0 hs
  have ho' : Others i m' := fun j hj => by rw [step_others hs j hj]; exact ho j hj
  have hset : ∀ c, (m.set i c).calls i = c := fun c => if_pos rfl
  unfold Mem.step at hs
  split at hs
  · rename_i hpc
    cases hs
    rw [hset]
    refine knows_same h hsafe (by rw [hpc]; rfl) (fun t a h0 => by rw [hpc] at h0; cases h0) (fun h k h0 => by cases h0; rfl) (fun key h last h0 => by cases h0) (fun job s h0 => by cases h0) (fun t a h0 => by cases h0) (by intro h0; cases h0)
  · rename_i s k hpc
    have hsc := h.scan s k hpc
    split at hs
    · rename_i hk
      split at hs
      · rename_i j hj
        cases hs
        rw [hset]
        have hat : Safe m .scopes k (.scope j) := safe_of_at ho (fun job a h0 => by rw [hpc] at h0; cases h0) ⟨by rw [← hsc]; exact hk, by rw [← hsc]; exact hj⟩
        refine ⟨fun _ => ⟨k, hsafe _ _ _ hat⟩, fun h0 => absurd h0 (Nat.not_le_of_lt (Nat.le_of_ble_eq_true rfl)), fun h0 => absurd h0 (Nat.not_le_of_lt (Nat.le_of_ble_eq_true rfl)),
          fun h0 => absurd h0 (Nat.not_le_of_lt (Nat.le_of_ble_eq_true rfl)), fun t ht => ?_, fun h k h0 => (by cases h0), fun key h last h0 => (by cases h0), fun job s h0 => (by cases h0), fun t a h0 => (by cases h0), fun h0 => (by cases h0)⟩
        rcases h.tagAt t ht with h1 | ⟨a, h1⟩ | ⟨h1, -⟩
        · exact .inl h1
        · rw [hpc] at h1; cases h1
        · rw [hpc] at h1; exact absurd h1 (Nat.not_le_of_lt (Nat.le_of_ble_eq_true rfl))
      · cases hs
        rw [hset]
        exact knows_same h hsafe (by rw [hpc]; rfl) (fun t a h0 => by rw [hpc] at h0; cases h0) (fun h k h0 => by cases h0; exact hsc) (fun key h last h0 => by cases h0) (fun job s h0 => by cases h0) (fun t a h0 => by cases h0) (by intro h0; cases h0)
    · cases hs
      rw [hset]
      exact knows_same h hsafe (by rw [hpc]; rfl) (fun t a h0 => by rw [hpc] at h0; cases h0) (fun h k h0 => by cases h0) (fun key h last h0 => by cases h0) (fun job s h0 => by cases h0) (fun t a h0 => by cases h0) (by intro h0; cases h0)
  · rename_i key last hpc
    cases hs
    rw [hset]
    exact knows_same h hsafe (by rw [hpc]; cases key <;> rfl) (fun t a h0 => by rw [hpc] at h0; cases h0) (fun h k h0 => by cases h0) (fun key h last h0 => by cases h0; rfl) (fun job s h0 => by cases h0) (fun t a h0 => by cases h0) (by intro h0; cases h0)
  · rename_i key s last hpc
    have hpr := h.probe key s last hpc
    split at hs
    · rename_i j hj
      cases hs
      rw [hset]
      obtain ⟨k, h1, h2⟩ := Option.bind_eq_some_iff.1 hj
      have hat : Safe m (.attrs (m.calls i).scope) k (.attr j key) :=
        safe_of_at ho (fun job a h0 => by rw [hpc] at h0; cases h0) ⟨by rw [← hpr]; exact position_lt h1, by rw [← hpr]; exact attrOf_some h2⟩
      exact knows_settle h (by rw [hpc]; cases key <;> rfl) hsafe (hsafe _ _ _ hat) (fun t a h0 => by rw [hpc] at h0; cases h0)
    · cases hs
      rw [hset]
      cases last
      · exact knows_same h hsafe (by rw [hpc]; cases key <;> rfl) (fun t a h0 => by rw [hpc] at h0; cases h0) (fun h k h0 => by cases h0) (fun key h last h0 => by cases h0) (fun job s h0 => by cases h0) (fun t a h0 => by cases h0) (by intro h0; cases h0)
      · exact knows_same h hsafe (by rw [hpc]; cases key <;> rfl) (fun t a h0 => by rw [hpc] at h0; cases h0) (fun h k h0 => by cases h0) (fun key h last h0 => by cases h0) (fun job s h0 => by cases h0) (fun t a h0 => by cases h0) (by intro h0; cases h0)
  · rename_i job hpc
    have hrank : ∀ a, rank (.append job .begin) = rank (.append job a) := by
      intro a
      cases job with
      | scope => rfl
      | attr key => cases key <;> rfl
      | value key t => cases key <;> rfl
    have htag : ∀ a' t a, (m.calls i).pc = .append (.value .tags t) a → ∃ a, Pc.append job a' = .append (.value .tags t) a := fun a' t a h0 => by
      rw [hpc] at h0; cases h0; exact ⟨_, rfl⟩
    split at hs
    · cases hs
      rw [hset]
      exact knows_same h hsafe (by rw [hpc]; exact hrank _) (htag _) (fun h k h0 => by cases h0) (fun key h last h0 => by cases h0) (fun job s h0 => by cases h0) (fun t a h0 => by cases h0; exact h.text t _ hpc) (by intro h0; cases h0)
    · cases hs
      change Knows (name i) tags i _ ((m.set i _).calls i)
      rw [hset]
      exact knows_same h hsafe (by rw [hpc]; exact hrank _) (htag _) (fun h k h0 => by cases h0) (fun key h last h0 => by cases h0) (fun job s h0 => by cases h0) (fun t a h0 => by cases h0; exact h.text t _ hpc) (by intro h0; cases h0)
  · rename_i job s hpc
    have hrank : ∀ a, rank (.append job (.write s)) = rank (.append job a) := by
      intro a
      cases job with
      | scope => rfl
      | attr key => cases key <;> rfl
      | value key t => cases key <;> rfl
    have htag : ∀ a' t a, (m.calls i).pc = .append (.value .tags t) a → ∃ a, Pc.append job a' = .append (.value .tags t) a := fun a' t a h0 => by
      rw [hpc] at h0; cases h0; exact ⟨_, rfl⟩
    cases hs
    change Knows (name i) tags i _ ((m.set i _).calls i)
    rw [hset]
    refine knows_same h hsafe (by rw [hpc]; exact hrank _) (htag _) (fun h k h0 => by cases h0) (fun key h last h0 => by cases h0) (fun job s h0 => ?_) (fun t a h0 => by cases h0; exact h.text t _ hpc) (by intro h0; cases h0)
    cases h0
    exact ⟨Nat.succ_pos _, put_at _ _ _ _ _⟩
  · rename_i job s n cap k hpc
    have hrank : ∀ a, rank (.append job (.copy s n cap k)) = rank (.append job a) := by
      intro a
      cases job with
      | scope => rfl
      | attr key => cases key <;> rfl
      | value key t => cases key <;> rfl
    have htag : ∀ a' t a, (m.calls i).pc = .append (.value .tags t) a → ∃ a, Pc.append job a' = .append (.value .tags t) a := fun a' t a h0 => by
      rw [hpc] at h0; cases h0; exact ⟨_, rfl⟩
    split at hs
    · cases hs
      change Knows (name i) tags i _ ((m.set i _).calls i)
      rw [hset]
      exact knows_same h hsafe (by rw [hpc]; exact hrank _) (htag _) (fun h k h0 => by cases h0) (fun key h last h0 => by cases h0) (fun job s h0 => by cases h0) (fun t a h0 => by cases h0; exact h.text t _ hpc) (by intro h0; cases h0)
    · cases hs
      change Knows (name i) tags i _ ((m.set i _).calls i)
      rw [hset]
      refine knows_same h hsafe (by rw [hpc]; exact hrank _) (htag _) (fun h k h0 => by cases h0) (fun key h last h0 => by cases h0) (fun job s h0 => ?_) (fun t a h0 => by cases h0; exact h.text t _ hpc) (by intro h0; cases h0)
      cases h0
      exact ⟨Nat.succ_pos _, put_at _ _ _ _ _⟩
  · rename_i job s hpc
    obtain ⟨hs1, hs2⟩ := h.store job s hpc
    cases hs
    have hcall : ∀ hdr, ({ m.set i ((m.calls i).next i (name i) job) with hdr := hdr } : Mem).calls i = (m.calls i).next i (name i) job := fun hdr => if_pos rfl
    have hat : Safe { m.set i ((m.calls i).next i (name i) job) with hdr := fun l => if l = (m.calls i).loc job then s else m.hdr l } ((m.calls i).loc job) (s.len - 1) (elem i job) := by
      refine safe_of_at ho' (fun job' a h0 => ?_) ⟨?_, ?_⟩
      · rw [hcall] at h0
        exact next_append h0
      · dsimp only
        rw [if_pos rfl]
        omega
      · dsimp only
        rw [if_pos rfl]
        exact hs2
    rw [hcall]
    cases job with
    | scope =>
      refine ⟨fun _ => ⟨_, hat⟩, fun h0 => absurd h0 (Nat.not_le_of_lt (Nat.le_of_ble_eq_true rfl)), fun h0 => absurd h0 (Nat.not_le_of_lt (Nat.le_of_ble_eq_true rfl)),
        fun h0 => absurd h0 (Nat.not_le_of_lt (Nat.le_of_ble_eq_true rfl)), fun t ht => ?_, fun h k h0 => (by cases h0), fun key h last h0 => (by cases h0), fun job s h0 => (by cases h0), fun t a h0 => (by cases h0), fun h0 => (by cases h0)⟩
      rcases h.tagAt t ht with h1 | ⟨a, h1⟩ | ⟨h1, -⟩
      · exact .inl h1
      · rw [hpc] at h1; cases h1
      · rw [hpc] at h1; exact absurd h1 (Nat.not_le_of_lt (Nat.le_of_ble_eq_true rfl))
    | attr key => exact knows_settle h (by rw [hpc]; cases key <;> rfl) hsafe hat (fun t a h0 => by rw [hpc] at h0; cases h0)
    | value key t =>
      have hrank : 3 ≤ rank (m.calls i).pc := by rw [hpc]; cases key <;> exact Nat.le_of_ble_eq_true rfl
      have hS := h.scopeAt (by omega)
      have hR := h.rulesAt (by omega)
      have hT := h.tagsAt (by omega)
      have hV : ∃ k, Safe m (.values (m.calls i).rules .rules) k (.value i .rules (name i)) ∨ (key = .rules ∧ t = name i) := by
        cases key with
        | rules => exact ⟨0, .inr ⟨rfl, h.text t _ hpc⟩⟩
        | tags =>
          obtain ⟨k, hk⟩ := h.ruleAt (by rw [hpc]; exact Nat.le_refl _)
          exact ⟨k, .inl hk⟩
      have hV' : ∃ k, Safe { m.set i ((m.calls i).next i (name i) (.value key t)) with hdr := fun l => if l = (m.calls i).loc (.value key t) then s else m.hdr l } (.values (m.calls i).rules .rules) k (.value i .rules (name i)) := by
        obtain ⟨k, hk | ⟨hk1, hk2⟩⟩ := hV
        · exact ⟨k, hsafe _ _ _ hk⟩
        · subst hk1
          rw [hk2] at hat ⊢
          exact ⟨_, hat⟩
      have hG : ∀ t' ∈ tags, t' ∈ (m.calls i).todo ∨ ∃ k, Safe { m.set i ((m.calls i).next i (name i) (.value key t)) with hdr := fun l => if l = (m.calls i).loc (.value key t) then s else m.hdr l } (.values (m.calls i).tags .tags) k
          (.value i .tags t') := by
        intro t' ht'
        rcases h.tagAt t' ht' with h1 | ⟨a, h1⟩ | ⟨-, k, h2⟩
        · exact .inl h1
        · rw [hpc] at h1
          cases h1
          exact .inr ⟨_, hat⟩
        · exact .inr ⟨k, hsafe _ _ _ h2⟩
      unfold Call.next at *
      dsimp only at *
      cases htodo : (m.calls i).todo with
      | nil =>
        simp only [htodo] at *
        exact ⟨fun _ => hS.imp fun k => hsafe _ _ _, fun _ => hR.imp fun k => hsafe _ _ _, fun _ => hT.imp fun k => hsafe _ _ _, fun _ => hV', fun t' ht' => (hG t' ht').elim (fun h0 => .inl h0) fun h0 => .inr (.inr ⟨Nat.le_refl _, h0⟩),
          fun h k h0 => (by cases h0), fun key h last h0 => (by cases h0), fun job s h0 => (by cases h0), fun t a h0 => (by cases h0), fun _ => rfl⟩
      | cons t₁ ts =>
        simp only [htodo] at *
        refine ⟨fun _ => hS.imp fun k => hsafe _ _ _, fun _ => hR.imp fun k => hsafe _ _ _, fun _ => hT.imp fun k => hsafe _ _ _, fun _ => hV', fun t' ht' => ?_,
          fun h k h0 => (by cases h0), fun key h last h0 => (by cases h0), fun job s h0 => (by cases h0), fun t a h0 => (by cases h0), fun h0 => (by cases h0)⟩
        rcases hG t' ht' with h0 | h0
        · rcases List.mem_cons.1 h0 with h0 | h0
          · exact .inr (.inl ⟨_, by rw [h0]⟩)
          · exact .inl h0
        · exact .inr (.inr ⟨Nat.le_refl _, h0⟩)
  · cases hs

theorem knows_run {grow : Nat → Nat → Nat} {name : Nat → Str} {tags : List Str} {m m' : Mem} {i : Nat} (ho : Others i m) (h : Knows (name i) tags i m (m.calls i)) (hr : RunOf grow name i m m') :
    Others i m' ∧ Knows (name i) tags i m' (m'.calls i) := by
  induction hr with
  | refl => exact ⟨ho, h⟩
  | step _ hs ih =>
    exact ⟨fun j hj => by rw [step_others hs j hj]; exact ih.1 j hj, knows_step ih.1 ih.2 hs⟩

/-- **C125** A call that is alone, from its beginning to its end, notes for good: whatever has been noted before, and whatever engines do from then on, at the same time or not, its rule and its tags are listed. -/
theorem alone_kept {grow : Nat → Nat → Nat} {name : Nat → Str} {tags : Nat → List Str} {n : Nat} {m₀ m₁ m₂ m₃ : Mem} {i : Nat} (htags : ∀ i, (tags i).Nodup) (hstart : Starts tags n m₀) (h₁ : Run grow name m₀ m₁)
    (hquiet : Quiet m₁) (hbegin : (m₁.calls i).pc = .start) (h₂ : RunOf grow name i m₁ m₂) (hend : (m₂.calls i).pc = .done) (h₃ : Run grow name m₂ m₃) :
    (∃ k₁ k₂ k₃, Listed m₃ k₁ k₂ k₃ .rules (.value i .rules (name i))) ∧ ∀ t ∈ tags i, ∃ k₁ k₂ k₃, Listed m₃ k₁ k₂ k₃ .tags (.value i .tags t) := by
  have hi := inv_run htags hstart h₁
  have hk : Knows (name i) (tags i) i m₁ (m₁.calls i) := by
    have hr : rank (m₁.calls i).pc = 0 := by rw [hbegin]; rfl
    refine ⟨fun h0 => by omega, fun h0 => by omega, fun h0 => by omega, fun h0 => by omega, fun t ht => .inl (by rw [(hi.mine i).first hbegin]; exact ht), fun h k h0 => ?_, fun key h last h0 => ?_, fun job s h0 => ?_, fun t a h0 => ?_, fun h0 => ?_⟩ <;>
      rw [hbegin] at h0 <;> cases h0
  obtain ⟨-, hk'⟩ := knows_run (fun j _ => hquiet j) hk h₂
  have hr : rank (m₂.calls i).pc = 4 := by rw [hend]; rfl
  obtain ⟨k₁, hS⟩ := hk'.scopeAt (by omega)
  obtain ⟨k₂, hR⟩ := hk'.rulesAt (by omega)
  obtain ⟨k₃, hT⟩ := hk'.tagsAt (by omega)
  obtain ⟨k₄, hV⟩ := hk'.ruleAt (by omega)
  refine ⟨⟨k₁, k₂, k₄, _, _, (safe_run hS h₃).1, (safe_run hR h₃).1, (safe_run hV h₃).1⟩, fun t ht => ?_⟩
  rcases hk'.tagAt t ht with h0 | ⟨a, h0⟩ | ⟨-, k, h0⟩
  · rw [hk'.fin hend] at h0
    cases h0
  · rw [hend] at h0; cases h0
  · exact ⟨k₁, k₃, k, _, _, (safe_run hS h₃).1, (safe_run hT h₃).1, (safe_run h0 h₃).1⟩

/-- Calls one after the other, each alone from its beginning to its end. -/
inductive Turns (grow : Nat → Nat → Nat) (name : Nat → Str) (m : Mem) : List Nat → Mem → Prop where
  | nil : Turns grow name m [] m
  | snoc {is : List Nat} {m' m'' : Mem} (i : Nat) : Turns grow name m is m' → (m'.calls i).pc = .start → RunOf grow name i m' m'' → (m''.calls i).pc = .done → Turns grow name m (is ++ [i]) m''

theorem runOf_run {grow : Nat → Nat → Nat} {name : Nat → Str} {i : Nat} {m₀ m m' : Mem} (h₀ : Run grow name m₀ m) (h : RunOf grow name i m m') : Run grow name m₀ m' := by
  induction h with
  | refl => exact h₀
  | step _ hs ih => exact .step i ih hs

theorem runOf_others {grow : Nat → Nat → Nat} {name : Nat → Str} {i : Nat} {m m' : Mem} (h : RunOf grow name i m m') (j : Nat) (hj : j ≠ i) : m'.calls j = m.calls j := by
  induction h with
  | refl => rfl
  | step _ hs ih => exact (step_others hs j hj).trans ih

theorem run_trans {grow : Nat → Nat → Nat} {name : Nat → Str} {a b c : Mem} (h₁ : Run grow name a b) (h₂ : Run grow name b c) : Run grow name a c := by
  induction h₂ with
  | refl => exact h₁
  | step i _ hs ih => exact .step i ih hs

/-- **C125** If engines note one at a time, nothing is lost: in the end the rule and the tags of every call are listed. -/
theorem in_turn_all {grow : Nat → Nat → Nat} {name : Nat → Str} {tags : Nat → List Str} {n : Nat} {m m' : Mem} (htags : ∀ i, (tags i).Nodup) (hstart : Starts tags n m) {is : List Nat} (h : Turns grow name m is m') :
    ∀ i ∈ is, (∃ k₁ k₂ k₃, Listed m' k₁ k₂ k₃ .rules (.value i .rules (name i))) ∧ ∀ t ∈ tags i, ∃ k₁ k₂ k₃, Listed m' k₁ k₂ k₃ .tags (.value i .tags t) := by
  have key : Run grow name m m' ∧ Quiet m' ∧ ∀ i ∈ is, ∀ m'', Run grow name m' m'' →
      (∃ k₁ k₂ k₃, Listed m'' k₁ k₂ k₃ .rules (.value i .rules (name i))) ∧ ∀ t ∈ tags i, ∃ k₁ k₂ k₃, Listed m'' k₁ k₂ k₃ .tags (.value i .tags t) := by
    induction h with
    | nil => exact ⟨.refl, fun i => .inl (hstart.started i).1, fun i hi => (by cases hi)⟩
    | snoc j _ hbegin hof hend ih =>
      obtain ⟨h1, h2, h3⟩ := ih
      refine ⟨runOf_run h1 hof, fun i => ?_, fun i hi m'' h4 => ?_⟩
      · by_cases hij : i = j
        · rw [hij]; exact .inr hend
        · rw [runOf_others hof i hij]; exact h2 i
      · rcases List.mem_append.1 hi with hi | hi
        · exact h3 i hi m'' (run_trans (runOf_run .refl hof) h4)
        · rw [List.mem_singleton.1 hi]
          exact alone_kept htags hstart h1 h2 hbegin hof hend h4
  exact fun i hi => key.2.2 i hi m' .refl

/-! ### A call comes to its end -/

/-- What a call has before it: phases. -/
def ahead (t : Nat) : Pc → Nat
  | .start => 19 + 2 * t
  | .scan _ _ => 18 + 2 * t
  | .append .scope .begin => 17 + 2 * t
  | .append .scope _ => 16 + 2 * t
  | .look .rules false => 15 + 2 * t
  | .probe .rules _ false => 14 + 2 * t
  | .look .rules true => 13 + 2 * t
  | .probe .rules _ true => 12 + 2 * t
  | .append (.attr .rules) .begin => 11 + 2 * t
  | .append (.attr .rules) _ => 10 + 2 * t
  | .look .tags false => 9 + 2 * t
  | .probe .tags _ false => 8 + 2 * t
  | .look .tags true => 7 + 2 * t
  | .probe .tags _ true => 6 + 2 * t
  | .append (.attr .tags) .begin => 5 + 2 * t
  | .append (.attr .tags) _ => 4 + 2 * t
  | .append (.value _ _) .begin => 3 + 2 * t
  | .append (.value _ _) _ => 2 + 2 * t
  | .done => 0

/-- What a call has before it in its phase. -/
def within : Pc → Nat
  | .scan h k => h.len - k
  | .append _ (.write _) => 1
  | .append _ (.copy h _ _ k) => h.len - k + 1
  | _ => 0

/-- One state of a call is nearer to the end than the other. -/
def Nearer (c' c : Call) : Prop := Prod.Lex (· < ·) (· < ·) (ahead c'.todo.length c'.pc, within c'.pc) (ahead c.todo.length c.pc, within c.pc)

theorem nearer_wf : WellFounded Nearer := InvImage.wf (fun c : Call => (ahead c.todo.length c.pc, within c.pc)) (Prod.lex ⟨_, Nat.lt_wfRel.wf⟩ ⟨_, Nat.lt_wfRel.wf⟩).wf

theorem settle_nearer {name : Str} {c : Call} {key : Key} {j : Nat} (h : (match key with | .rules => 9 | .tags => 3) + 2 * c.todo.length < ahead c.todo.length c.pc) : Nearer (c.settle name key j) c := by
  refine .left _ _ ?_
  cases key <;> exact h

theorem step_nearer {grow : Nat → Nat → Nat} {name : Nat → Str} {m m' : Mem} {i : Nat} (hs : m.step grow name i = some m') : Nearer (m'.calls i) (m.calls i) := by
  have hset : ∀ c, (m.set i c).calls i = c := fun c => if_pos rfl
  unfold Mem.step at hs
  split at hs
  · rename_i hpc
    cases hs
    rw [hset]
    refine .left _ _ ?_
    rw [hpc]
    exact Nat.add_lt_add_right (Nat.le_of_ble_eq_true rfl) _
  · rename_i s k hpc
    split at hs
    · split at hs
      · cases hs
        rw [hset]
        refine .left _ _ ?_
        rw [hpc]
        exact Nat.add_lt_add_right (Nat.le_of_ble_eq_true rfl) _
      · cases hs
        rw [hset]
        unfold Nearer
        rw [hpc]
        refine .right _ ?_
        change s.len - (k + 1) < s.len - k
        omega
    · cases hs
      rw [hset]
      refine .left _ _ ?_
      rw [hpc]
      exact Nat.add_lt_add_right (Nat.le_of_ble_eq_true rfl) _
  · rename_i key last hpc
    cases hs
    rw [hset]
    refine .left _ _ ?_
    rw [hpc]
    cases key <;> cases last <;> exact Nat.add_lt_add_right (Nat.le_of_ble_eq_true rfl) _
  · rename_i key s last hpc
    split at hs
    · cases hs
      rw [hset]
      refine settle_nearer ?_
      rw [hpc]
      cases key <;> cases last <;> exact Nat.add_lt_add_right (Nat.le_of_ble_eq_true rfl) _
    · cases hs
      rw [hset]
      refine .left _ _ ?_
      rw [hpc]
      cases key <;> cases last <;> exact Nat.add_lt_add_right (Nat.le_of_ble_eq_true rfl) _
  · rename_i job hpc
    split at hs
    · cases hs
      rw [hset]
      refine .left _ _ ?_
      rw [hpc]
      cases job with
      | scope => exact Nat.add_lt_add_right (Nat.le_of_ble_eq_true rfl) _
      | attr key => cases key <;> exact Nat.add_lt_add_right (Nat.le_of_ble_eq_true rfl) _
      | value key t => exact Nat.add_lt_add_right (Nat.le_of_ble_eq_true rfl) _
    · cases hs
      change Nearer ((m.set i _).calls i) _
      rw [hset]
      refine .left _ _ ?_
      rw [hpc]
      cases job with
      | scope => exact Nat.add_lt_add_right (Nat.le_of_ble_eq_true rfl) _
      | attr key => cases key <;> exact Nat.add_lt_add_right (Nat.le_of_ble_eq_true rfl) _
      | value key t => exact Nat.add_lt_add_right (Nat.le_of_ble_eq_true rfl) _
  · rename_i job s hpc
    cases hs
    change Nearer ((m.set i _).calls i) _
    rw [hset]
    unfold Nearer
    rw [hpc]
    cases job with
    | scope => exact .right _ (Nat.le_of_ble_eq_true rfl)
    | attr key => cases key <;> exact .right _ (Nat.le_of_ble_eq_true rfl)
    | value key t => exact .right _ (Nat.le_of_ble_eq_true rfl)
  · rename_i job s n cap k hpc
    split at hs
    · rename_i hlt
      cases hs
      change Nearer ((m.set i _).calls i) _
      rw [hset]
      unfold Nearer
      rw [hpc]
      have hlt : s.len - (k + 1) + 1 < s.len - k + 1 := by omega
      cases job with
      | scope => exact .right _ hlt
      | attr key => cases key <;> exact .right _ hlt
      | value key t => exact .right _ hlt
    · cases hs
      change Nearer ((m.set i _).calls i) _
      rw [hset]
      unfold Nearer
      rw [hpc]
      have hlt : 0 < s.len - k + 1 := Nat.succ_pos _
      cases job with
      | scope => exact .right _ hlt
      | attr key => cases key <;> exact .right _ hlt
      | value key t => exact .right _ hlt
  · rename_i job s hpc
    cases hs
    change Nearer ((m.set i _).calls i) _
    rw [hset]
    cases job with
    | scope =>
      refine .left _ _ ?_
      rw [hpc]
      exact Nat.add_lt_add_right (Nat.le_of_ble_eq_true rfl) _
    | attr key =>
      refine settle_nearer ?_
      rw [hpc]
      cases key <;> exact Nat.add_lt_add_right (Nat.le_of_ble_eq_true rfl) _
    | value key t =>
      unfold Call.next
      dsimp only
      refine .left _ _ ?_
      split
      · rw [hpc]
        exact Nat.lt_of_lt_of_le (Nat.le_of_ble_eq_true rfl) (Nat.le_add_right 2 _)
      · rename_i t₁ ts ht
        rw [hpc, ht]
        change 3 + 2 * ts.length < 2 + 2 * (ts.length + 1)
        omega
  · cases hs

/-- **C125** A call never waits and comes to its end in finitely many steps: whatever others do in between, it can make its next step unless it is at its end, and every step brings it nearer, which cannot go on for ever. -/
theorem call_ends {grow : Nat → Nat → Nat} {name : Nat → Str} : (∀ (m : Mem) i, (m.calls i).pc ≠ .done → ∃ m', m.step grow name i = some m') ∧
    ∀ (ms : Nat → Mem) i, ¬∀ r, ((ms (r + 1)).calls i = (ms r).calls i ∨ (ms r).step grow name i = some (ms (r + 1))) ∧ ∃ r' ≥ r, (ms r').step grow name i = some (ms (r' + 1)) := by
  constructor
  · intro m i hpc
    unfold Mem.step
    split
    · exact ⟨_, rfl⟩
    · split
      · split <;> exact ⟨_, rfl⟩
      · exact ⟨_, rfl⟩
    · exact ⟨_, rfl⟩
    · split <;> exact ⟨_, rfl⟩
    · split <;> exact ⟨_, rfl⟩
    · exact ⟨_, rfl⟩
    · split <;> exact ⟨_, rfl⟩
    · exact ⟨_, rfl⟩
    · rename_i h; exact absurd h hpc
  · intro ms i h
    have key : ∀ c r, (ms r).calls i = c → False := by
      intro c
      induction c using nearer_wf.induction with
      | h c ih =>
        intro r hc
        obtain ⟨r', hr', hs⟩ := (h r).2
        have hstay : ∀ d, (∃ e < d, (ms (r + e)).step grow name i = some (ms (r + e + 1))) ∨ (ms (r + d)).calls i = c := by
          intro d
          induction d with
          | zero => exact .inr hc
          | succ d ihd =>
            rcases ihd with ⟨e, he, h0⟩ | h0
            · exact .inl ⟨e, by omega, h0⟩
            · rcases (h (r + d)).1 with h1 | h1
              · exact .inr (h1.trans h0)
              · exact .inl ⟨d, by omega, h1⟩
        have hfirst : ∃ e, (ms (r + e)).calls i = c ∧ (ms (r + e)).step grow name i = some (ms (r + e + 1)) := by
          have : ∀ d, (∃ e < d, (ms (r + e)).step grow name i = some (ms (r + e + 1))) → ∃ e, (ms (r + e)).calls i = c ∧ (ms (r + e)).step grow name i = some (ms (r + e + 1)) := by
            intro d
            induction d with
            | zero => rintro ⟨e, he, -⟩; omega
            | succ d ihd =>
              rintro ⟨e, he, h0⟩
              rcases hstay e with h1 | h1
              · obtain ⟨e', he', h2⟩ := h1
                exact ihd ⟨e', by omega, h2⟩
              · exact ⟨e, h1, h0⟩
          refine this (r' - r + 1) ⟨r' - r, by omega, ?_⟩
          rw [show r + (r' - r) = r' by omega]
          exact hs
        obtain ⟨e, h1, h2⟩ := hfirst
        exact ih _ (h1 ▸ step_nearer h2) (r + e + 1) rfl
    exact key _ 0 rfl

/-! ### Findings, and the hypotheses -/

/-- Steps of these calls, one after the other. -/
def Mem.steps (grow : Nat → Nat → Nat) (name : Nat → Str) (m : Mem) : List Nat → Option Mem
  | [] => some m
  | i :: is => (m.step grow name i).bind (fun m' => m'.steps grow name is)

theorem steps_run {grow : Nat → Nat → Nat} {name : Nat → Str} (is : List Nat) : ∀ (m₀ m m' : Mem), Run grow name m₀ m → m.steps grow name is = some m' → Run grow name m₀ m' := by
  induction is with
  | nil => intro m₀ m m' h he; cases he; exact h
  | cons i is ih =>
    intro m₀ m m' h he
    obtain ⟨m1, h1, h2⟩ := Option.bind_eq_some_iff.1 he
    exact ih m₀ m1 m' (.step i h h1) h2

theorem steps_runOf {grow : Nat → Nat → Nat} {name : Nat → Str} {i : Nat} (k : Nat) : ∀ (m₀ m m' : Mem), RunOf grow name i m₀ m → m.steps grow name (List.replicate k i) = some m' → RunOf grow name i m₀ m' := by
  induction k with
  | zero => intro m₀ m m' h he; cases he; exact h
  | succ k ih =>
    intro m₀ m m' h he
    obtain ⟨m1, h1, h2⟩ := Option.bind_eq_some_iff.1 he
    exact ih m₀ m1 m' (.step h h1) h2

/-- The elements of a slice. -/
def Mem.list (m : Mem) (l : Loc) : List Elem := (List.range (m.hdr l).len).filterMap (fun k => m.arr l (m.hdr l).array k)

/-- The values listed, scope by scope. -/
def Mem.listed (m : Mem) (key : Key) : List (List Elem) :=
  (m.list .scopes).filterMap (fun
    | .scope s => some ((m.list (.attrs s)).flatMap (fun
      | .attr a k => if k = key then m.list (.values a key) else []
      | _ => []))
    | _ => none)

instance {m : Mem} {l : Loc} {k : Nat} {x : Elem} : Decidable (At m l k x) := inferInstanceAs (Decidable (_ ∧ _))

theorem at_list {m : Mem} {l : Loc} {k : Nat} {x : Elem} (h : At m l k x) : x ∈ m.list l :=
  List.mem_filterMap.2 ⟨k, List.mem_range.2 h.1, h.2⟩

theorem listed_mem {m : Mem} {k₁ k₂ k₃ : Nat} {key : Key} {x : Elem} (h : Listed m k₁ k₂ k₃ key x) : ∃ xs ∈ m.listed key, x ∈ xs := by
  obtain ⟨s, a, h1, h2, h3⟩ := h
  refine ⟨_, List.mem_filterMap.2 ⟨_, at_list h1, rfl⟩, List.mem_flatMap.2 ⟨_, at_list h2, ?_⟩⟩
  dsimp only
  rw [if_pos rfl]
  exact at_list h3

/-- A record of one scope as it arrives, whose list of scopes has no room; the rules of calls 0, 1, 2 are a, b, c; call 2 has a tag. -/
def arriving : Mem where
  hdr := fun l => if l = .scopes then ⟨0, 1, 1⟩ else ⟨0, 0, 0⟩
  arr := fun l n k => if l = .scopes ∧ n = 0 ∧ k = 0 then some (.own 0) else none
  made := fun _ => 1
  calls := fun i => ⟨0, 0, 0, if i = 2 then ["t".toList] else [], .start⟩

def ruleName (i : Nat) : Str := if i = 0 then "a".toList else if i = 1 then "b".toList else "c".toList

def tagNames (i : Nat) : List Str := if i = 2 then ["t".toList] else []

theorem tagNames_nodup (i : Nat) : (tagNames i).Nodup := by
  unfold tagNames
  split <;> decide

theorem arriving_starts : Starts tagNames 1 arriving := by
  refine ⟨rfl, fun k hk => ?_, fun l hl => ?_, fun l a k x hx => ?_, fun l a k hk => ?_, fun i => ⟨rfl, rfl⟩⟩
  · rw [show k = 0 by omega]
    rfl
  · change (if l = .scopes then _ else _ : Slice).len = 0
    rw [if_neg hl]
  · change (if l = .scopes ∧ a = 0 ∧ k = 0 then _ else _) = _ at hx
    split at hx
    · rename_i h
      injection hx with hx
      exact ⟨h.1, by rw [← hx, h.2.2]⟩
    · cases hx
  · refine if_neg fun h => ?_
    have : 1 ≤ a := hk
    omega

/-- Both calls have read the list of scopes when they add the processor's to it. -/
def bothRead : List Nat := [0, 0, 0, 0, 1, 1, 1, 1] ++ List.replicate 20 0 ++ List.replicate 20 1

theorem bothRead_lists : ((arriving.steps (fun _ n => 2 * n) ruleName bothRead).map fun m => ((m.calls 0).pc, (m.calls 1).pc, m.listed .rules)) = some (.done, .done, [[.value 1 .rules "b".toList]]) := by decide +kernel

/-- **C125** (finding) Two engines note at the same time, and the rule of one of them is lost: both calls have come to their end, and the record does not list what the first has noted. -/
theorem rule_lost : ∃ (grow : Nat → Nat → Nat) (name : Nat → Str) (tags : Nat → List Str) (n : Nat) (m m' : Mem), (∀ i, (tags i).Nodup) ∧ (∀ c k, k ≤ grow c k) ∧ Starts tags n m ∧ Run grow name m m' ∧ (m'.calls 0).pc = .done ∧ (m'.calls 1).pc = .done ∧
    ¬∃ k₁ k₂ k₃, Listed m' k₁ k₂ k₃ .rules (.value 0 .rules (name 0)) := by
  obtain ⟨m', h1, h2⟩ := Option.map_eq_some_iff.1 bothRead_lists
  injection h2 with h2 h3
  injection h3 with h3 h4
  refine ⟨_, ruleName, tagNames, 1, arriving, m', tagNames_nodup, fun c k => (by omega), arriving_starts, steps_run _ _ _ _ .refl h1, h2, h3, ?_⟩
  rintro ⟨k₁, k₂, k₃, h⟩
  obtain ⟨xs, h5, h6⟩ := listed_mem h
  rw [h4] at h5
  rw [List.mem_singleton.1 h5] at h6
  exact absurd h6 (by decide)

/-- Both calls have found no scope of the processor when they add theirs, one after the other; a third call, which is alone after that, has a tag. -/
def bothAdd : List Nat := [0, 0, 0, 1, 1, 1] ++ List.replicate 21 0 ++ List.replicate 20 1

/-- **C125** (finding) Two engines note at the same time, and the record gets two scopes of the processor: the rule of one is listed in one of them, that of the other in the other. -/
theorem two_scopes : ∃ (grow : Nat → Nat → Nat) (name : Nat → Str) (tags : Nat → List Str) (n : Nat) (m m' : Mem), (∀ i, (tags i).Nodup) ∧ (∀ c k, k ≤ grow c k) ∧ Starts tags n m ∧ Run grow name m m' ∧
    ∃ k₁ j₁, k₁ ≠ j₁ ∧ (∃ k₂ k₃, Listed m' k₁ k₂ k₃ .rules (.value 0 .rules (name 0))) ∧ ∃ j₂ j₃, Listed m' j₁ j₂ j₃ .rules (.value 1 .rules (name 1)) := by
  have h0 : ((arriving.steps (fun _ n => 2 * n) ruleName bothAdd).map fun m => decide (At m .scopes 1 (.scope 0) ∧ At m (.attrs 0) 0 (.attr 0 .rules) ∧ At m (.values 0 .rules) 0 (.value 0 .rules (ruleName 0)) ∧
      At m .scopes 2 (.scope 1) ∧ At m (.attrs 1) 0 (.attr 1 .rules) ∧ At m (.values 1 .rules) 0 (.value 1 .rules (ruleName 1)))) = some true := by
    decide +kernel
  obtain ⟨m', h1, h2⟩ := Option.map_eq_some_iff.1 h0
  obtain ⟨q1, q2, q3, q4, q5, q6⟩ := of_decide_eq_true h2
  exact ⟨_, ruleName, tagNames, 1, arriving, m', tagNames_nodup, fun c k => (by omega), arriving_starts, steps_run _ _ _ _ .refl h1, 1, 2, by decide, ⟨0, 0, 0, 0, q1, q2, q3⟩, 0, 0, 1, 1, q4, q5, q6⟩

/-- The hypotheses of `noted_only`, `listed_once`, `own_scopes_stay` and `alone_kept` are met: after two calls at the same time, a third is alone. -/
example : ∃ m₁ m₂, Run (fun _ n => 2 * n) ruleName arriving m₁ ∧ Run (fun _ n => 2 * n) ruleName m₁ m₂ ∧ m₂.listed .rules = [[.value 0 .rules "a".toList, .value 2 .rules "c".toList], [.value 1 .rules "b".toList]] ∧
    (∃ k₁ k₂ k₃, Listed m₂ k₁ k₂ k₃ .tags (.value 2 .tags "t".toList)) ∧ At m₂ .scopes 0 (.own 0) ∧
    (∀ k₁ k₂ k₃ x, Listed m₂ k₁ k₂ k₃ .rules x → ∃ i, (m₂.calls i).pc ≠ .start) ∧ ∀ k₁ k₂ k₃ j₁ j₂ j₃ key key' x, Listed m₂ k₁ k₂ k₃ key x → Listed m₂ j₁ j₂ j₃ key' x → k₁ = j₁ := by
  have h0 : (arriving.steps (fun _ n => 2 * n) ruleName bothAdd).bind (fun m => (m.steps (fun _ n => 2 * n) ruleName (List.replicate 15 2)).map fun m' => decide ((m.calls 0).pc = .done ∧ (m.calls 1).pc = .done ∧ (m.calls 2).pc = .start ∧ (m'.calls 2).pc = .done ∧
      m'.listed .rules = [[.value 0 .rules "a".toList, .value 2 .rules "c".toList], [.value 1 .rules "b".toList]])) = some true := by decide +kernel
  obtain ⟨m₁, h1, h2⟩ := Option.bind_eq_some_iff.1 h0
  obtain ⟨m₂, h3, h4⟩ := Option.map_eq_some_iff.1 h2
  obtain ⟨h4, h5, h6, h7, h8⟩ := of_decide_eq_true h4
  have hrun := steps_run _ _ _ _ .refl h1
  have hof := steps_runOf _ _ _ _ .refl h3
  have hall := runOf_run hrun hof
  have hquiet : Quiet m₁ := by
    intro i
    match i with
    | 0 => exact .inr h4
    | 1 => exact .inr h5
    | 2 => exact .inl h6
    | i + 3 =>
      refine .inl ?_
      have key : ∀ (xs : List Nat) (m m' : Mem), (∀ x ∈ xs, x ≤ 2) → m.steps (fun _ n => 2 * n) ruleName xs = some m' → m'.calls (i + 3) = m.calls (i + 3) := by
        intro xs
        induction xs with
        | nil => intro m m' _ h; cases h; rfl
        | cons x xs ih =>
          intro m m' hx h
          obtain ⟨mm, q1, q2⟩ := Option.bind_eq_some_iff.1 h
          rw [ih mm m' (fun y hy => hx y (List.mem_cons_of_mem _ hy)) q2]
          exact step_others q1 _ (by have := hx x List.mem_cons_self; omega)
      rw [key _ _ _ (by decide) h1]
      rfl
  refine ⟨m₁, m₂, hrun, runOf_run .refl hof, h8, (alone_kept tagNames_nodup arriving_starts hrun hquiet h6 hof h7 .refl).2 _ (by decide), own_scopes_stay arriving_starts hall 0 (by decide), fun k₁ k₂ k₃ x hx => ?_,
    fun k₁ k₂ k₃ j₁ j₂ j₃ key key' x hx hy => (listed_once tagNames_nodup arriving_starts hall hx hy).1⟩
  obtain ⟨i, h9, -⟩ := noted_only tagNames_nodup arriving_starts hall hx
  exact ⟨i, h9⟩

/-- The hypothesis of `in_turn_all` is met: two calls, one after the other. -/
example : ∃ m', Turns (fun _ n => 2 * n) ruleName arriving [0, 2] m' ∧ (∃ k₁ k₂ k₃, Listed m' k₁ k₂ k₃ .rules (.value 0 .rules "a".toList)) ∧ ∃ k₁ k₂ k₃, Listed m' k₁ k₂ k₃ .tags (.value 2 .tags "t".toList) := by
  have h0 : (arriving.steps (fun _ n => 2 * n) ruleName (List.replicate 24 0)).bind (fun m => (m.steps (fun _ n => 2 * n) ruleName (List.replicate 15 2)).map fun m' => ((m.calls 0).pc, (m.calls 2).pc, (m'.calls 2).pc)) =
      some (.done, .start, .done) := by decide +kernel
  obtain ⟨m₁, h1, h2⟩ := Option.bind_eq_some_iff.1 h0
  obtain ⟨m₂, h3, h4⟩ := Option.map_eq_some_iff.1 h2
  injection h4 with h4 h5
  injection h5 with h5 h6
  have ht : Turns (fun _ n => 2 * n) ruleName arriving [0, 2] m₂ := .snoc (is := [0]) 2 (.snoc (is := []) 0 .nil rfl (steps_runOf _ _ _ _ .refl h1) h4) h5 (steps_runOf _ _ _ _ .refl h3) h6
  have hall := in_turn_all tagNames_nodup arriving_starts ht
  exact ⟨m₂, ht, (hall 0 (by decide)).1, (hall 2 (by decide)).2 _ (by decide)⟩

end Verif.Shared.Noting
