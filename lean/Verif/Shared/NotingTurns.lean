import Verif.Shared.NotingProps
import Verif.Otel.Policy
/-
C125, continued: engines that note their rules one after the other leave the record as the sequential account of `AddRules` says (C32, C84).
Sources: /repo/core/policyengine/source/otel/contextualizer.go:34-115
-/
namespace Verif.Shared.Noting
open Verif.Decimal (Str)

/-! ### Specification -/

/-- The name of an attribute of the processor (constants.go:21-22). -/
def Key.text : Key → Str
  | .rules => "sf.processor.rules".toList
  | .tags => "sf.processor.tags".toList

/-- The values that an attribute lists. -/
def Mem.valuesOf (m : Mem) (a : Nat) (key : Key) : Otel.Value :=
  .arr ((m.list (.values a key)).filterMap (fun
    | .value _ _ t => some (.str t)
    | _ => none))

/-- The attributes of a scope. -/
def Mem.attrsOf (m : Mem) (s : Nat) : List Otel.KV :=
  (m.list (.attrs s)).filterMap (fun
    | .attr a key => some (key.text, m.valuesOf a key)
    | _ => none)

/-- The scopes of the record that memory holds; `own` are those it arrived with. -/
def Mem.scopesOf (m : Mem) (own : List Otel.ScopeLogs) : List Otel.ScopeLogs :=
  (m.list .scopes).filterMap (fun
    | .own k => own[k]?
    | .scope s => some { scope := some { name := "sf-processor".toList, attrs := m.attrsOf s }, logs := [] }
    | _ => none)

/-! ### Proofs -/

section
variable {grow : Nat → Nat → Nat} {name : Nat → Str} {i : Nat}

/-- The slice holds these elements. -/
def Holds (m : Mem) (l : Loc) (xs : List Elem) : Prop := (m.hdr l).len = xs.length ∧ ∀ k < xs.length, m.arr l (m.hdr l).array k = xs[k]?

theorem holds_same {m m' : Mem} (hh : m'.hdr = m.hdr) (ha : m'.arr = m.arr) {l : Loc} {xs : List Elem} (h : Holds m l xs) : Holds m' l xs := by
  unfold Holds at *
  rw [hh, ha]
  exact h

theorem holds_list {m : Mem} {l : Loc} {xs : List Elem} (h : Holds m l xs) : m.list l = xs := by
  unfold Mem.list
  rw [h.1]
  have key : ∀ (ys : List Elem), (List.range ys.length).filterMap (fun k => ys[k]?) = ys := by
    intro ys
    induction ys using Verif.snocInduction with
    | nil => rfl
    | snoc ys y ih =>
      rw [List.length_append, List.length_singleton, List.range_succ, List.filterMap_append]
      have e1 : (List.range ys.length).filterMap (fun k => (ys ++ [y])[k]?) = (List.range ys.length).filterMap (fun k => ys[k]?) := by
        refine List.filterMap_congr (fun k hk => ?_)
        exact List.getElem?_append_left (List.mem_range.1 hk)
      rw [e1, ih]
      simp
  exact (List.filterMap_congr (fun k hk => h.2 k (List.mem_range.1 hk))).trans (key xs)

theorem set_self (m : Mem) (i : Nat) (c : Call) : (m.set i c).calls i = c := if_pos rfl

theorem runOf_trans {a b c : Mem} (h₁ : RunOf grow name i a b) (h₂ : RunOf grow name i b c) : RunOf grow name i a c := by
  induction h₂ with
  | refl => exact h₁
  | step _ hs ih => exact .step ih hs

theorem runOf_one {a b : Mem} (h : a.step grow name i = some b) : RunOf grow name i a b := .step .refl h

/-- A call makes its steps in one way only. -/
theorem runOf_done {a b c : Mem} (h₁ : RunOf grow name i a b) (h₂ : RunOf grow name i a c) (hb : (b.calls i).pc = .done) (hc : (c.calls i).pc = .done) : b = c := by
  have stop : ∀ {x y : Mem}, (x.calls i).pc = .done → RunOf grow name i x y → y = x := by
    intro x y hx h
    induction h with
    | refl => rfl
    | step _ hs ih =>
      subst ih
      unfold Mem.step at hs
      rw [hx] at hs
      cases hs
  have comp : ∀ {x y : Mem}, RunOf grow name i x y → ∀ {z : Mem}, RunOf grow name i x z → RunOf grow name i y z ∨ RunOf grow name i z y := by
    intro x y h
    induction h with
    | refl => exact fun h => .inl h
    | step h hs ih =>
      intro z hz
      rcases ih hz with h1 | h1
      · have first : ∀ {p q r : Mem}, p.step grow name i = some q → RunOf grow name i p r → r = p ∨ RunOf grow name i q r := by
          intro p q r hq h
          induction h with
          | refl => exact .inl rfl
          | step _ hs' ih' =>
            rcases ih' with e | h'
            · subst e
              rw [hq] at hs'
              cases hs'
              exact .inr .refl
            · exact .inr (.step h' hs')
        rcases first hs h1 with e | h2
        · subst e
          exact .inr (runOf_one hs)
        · exact .inl h2
      · exact .inr (.step h1 hs)
  rcases comp h₁ h₂ with h | h
  · exact (stop hb h).symm
  · exact stop hc h

theorem step_write {m : Mem} {job : Job} {h : Slice} (hpc : (m.calls i).pc = .append job (.write h)) :
    m.step grow name i = some { m.set i { m.calls i with pc := .append job (.store ⟨h.array, h.len + 1, h.cap⟩) } with arr := put m.arr ((m.calls i).loc job) h.array h.len (some (elem i job)) } := by
  unfold Mem.step
  rw [hpc]

theorem step_copy {m : Mem} {job : Job} {h : Slice} {n cap k : Nat} (hpc : (m.calls i).pc = .append job (.copy h n cap k)) (hk : k < h.len) :
    m.step grow name i = some { m.set i { m.calls i with pc := .append job (.copy h n cap (k + 1)) } with arr := put m.arr ((m.calls i).loc job) n k (m.arr ((m.calls i).loc job) h.array k) } := by
  unfold Mem.step
  rw [hpc]
  dsimp only
  rw [if_pos hk]

theorem step_copied {m : Mem} {job : Job} {h : Slice} {n cap k : Nat} (hpc : (m.calls i).pc = .append job (.copy h n cap k)) (hk : ¬k < h.len) :
    m.step grow name i = some { m.set i { m.calls i with pc := .append job (.store ⟨n, h.len + 1, cap⟩) } with arr := put m.arr ((m.calls i).loc job) n h.len (some (elem i job)) } := by
  unfold Mem.step
  rw [hpc]
  dsimp only
  rw [if_neg hk]

theorem step_store {m : Mem} {job : Job} {s : Slice} (hpc : (m.calls i).pc = .append job (.store s)) :
    m.step grow name i = some { m.set i ((m.calls i).next i (name i) job) with hdr := fun l => if l = (m.calls i).loc job then s else m.hdr l } := by
  unfold Mem.step
  rw [hpc]

theorem step_grow {m : Mem} {job : Job} (hpc : (m.calls i).pc = .append job .begin) (hfull : ¬(m.hdr ((m.calls i).loc job)).len < (m.hdr ((m.calls i).loc job)).cap) :
    m.step grow name i = some { m.set i { m.calls i with pc := .append job (.copy (m.hdr ((m.calls i).loc job)) (m.made ((m.calls i).loc job))
          (grow (m.hdr ((m.calls i).loc job)).cap ((m.hdr ((m.calls i).loc job)).len + 1)) 0) } with
        made := fun l => if l = (m.calls i).loc job then m.made l + 1 else m.made l } := by
  unfold Mem.step
  rw [hpc]
  dsimp only
  rw [if_neg hfull]

theorem loc_pc (c : Call) (p : Pc) (job : Job) : ({ c with pc := p } : Call).loc job = c.loc job := by
  cases job with
  | scope => rfl
  | attr key => rfl
  | value key t => cases key <;> rfl

/-- What `append` does when nobody disturbs it. -/
theorem append_alone {m : Mem} {job : Job} {W : Loc → List Elem} (hpc : (m.calls i).pc = .append job .begin) (hW : ∀ l, Holds m l (W l)) :
    ∃ m', RunOf grow name i m m' ∧ m'.calls i = (m.calls i).next i (name i) job ∧
      ∀ l, Holds m' l (if l = (m.calls i).loc job then W l ++ [elem i job] else W l) := by
  -- the last two steps: the element is written behind the others in some array that holds them, and the slice assigned
  have fin : ∀ {m₁ : Mem} {n cap : Nat}, RunOf grow name i m m₁ → (m₁.calls i) = { m.calls i with pc := .append job (.store ⟨n, (W ((m.calls i).loc job)).length + 1, cap⟩) } → m₁.hdr = m.hdr →
      (∀ l, l ≠ (m.calls i).loc job → m₁.arr l = m.arr l) → (∀ k < (W ((m.calls i).loc job)).length, m₁.arr ((m.calls i).loc job) n k = (W ((m.calls i).loc job))[k]?) →
      m₁.arr ((m.calls i).loc job) n (W ((m.calls i).loc job)).length = some (elem i job) →
      ∃ m', RunOf grow name i m m' ∧ m'.calls i = (m.calls i).next i (name i) job ∧ ∀ l, Holds m' l (if l = (m.calls i).loc job then W l ++ [elem i job] else W l) := by
    intro m₁ n cap hrun hc hh ha hk hx
    have hpc₁ : (m₁.calls i).pc = .append job (.store ⟨n, (W ((m.calls i).loc job)).length + 1, cap⟩) := by rw [hc]
    have hloc : (m₁.calls i).loc job = (m.calls i).loc job := by rw [hc]; exact loc_pc ..
    refine ⟨_, .step hrun (step_store hpc₁), ?_, fun l => ?_⟩
    · change (m₁.set i _).calls i = _
      rw [set_self, hc]
      unfold Call.next Call.settle
      cases job with
      | scope => rfl
      | attr key => cases key <;> rfl
      | value key t => cases (m.calls i).todo <;> rfl
    · by_cases hl : l = (m.calls i).loc job
      · rw [if_pos hl]
        unfold Holds
        dsimp only
        rw [if_pos (hl.trans hloc.symm), List.length_append, List.length_singleton]
        subst hl
        refine ⟨rfl, fun k hk' => ?_⟩
        change m₁.arr _ n k = _
        by_cases e : k < (W ((m.calls i).loc job)).length
        · rw [List.getElem?_append_left e]
          exact hk k e
        · have : k = (W ((m.calls i).loc job)).length := by omega
          subst this
          rw [hx]
          simp
      · rw [if_neg hl]
        have := hW l
        unfold Holds at this ⊢
        dsimp only
        rw [if_neg (fun e => hl (e.trans hloc)), hh]
        change _ ∧ ∀ k < (W l).length, m₁.arr l _ k = _
        rw [ha l hl]
        exact this
  have hlen := (hW ((m.calls i).loc job)).1
  by_cases hroom : (m.hdr ((m.calls i).loc job)).len < (m.hdr ((m.calls i).loc job)).cap
  · -- there is room
    have s1 : m.step grow name i = some (m.set i { m.calls i with pc := .append job (.write (m.hdr ((m.calls i).loc job))) }) := by
      unfold Mem.step
      rw [hpc]
      dsimp only
      rw [if_pos hroom]
    have hloc := loc_pc (m.calls i) (.append job (.write (m.hdr ((m.calls i).loc job)))) job
    have hpc₁ : ((m.set i { m.calls i with pc := .append job (.write (m.hdr ((m.calls i).loc job))) }).calls i).pc = .append job (.write (m.hdr ((m.calls i).loc job))) := by rw [set_self]
    have hself := set_self m i { m.calls i with pc := .append job (.write (m.hdr ((m.calls i).loc job))) }
    refine fin (.step (runOf_one s1) (step_write hpc₁)) ?_ rfl (fun l hl => ?_) (fun k hk => ?_) ?_ (n := (m.hdr ((m.calls i).loc job)).array) (cap := (m.hdr ((m.calls i).loc job)).cap)
    · change (Mem.set _ i _).calls i = _
      rw [set_self, hself, hlen]
    · funext n' k'
      change put m.arr _ _ _ _ l n' k' = _
      rw [hself]
      exact put_other (fun e => absurd (e.trans hloc) hl)
    · change put m.arr _ _ _ _ _ _ k = _
      rw [put_other (fun _ => by omega)]
      exact (hW _).2 k hk
    · change put m.arr _ _ _ _ _ _ _ = _
      rw [hself, hloc, ← hlen]
      exact put_at ..
  · -- the elements are copied first
    have s1 : ∃ m₁, m.step grow name i = some m₁ ∧ m₁.calls i = { m.calls i with pc := .append job (.copy (m.hdr ((m.calls i).loc job)) (m.made ((m.calls i).loc job)) (grow (m.hdr ((m.calls i).loc job)).cap ((m.hdr ((m.calls i).loc job)).len + 1)) 0) } ∧
        m₁.hdr = m.hdr ∧ m₁.arr = m.arr := by
      refine ⟨_, step_grow hpc hroom, ?_, rfl, rfl⟩
      exact set_self ..
    obtain ⟨m₁, e1, e2, e3, e4⟩ := s1
    have hloc : ∀ a, ({ m.calls i with pc := a } : Call).loc job = (m.calls i).loc job := fun a => loc_pc ..
    -- the copying
    have copying : ∀ (d k : Nat) (m₂ : Mem), d + k = (m.hdr ((m.calls i).loc job)).len → RunOf grow name i m m₂ →
        m₂.calls i = { m.calls i with pc := .append job (.copy (m.hdr ((m.calls i).loc job)) (m.made ((m.calls i).loc job)) (grow (m.hdr ((m.calls i).loc job)).cap ((m.hdr ((m.calls i).loc job)).len + 1)) k) } → m₂.hdr = m.hdr →
        (∀ l, l ≠ (m.calls i).loc job → m₂.arr l = m.arr l) →
        (∀ j < (W ((m.calls i).loc job)).length, m₂.arr ((m.calls i).loc job) (m.hdr ((m.calls i).loc job)).array j = (W ((m.calls i).loc job))[j]?) →
        (∀ j < k, m₂.arr ((m.calls i).loc job) (m.made ((m.calls i).loc job)) j = (W ((m.calls i).loc job))[j]?) →
        ∃ m', RunOf grow name i m m' ∧ m'.calls i = (m.calls i).next i (name i) job ∧ ∀ l, Holds m' l (if l = (m.calls i).loc job then W l ++ [elem i job] else W l) := by
      intro d
      induction d with
      | zero =>
        intro k m₂ hd hrun hc hh ha hold hnew
        have hk : k = (m.hdr ((m.calls i).loc job)).len := by omega
        subst hk
        have hloc₂ : (m₂.calls i).loc job = (m.calls i).loc job := by rw [hc]; exact hloc _
        refine fin (.step hrun (step_copied (by rw [hc]) (Nat.lt_irrefl _))) ?_ hh (fun l hl => ?_) (fun j hj => ?_) ?_ (n := m.made ((m.calls i).loc job))
          (cap := grow (m.hdr ((m.calls i).loc job)).cap ((m.hdr ((m.calls i).loc job)).len + 1))
        · change (Mem.set _ i _).calls i = _
          rw [set_self, hc, hlen]
        · funext n' k'
          change put m₂.arr _ _ _ _ l n' k' = _
          rw [put_other (fun e => absurd (e.trans hloc₂) hl), ha l hl]
        · change put m₂.arr _ _ _ _ _ _ j = _
          rw [put_other (fun _ => by omega)]
          exact hnew j (by omega)
        · change put m₂.arr _ _ _ _ _ _ _ = _
          rw [hloc₂, ← hlen]
          exact put_at ..
      | succ d ih =>
        intro k m₂ hd hrun hc hh ha hold hnew
        have hk : k < (m.hdr ((m.calls i).loc job)).len := by omega
        have hloc₂ : (m₂.calls i).loc job = (m.calls i).loc job := by rw [hc]; exact hloc _
        refine ih (k + 1) _ (by omega) (.step hrun (step_copy (by rw [hc]) hk)) ?_ hh (fun l hl => ?_) (fun j hj => ?_) (fun j hj => ?_)
        · change (Mem.set _ i _).calls i = _
          rw [set_self, hc]
        · funext n' k'
          change put m₂.arr _ _ _ _ l n' k' = _
          rw [put_other (fun e => absurd (e.trans hloc₂) hl), ha l hl]
        · change put m₂.arr _ _ _ _ _ _ j = _
          unfold put
          rw [hloc₂]
          split
          · rename_i h
            rw [← h.2.2]
            exact hold j hj
          · exact hold j hj
        · change put m₂.arr _ _ _ _ _ _ j = _
          unfold put
          rw [hloc₂]
          split
          · rename_i h
            rw [h.2.2]
            exact hold k (by omega)
          · rename_i h
            exact hnew j (by
              have : j ≠ k := fun e => h ⟨rfl, rfl, e⟩
              omega)
    refine copying (m.hdr ((m.calls i).loc job)).len 0 m₁ rfl (runOf_one e1) e2 e3 (fun l _ => by rw [e4]) (fun j hj => ?_) (fun j hj => absurd hj (Nat.not_lt_zero _))
    rw [e4]
    exact (hW _).2 j hj

/-- Appending the name or a tag and the tags that are left. -/
theorem values_alone : ∀ (todo : List Str) {m : Mem} {key : Key} {t : Str} {W : Loc → List Elem}, (m.calls i).pc = .append (.value key t) .begin → (m.calls i).todo = todo → (∀ l, Holds m l (W l)) →
    ∃ m', RunOf grow name i m m' ∧ (m'.calls i).pc = .done ∧
      ∀ l, Holds m' l (W l ++ (if l = .values ((m.calls i).attr key) key then [.value i key t] else []) ++ (if l = .values (m.calls i).tags .tags then todo.map (.value i .tags) else [])) := by
  intro todo
  induction todo with
  | nil =>
    intro m key t W hpc htodo hW
    obtain ⟨m', h1, h2, h3⟩ := append_alone (grow := grow) (name := name) hpc hW
    refine ⟨m', h1, by rw [h2]; unfold Call.next; dsimp only; rw [htodo], fun l => ?_⟩
    have := h3 l
    rw [show (m.calls i).loc (.value key t) = .values ((m.calls i).attr key) key from rfl, show elem i (.value key t) = .value i key t from rfl] at this
    split at this <;> simpa [*] using this
  | cons t' ts ih =>
    intro m key t W hpc htodo hW
    obtain ⟨m₁, h1, h2, h3⟩ := append_alone (grow := grow) (name := name) hpc hW
    have hc : m₁.calls i = { m.calls i with todo := ts, pc := .append (.value .tags t') .begin } := by rw [h2]; unfold Call.next; dsimp only; rw [htodo]
    obtain ⟨m', k1, k2, k3⟩ := ih (key := .tags) (t := t') (by rw [hc]) (by rw [hc]) h3
    refine ⟨m', runOf_trans h1 k1, k2, fun l => ?_⟩
    have := k3 l
    rw [hc] at this
    rw [show (m.calls i).loc (.value key t) = .values ((m.calls i).attr key) key from rfl, show elem i (.value key t) = .value i key t from rfl] at this
    rw [show ({ m.calls i with todo := ts, pc := .append (.value .tags t') .begin } : Call).attr .tags = (m.calls i).tags from rfl] at this
    refine (congrArg (Holds m' l) ?_).mp this
    by_cases e1 : l = .values ((m.calls i).attr key) key
    · by_cases e2 : l = .values (m.calls i).tags .tags
      · simp only [if_pos e1, if_pos e2, List.map_cons, List.append_assoc, List.cons_append, List.nil_append]
      · simp only [if_pos e1, if_neg e2, List.append_assoc, List.append_nil]
    · by_cases e2 : l = .values (m.calls i).tags .tags
      · simp only [if_neg e1, if_pos e2, List.map_cons, List.append_assoc, List.cons_append, List.nil_append]
      · simp only [if_neg e1, if_neg e2, List.append_nil]

/-- Where the loop over the scopes comes out if the record has no scope of the processor. -/
theorem scan_none {m : Mem} {W : Loc → List Elem} (hW : ∀ l, Holds m l (W l)) (hown : ∀ k < (W .scopes).length, (W .scopes)[k]? = some (.own k)) : ∀ (d k : Nat) (m₁ : Mem), d + k = (W .scopes).length →
    RunOf grow name i m m₁ → m₁.calls i = { m.calls i with pc := .scan (m.hdr .scopes) k } → m₁.hdr = m.hdr → m₁.arr = m.arr →
    ∃ m', RunOf grow name i m m' ∧ m'.calls i = { m.calls i with pc := .append .scope .begin } ∧ m'.hdr = m.hdr ∧ m'.arr = m.arr := by
  intro d
  induction d with
  | zero =>
    intro k m₁ hd hrun hc hh ha
    have hk : ¬k < (m.hdr .scopes).len := by rw [(hW .scopes).1]; omega
    have hs : m₁.step grow name i = some (m₁.set i { m₁.calls i with pc := .append .scope .begin }) := by
      unfold Mem.step
      rw [hc]
      dsimp only
      rw [if_neg hk]
    exact ⟨_, .step hrun hs, by rw [set_self, hc], hh, ha⟩
  | succ d ih =>
    intro k m₁ hd hrun hc hh ha
    have hk : k < (m.hdr .scopes).len := by rw [(hW .scopes).1]; omega
    have hs : m₁.step grow name i = some (m₁.set i { m₁.calls i with pc := .scan (m.hdr .scopes) (k + 1) }) := by
      unfold Mem.step
      rw [hc]
      dsimp only
      rw [if_pos hk, ha, (hW .scopes).2 k (by omega), hown k (by omega)]
    exact ih (k + 1) _ (by omega) (.step hrun hs) (by rw [set_self, hc]) hh ha

/-- Where the loop over the scopes comes out if the last scope is the processor's, and the only one. -/
theorem scan_found {m : Mem} {W : Loc → List Elem} (hW : ∀ l, Holds m l (W l)) {n a : Nat} (hlen : (W .scopes).length = n + 1) (hown : ∀ k < n, (W .scopes)[k]? = some (.own k)) (hlast : (W .scopes)[n]? = some (.scope a)) :
    ∀ (d k : Nat) (m₁ : Mem), d + k = n → RunOf grow name i m m₁ → m₁.calls i = { m.calls i with pc := .scan (m.hdr .scopes) k } → m₁.hdr = m.hdr → m₁.arr = m.arr →
    ∃ m', RunOf grow name i m m' ∧ m'.calls i = { m.calls i with scope := a, pc := .look .rules false } ∧ m'.hdr = m.hdr ∧ m'.arr = m.arr := by
  intro d
  induction d with
  | zero =>
    intro k m₁ hd hrun hc hh ha
    have hkn : k = n := by omega
    subst hkn
    have hk : k < (m.hdr .scopes).len := by rw [(hW .scopes).1]; omega
    have hs : m₁.step grow name i = some (m₁.set i { m₁.calls i with scope := a, pc := .look .rules false }) := by
      unfold Mem.step
      rw [hc]
      dsimp only
      rw [if_pos hk, ha, (hW .scopes).2 k (by omega), hlast]
    exact ⟨_, .step hrun hs, by rw [set_self, hc], hh, ha⟩
  | succ d ih =>
    intro k m₁ hd hrun hc hh ha
    have hk : k < (m.hdr .scopes).len := by rw [(hW .scopes).1]; omega
    have hs : m₁.step grow name i = some (m₁.set i { m₁.calls i with pc := .scan (m.hdr .scopes) (k + 1) }) := by
      unfold Mem.step
      rw [hc]
      dsimp only
      rw [if_pos hk, ha, (hW .scopes).2 k (by omega), hown k (by omega)]
    exact ih (k + 1) _ (by omega) (.step hrun hs) (by rw [set_self, hc]) hh ha

/-- The attribute that `getOrCreateAttribute` finds in these attributes. -/
def found (key : Key) (xs : List Elem) : Option Nat :=
  ((if 1 < xs.length then attrOf key xs[xs.length - 2]? else none)).or (if 0 < xs.length then attrOf key xs[xs.length - 1]? else none)

/-- What looking for an attribute comes to. -/
theorem look_alone {m : Mem} {key : Key} {xs : List Elem} (hpc : (m.calls i).pc = .look key false) (hx : Holds m (.attrs (m.calls i).scope) xs) :
    ∃ m', RunOf grow name i m m' ∧ m'.hdr = m.hdr ∧ m'.arr = m.arr ∧
      m'.calls i = (match found key xs with
        | some j => (m.calls i).settle (name i) key j
        | none => { m.calls i with pc := .append (.attr key) .begin }) := by
  have s1 : m.step grow name i = some (m.set i { m.calls i with pc := .probe key (m.hdr (.attrs (m.calls i).scope)) false }) := by
    unfold Mem.step
    rw [hpc]
  have hself := set_self m i { m.calls i with pc := .probe key (m.hdr (.attrs (m.calls i).scope)) false }
  have pos : ∀ last, (position (m.hdr (.attrs (m.calls i).scope)) last).bind (fun k => attrOf key (m.arr (.attrs (m.calls i).scope) (m.hdr (.attrs (m.calls i).scope)).array k)) =
      (if last then (if 0 < xs.length then attrOf key xs[xs.length - 1]? else none) else (if 1 < xs.length then attrOf key xs[xs.length - 2]? else none)) := by
    intro last
    unfold position
    rw [hx.1]
    cases last
    · simp only [Bool.false_eq_true, if_false]
      by_cases h : 1 < xs.length
      · rw [if_pos h, if_pos h, Option.bind_some, hx.2 _ (by omega)]
      · rw [if_neg h, if_neg h, Option.bind_none]
    · simp only [if_true]
      by_cases h : 0 < xs.length
      · rw [if_pos h, if_pos h, Option.bind_some, hx.2 _ (by omega)]
      · rw [if_neg h, if_neg h, Option.bind_none]
  cases h1 : (if 1 < xs.length then attrOf key xs[xs.length - 2]? else none) with
  | some j =>
    have s2 : (m.set i { m.calls i with pc := .probe key (m.hdr (.attrs (m.calls i).scope)) false }).step grow name i =
        some ((m.set i { m.calls i with pc := .probe key (m.hdr (.attrs (m.calls i).scope)) false }).set i
          (({ m.calls i with pc := .probe key (m.hdr (.attrs (m.calls i).scope)) false } : Call).settle (name i) key j)) := by
      unfold Mem.step
      rw [hself]
      dsimp only
      rw [show ((m.set i { m.calls i with pc := .probe key (m.hdr (.attrs (m.calls i).scope)) false }).arr) = m.arr from rfl, pos false, if_neg (by decide), h1]
    refine ⟨_, .step (runOf_one s1) s2, rfl, rfl, ?_⟩
    unfold found
    rw [set_self, h1, Option.some_or]
    cases key <;> rfl
  | none =>
    have s2 : (m.set i { m.calls i with pc := .probe key (m.hdr (.attrs (m.calls i).scope)) false }).step grow name i =
        some ((m.set i { m.calls i with pc := .probe key (m.hdr (.attrs (m.calls i).scope)) false }).set i { m.calls i with pc := .look key true }) := by
      unfold Mem.step
      rw [hself]
      dsimp only
      rw [show ((m.set i { m.calls i with pc := .probe key (m.hdr (.attrs (m.calls i).scope)) false }).arr) = m.arr from rfl, pos false, if_neg (by decide), h1]
      rfl
    generalize hm₂ : (m.set i { m.calls i with pc := .probe key (m.hdr (.attrs (m.calls i).scope)) false }).set i { m.calls i with pc := .look key true } = m₂ at s2
    have hc₂ : m₂.calls i = { m.calls i with pc := .look key true } := by rw [← hm₂]; exact set_self ..
    have hh₂ : m₂.hdr = m.hdr := by rw [← hm₂]; rfl
    have ha₂ : m₂.arr = m.arr := by rw [← hm₂]; rfl
    have s3 : m₂.step grow name i = some (m₂.set i { m.calls i with pc := .probe key (m.hdr (.attrs (m.calls i).scope)) true }) := by
      unfold Mem.step
      rw [hc₂]
      dsimp only
      rw [hh₂]
    have hself₃ := set_self m₂ i { m.calls i with pc := .probe key (m.hdr (.attrs (m.calls i).scope)) true }
    cases h2 : (if 0 < xs.length then attrOf key xs[xs.length - 1]? else none) with
    | some j =>
      have s4 : (m₂.set i { m.calls i with pc := .probe key (m.hdr (.attrs (m.calls i).scope)) true }).step grow name i =
          some ((m₂.set i { m.calls i with pc := .probe key (m.hdr (.attrs (m.calls i).scope)) true }).set i
            (({ m.calls i with pc := .probe key (m.hdr (.attrs (m.calls i).scope)) true } : Call).settle (name i) key j)) := by
        unfold Mem.step
        rw [hself₃]
        dsimp only
        rw [show ((m₂.set i { m.calls i with pc := .probe key (m.hdr (.attrs (m.calls i).scope)) true }).arr) = m.arr from ha₂, pos true, if_pos rfl, h2]
      refine ⟨_, .step (.step (.step (runOf_one s1) s2) s3) s4, hh₂, ha₂, ?_⟩
      unfold found
      rw [set_self, h1, h2, Option.none_or]
      cases key <;> rfl
    | none =>
      have s4 : (m₂.set i { m.calls i with pc := .probe key (m.hdr (.attrs (m.calls i).scope)) true }).step grow name i =
          some ((m₂.set i { m.calls i with pc := .probe key (m.hdr (.attrs (m.calls i).scope)) true }).set i { m.calls i with pc := .append (.attr key) .begin }) := by
        unfold Mem.step
        rw [hself₃]
        dsimp only
        rw [show ((m₂.set i { m.calls i with pc := .probe key (m.hdr (.attrs (m.calls i).scope)) true }).arr) = m.arr from ha₂, pos true, if_pos rfl, h2]
        rfl
      refine ⟨_, .step (.step (.step (runOf_one s1) s2) s3) s4, hh₂, ha₂, ?_⟩
      unfold found
      rw [set_self, h1, h2, Option.none_or]

/-- What the slices hold when the calls `is` have been made one after the other. -/
def Content (name : Nat → Str) (tags : Nat → List Str) (n : Nat) (is : List Nat) : Loc → List Elem
  | .scopes => (List.range n).map .own ++ (is.head?.toList.map .scope)
  | .attrs s => if is.head? = some s then [.attr s .rules, .attr s .tags] else []
  | .values a .rules => if is.head? = some a then is.map (fun j => .value j .rules (name j)) else []
  | .values a .tags => if is.head? = some a then is.flatMap (fun j => (tags j).map (.value j .tags)) else []

theorem content_attrs (tags : Nat → List Str) (n a : Nat) (as : List Nat) : Content name tags n (a :: as) (.attrs a) = [.attr a .rules, .attr a .tags] := if_pos rfl
theorem content_rules (tags : Nat → List Str) (n a : Nat) (as : List Nat) : Content name tags n (a :: as) (.values a .rules) = (a :: as).map (fun j => .value j .rules (name j)) := if_pos rfl
theorem content_tags (tags : Nat → List Str) (n a : Nat) (as : List Nat) : Content name tags n (a :: as) (.values a .tags) = (a :: as).flatMap (fun j => (tags j).map (.value j .tags)) := if_pos rfl

theorem found_rules (a : Nat) : found .rules [.attr a .rules, .attr a .tags] = some a := rfl
theorem found_tags (a : Nat) : found .tags [.attr a .rules, .attr a .tags] = some a := rfl

/-- A call that nobody disturbs. -/
theorem call_alone {tags : Nat → List Str} {n : Nat} {is : List Nat} {m : Mem} (hpc : (m.calls i).pc = .start) (htodo : (m.calls i).todo = tags i) (hW : ∀ l, Holds m l (Content name tags n is l)) :
    ∃ m', RunOf grow name i m m' ∧ (m'.calls i).pc = .done ∧ ∀ l, Holds m' l (Content name tags n (is ++ [i]) l) := by
  have s1 : m.step grow name i = some (m.set i { m.calls i with pc := .scan (m.hdr .scopes) 0 }) := by
    unfold Mem.step
    rw [hpc]
  have hself := set_self m i { m.calls i with pc := .scan (m.hdr .scopes) 0 }
  cases is with
  | nil =>
    have hs : Content name tags n [] .scopes = (List.range n).map .own := List.append_nil _
    obtain ⟨m₁, r₁, c₁, hh₁, ha₁⟩ := scan_none (grow := grow) (name := name) (i := i) hW (fun k hk => by
        rw [hs, List.length_map, List.length_range] at hk
        rw [hs, List.getElem?_map, List.getElem?_range hk]
        rfl) _ 0 _ rfl (runOf_one s1) hself rfl rfl
    obtain ⟨m₂, r₂, c₂, H₂⟩ := append_alone (grow := grow) (name := name) (i := i) (m := m₁) (job := .scope) (by rw [c₁]) (fun l => holds_same hh₁ ha₁ (hW l))
    have c₂' : m₂.calls i = { m.calls i with scope := i, pc := .look .rules false } := by rw [c₂, c₁]; rfl
    have hx₂ : Holds m₂ (.attrs (m₂.calls i).scope) [] := by
      rw [c₂']
      exact H₂ (.attrs i)
    obtain ⟨m₃, r₃, hh₃, ha₃, c₃⟩ := look_alone (grow := grow) (name := name) (i := i) (key := .rules) (by rw [c₂']) hx₂
    have c₃' : m₃.calls i = { m.calls i with scope := i, pc := .append (.attr .rules) .begin } := by rw [c₃, c₂']; rfl
    obtain ⟨m₄, r₄, c₄, H₄⟩ := append_alone (grow := grow) (name := name) (i := i) (m := m₃) (job := .attr .rules) (by rw [c₃']) (fun l => holds_same hh₃ ha₃ (H₂ l))
    have c₄' : m₄.calls i = { m.calls i with scope := i, rules := i, pc := .look .tags false } := by rw [c₄, c₃']; rfl
    rw [show (m₃.calls i).loc (.attr .rules) = .attrs i by rw [c₃']; rfl] at H₄
    have hx₄ : Holds m₄ (.attrs (m₄.calls i).scope) [.attr i .rules] := by
      rw [c₄']
      have := H₄ (.attrs i)
      rw [if_pos rfl] at this
      exact this
    obtain ⟨m₅, r₅, hh₅, ha₅, c₅⟩ := look_alone (grow := grow) (name := name) (i := i) (key := .tags) (by rw [c₄']) hx₄
    have c₅' : m₅.calls i = { m.calls i with scope := i, rules := i, pc := .append (.attr .tags) .begin } := by rw [c₅, c₄']; rfl
    obtain ⟨m₆, r₆, c₆, H₆⟩ := append_alone (grow := grow) (name := name) (i := i) (m := m₅) (job := .attr .tags) (by rw [c₅']) (fun l => holds_same hh₅ ha₅ (H₄ l))
    have c₆' : m₆.calls i = { m.calls i with scope := i, rules := i, tags := i, pc := .append (.value .rules (name i)) .begin } := by rw [c₆, c₅']; rfl
    rw [show (m₅.calls i).loc (.attr .tags) = .attrs i by rw [c₅']; rfl] at H₆
    obtain ⟨m₇, r₇, d₇, H₇⟩ := values_alone (grow := grow) (name := name) (i := i) (tags i) (m := m₆) (key := .rules) (t := name i) (by rw [c₆']) (by rw [c₆']; exact htodo) H₆
    refine ⟨m₇, runOf_trans r₁ (runOf_trans r₂ (runOf_trans r₃ (runOf_trans r₄ (runOf_trans r₅ (runOf_trans r₆ r₇))))), d₇, fun l => ?_⟩
    refine (congrArg (Holds m₇ l) ?_).mp (H₇ l)
    rw [show (m₆.calls i).attr .rules = i by rw [c₆']; rfl, show (m₆.calls i).tags = i by rw [c₆'], show (m₁.calls i).loc .scope = .scopes by rw [c₁]; rfl]
    cases l with
    | scopes => simp [Content, elem]
    | attrs s =>
      by_cases e : i = s
      · subst e; simp [Content, elem]
      · simp [Content, e, Ne.symm e]
    | values a key =>
      by_cases e : i = a
      · subst e; cases key <;> simp [Content]
      · cases key <;> simp [Content, e, Ne.symm e]
  | cons a as =>
    have hs : Content name tags n (a :: as) .scopes = (List.range n).map .own ++ [.scope a] := rfl
    obtain ⟨m₁, r₁, c₁, hh₁, ha₁⟩ := scan_found (grow := grow) (name := name) (i := i) hW (n := n) (a := a) (by rw [hs]; simp) (fun k hk => by
        rw [hs, List.getElem?_append_left (by simpa using hk), List.getElem?_map, List.getElem?_range hk]
        rfl) (by rw [hs]; simp) n 0 _ rfl (runOf_one s1) hself rfl rfl
    have hx₁ : Holds m₁ (.attrs (m₁.calls i).scope) [.attr a .rules, .attr a .tags] := by
      rw [c₁]
      have := holds_same hh₁ ha₁ (hW (.attrs a))
      rw [content_attrs] at this
      exact this
    obtain ⟨m₂, r₂, hh₂, ha₂, c₂⟩ := look_alone (grow := grow) (name := name) (i := i) (key := .rules) (by rw [c₁]) hx₁
    have c₂' : m₂.calls i = { m.calls i with scope := a, rules := a, pc := .look .tags false } := by rw [c₂, c₁]; rfl
    have hx₂ : Holds m₂ (.attrs (m₂.calls i).scope) [.attr a .rules, .attr a .tags] := by
      rw [c₂']
      rw [c₁] at hx₁
      exact holds_same hh₂ ha₂ hx₁
    obtain ⟨m₃, r₃, hh₃, ha₃, c₃⟩ := look_alone (grow := grow) (name := name) (i := i) (key := .tags) (by rw [c₂']) hx₂
    have c₃' : m₃.calls i = { m.calls i with scope := a, rules := a, tags := a, pc := .append (.value .rules (name i)) .begin } := by rw [c₃, c₂']; rfl
    obtain ⟨m₄, r₄, d₄, H₄⟩ := values_alone (grow := grow) (name := name) (i := i) (tags i) (m := m₃) (key := .rules) (t := name i) (by rw [c₃']) (by rw [c₃']; exact htodo)
      (fun l => holds_same hh₃ ha₃ (holds_same hh₂ ha₂ (holds_same hh₁ ha₁ (hW l))))
    refine ⟨m₄, runOf_trans r₁ (runOf_trans r₂ (runOf_trans r₃ r₄)), d₄, fun l => ?_⟩
    refine (congrArg (Holds m₄ l) ?_).mp (H₄ l)
    rw [show (m₃.calls i).attr .rules = a by rw [c₃']; rfl, show (m₃.calls i).tags = a by rw [c₃']]
    cases l with
    | scopes => simp [Content]
    | attrs s => simp [Content]
    | values b key =>
      by_cases e : a = b
      · subst e; cases key <;> simp [Content]
      · cases key <;> simp [Content, e, Ne.symm e]

/-- Calls one after the other. -/
theorem turns_content {tags : Nat → List Str} {n : Nat} {m m' : Mem} (hstart : Starts tags n m) {is : List Nat} (h : Turns grow name m is m') :
    (∀ l, Holds m' l (Content name tags n is l)) ∧ ∀ j, (m'.calls j).pc = .start → (m'.calls j).todo = tags j := by
  induction h with
  | nil =>
    refine ⟨fun l => ?_, fun j _ => (hstart.started j).2⟩
    by_cases hl : l = .scopes
    · subst hl
      have hs : Content name tags n [] .scopes = (List.range n).map .own := List.append_nil _
      rw [hs]
      refine ⟨by rw [hstart.scopes]; simp, fun k hk => ?_⟩
      rw [List.length_map, List.length_range] at hk
      rw [hstart.own k hk, List.getElem?_map, List.getElem?_range hk]
      rfl
    · have : Content name tags n [] l = [] := by
        cases l with
        | scopes => exact absurd rfl hl
        | attrs s => rfl
        | values a key => cases key <;> rfl
      rw [this]
      exact ⟨hstart.empty l hl, fun k hk => absurd hk (Nat.not_lt_zero _)⟩
  | snoc j _ hbegin hof hend ih =>
    obtain ⟨m₁, r₁, d₁, H₁⟩ := call_alone (grow := grow) (i := j) hbegin (ih.2 j hbegin) ih.1
    have := runOf_done r₁ hof d₁ hend
    subst this
    refine ⟨H₁, fun k hk => ?_⟩
    have hne : k ≠ j := fun e => by
      rw [e, hend] at hk
      cases hk
    rw [runOf_others hof k hne] at hk ⊢
    exact ih.2 k hk

/-- **C125** If engines note one after the other, the record is in the end as the sequential account of `AddRules` has it (`Noted`, C84): what it arrived with and then one scope of the processor, in which the rules are
listed in the order of the calls and each with its tags. -/
theorem in_turn_noted {tags : Nat → List Str} {rules : Nat → Policy.RuleInfo} (hname : ∀ i, name i = (rules i).name) (htags : ∀ i, (tags i).Nodup ∧ ∀ t, t ∈ tags i ↔ t ∈ (rules i).tags.flatten)
    {rl : Otel.ResourceLogs} {m m' : Mem} (hstart : Starts tags rl.scopes.length m) {is : List Nat} (h : Turns grow name m is m') :
    Otel.Noted rl (is.map rules) { rl with scopes := m'.scopesOf rl.scopes } := by
  have H := (turns_content hstart h).1
  have own : ∀ xs : List Otel.ScopeLogs, ((List.range xs.length).map Elem.own).filterMap (fun
      | .own k => xs[k]?
      | .scope s => some { scope := some { name := "sf-processor".toList, attrs := m'.attrsOf s }, logs := [] }
      | _ => none) = xs := by
    intro xs
    rw [List.filterMap_map]
    induction xs using Verif.snocInduction with
    | nil => rfl
    | snoc ys y ih =>
      rw [List.length_append, List.length_singleton, List.range_succ, List.filterMap_append]
      have e1 : (List.range ys.length).filterMap ((fun
          | .own k => (ys ++ [y])[k]?
          | .scope s => some { scope := some { name := "sf-processor".toList, attrs := m'.attrsOf s }, logs := [] }
          | _ => none) ∘ Elem.own) = (List.range ys.length).filterMap (fun k => ys[k]?) :=
        List.filterMap_congr (fun k hk => List.getElem?_append_left (List.mem_range.1 hk))
      rw [e1, show (List.range ys.length).filterMap (fun k => ys[k]?) = ys from ih]
      simp
  refine ⟨fun he => ?_, fun hne => ?_⟩
  · have he : is = [] := List.map_eq_nil_iff.1 he
    subst he
    have e : m'.scopesOf rl.scopes = rl.scopes := by
      unfold Mem.scopesOf
      rw [holds_list (H .scopes), show Content name tags rl.scopes.length [] .scopes = (List.range rl.scopes.length).map .own from List.append_nil _]
      exact own rl.scopes
    rw [e]
  · cases is with
    | nil => exact absurd rfl hne
    | cons a as =>
      refine ⟨(a :: as).map tags, ?_, ?_⟩
      · generalize a :: as = js
        induction js with
        | nil => exact .nil
        | cons j js ih => exact .cons (htags j) ih
      have vr : m'.valuesOf a .rules = .arr (Otel.texts ((a :: as).map (fun j => name j))) := by
        unfold Mem.valuesOf
        rw [holds_list (H (.values a .rules)), content_rules]
        unfold Otel.texts
        rw [List.filterMap_map, List.map_map]
        congr 1
        exact congrFun (List.filterMap_eq_map (f := Otel.Value.str ∘ fun j => name j)) _
      have vt : m'.valuesOf a .tags = .arr (Otel.texts ((a :: as).map tags).flatten) := by
        unfold Mem.valuesOf
        rw [holds_list (H (.values a .tags)), content_tags]
        unfold Otel.texts
        rw [← List.flatMap_def]
        congr 1
        generalize a :: as = js
        induction js with
        | nil => rfl
        | cons j js ih =>
          rw [List.flatMap_cons, List.filterMap_append, ih, List.flatMap_cons, List.map_append, List.filterMap_map]
          congr 1
          exact congrFun (List.filterMap_eq_map (f := Otel.Value.str)) _
      have at_ : m'.attrsOf a = [("sf.processor.rules".toList, .arr (Otel.texts ((a :: as).map (fun j => name j)))), ("sf.processor.tags".toList, .arr (Otel.texts ((a :: as).map tags).flatten))] := by
        unfold Mem.attrsOf
        rw [holds_list (H (.attrs a)), ← vr, ← vt, content_attrs]
        rfl
      have e : m'.scopesOf rl.scopes = rl.scopes ++ [Otel.processorScope ((a :: as).map (fun j => name j)) ((a :: as).map tags).flatten] := by
        unfold Mem.scopesOf
        rw [holds_list (H .scopes), show Content name tags rl.scopes.length (a :: as) .scopes = (List.range rl.scopes.length).map .own ++ [.scope a] from rfl, List.filterMap_append]
        congr 1
        · exact own rl.scopes
        · unfold Otel.processorScope
          rw [← at_]
          rfl
      rw [e]
      congr 3
      rw [List.map_map]
      exact congrArg (fun f => Otel.processorScope ((a :: as).map f) ((a :: as).map tags).flatten) (funext hname)

end

/-- Calls can be made one after the other, in any order. -/
theorem turns_exist {grow : Nat → Nat → Nat} {name : Nat → Str} {tags : Nat → List Str} {n : Nat} {m : Mem} (hstart : Starts tags n m) : ∀ {is : List Nat}, is.Nodup →
    ∃ m', Turns grow name m is m' ∧ ∀ j, j ∉ is → m'.calls j = m.calls j := by
  intro is
  induction is using Verif.snocInduction with
  | nil => exact fun _ => ⟨m, .nil, fun _ _ => rfl⟩
  | snoc is i ih =>
    intro hnd
    rw [List.nodup_append] at hnd
    obtain ⟨m₁, h1, h2⟩ := ih hnd.1
    have hi : i ∉ is := fun h => hnd.2.2 i h i (List.mem_singleton.2 rfl) rfl
    have hpc : (m₁.calls i).pc = .start := by rw [h2 i hi]; exact (hstart.started i).1
    obtain ⟨m₂, h3, h4, -⟩ := call_alone (grow := grow) hpc ((turns_content hstart h1).2 i hpc) (turns_content hstart h1).1
    refine ⟨m₂, .snoc i h1 hpc h3 h4, fun j hj => ?_⟩
    rw [List.mem_append, not_or, List.mem_singleton] at hj
    exact (runOf_others h3 j hj.2).trans (h2 j hj.1)

/-! ### A finding -/

/-- A record with one scope, and rules as in `ruleName` and `tagNames`. -/
def oneScope : Otel.ResourceLogs := ⟨none, [⟨none, [], []⟩], []⟩

def demoRules (i : Nat) : Policy.RuleInfo := { name := ruleName i, tags := [tagNames i] }

/-- **C125** (finding) If two engines note at the same time, the record may end as no order of the two calls would leave it. -/
theorem simultaneous_not_noted : ∃ (grow : Nat → Nat → Nat) (name : Nat → Str) (tags : Nat → List Str) (rules : Nat → Policy.RuleInfo) (rl : Otel.ResourceLogs) (m m' : Mem),
    (∀ i, name i = (rules i).name) ∧ (∀ i, (tags i).Nodup ∧ ∀ t, t ∈ tags i ↔ t ∈ (rules i).tags.flatten) ∧ (∀ c k, k ≤ grow c k) ∧ Starts tags rl.scopes.length m ∧ Run grow name m m' ∧ (m'.calls 0).pc = .done ∧ (m'.calls 1).pc = .done ∧
    ∀ is : List Nat, is.Perm [0, 1] → ¬Otel.Noted rl (is.map rules) { rl with scopes := m'.scopesOf rl.scopes } := by
  have h0 : ((arriving.steps (fun _ n => 2 * n) ruleName bothRead).map fun m => decide ((m.calls 0).pc = .done ∧ (m.calls 1).pc = .done ∧ m.list .scopes = [.own 0, .scope 1] ∧ m.list (.attrs 1) = [.attr 1 .rules, .attr 1 .tags] ∧
      m.list (.values 1 .rules) = [.value 1 .rules "b".toList] ∧ m.list (.values 1 .tags) = [])) = some true := by decide +kernel
  obtain ⟨m', h1, h2⟩ := Option.map_eq_some_iff.1 h0
  obtain ⟨h2, h3, h4, h5, h6, h7⟩ := of_decide_eq_true h2
  refine ⟨_, ruleName, tagNames, demoRules, oneScope, arriving, m', fun _ => rfl, fun i => ⟨tagNames_nodup i, fun t => (by simp [demoRules])⟩, fun c k => (by omega), arriving_starts, steps_run _ _ _ _ .refl h1, h2, h3, fun is hp hn => ?_⟩
  have hlen : is.length = 2 := hp.length_eq
  obtain ⟨ts, -, h8⟩ := hn.2 (fun e => by
    rw [List.map_eq_nil_iff.1 e] at hlen
    cases hlen)
  have e : m'.scopesOf oneScope.scopes = [⟨none, [], []⟩, Otel.processorScope ["b".toList] []] := by
    unfold Mem.scopesOf Mem.attrsOf Mem.valuesOf
    rw [h4]
    simp only [List.filterMap_cons, List.filterMap_nil, h5, h6, h7]
    rfl
  rw [e] at h8
  have h9 := congrArg (fun r : Otel.ResourceLogs => r.scopes[1]?) h8
  simp only [oneScope, List.cons_append, List.nil_append, List.getElem?_cons_succ, List.getElem?_cons_zero, Option.some.injEq, Otel.processorScope, Otel.texts] at h9
  have h10 := congrArg (fun s : Otel.ScopeLogs => (s.scope.map (fun sc => sc.attrs.head?.map (·.2)))) h9
  simp only [Option.map_some, List.head?_cons, Option.some.injEq, Otel.Value.arr.injEq] at h10
  have h11 := congrArg List.length h10
  simp only [List.length_map, List.length_cons, List.length_nil, hlen] at h11
  cases h11

/-! ### The hypotheses are met -/

/-- Three rules, of which the second that is noted has a tag. -/
example : ∃ m, Turns (fun _ n => 2 * n) ruleName arriving [0, 2, 1] m ∧ Otel.Noted oneScope ([0, 2, 1].map demoRules) { oneScope with scopes := m.scopesOf oneScope.scopes } := by
  obtain ⟨m, h, -⟩ := turns_exist (grow := fun _ n => 2 * n) (name := ruleName) arriving_starts (is := [0, 2, 1]) (by decide)
  exact ⟨m, h, in_turn_noted (rl := oneScope) (rules := demoRules) (fun _ => rfl) (fun i => ⟨tagNames_nodup i, fun t => (by simp [demoRules])⟩) arriving_starts h⟩

end Verif.Shared.Noting
