import Verif.Base.Snoc
import Verif.Base.Measure
import Mathlib.Data.DFinsupp.WellFounded
import Verif.Pipeline.Drain
import Verif.Engine.SwapProps
import Verif.Exporter.Props
/-
C53: a pipeline drains.
-/
namespace Verif.Pipeline.Drain

/-! ### Specification -/

section
variable {R : Type}

/-- The records a stage received. -/
def takes (as : List (Act R)) : List R := as.filterMap (fun | .take r => some r | _ => none)
/-- The records a stage sent on its `k`-th output. -/
def sends (k : Nat) (as : List (Act R)) : List R := as.filterMap (fun | .send j r => if j = k then some r else none | _ => none)
/-- What stage `i` did in a pipeline execution. -/
def acts (i : Nat) (tr : List (Obs R)) : List (Act R) := tr.filterMap (fun | .stage j a => if j = i then some a else none | _ => none)
/-- The records the driver sent. -/
def driven (tr : List (Obs R)) : List R := tr.filterMap (fun | .driven r => some r | _ => none)
/-- The driver has closed the root channel. -/
def rootClosed (tr : List (Obs R)) : Bool := tr.any (fun | .rootClosed => true | _ => false)

/-- The pipeline is a tree: every output channel is the input channel of exactly one later stage, and every stage but the
first is fed by an output of an earlier stage. (A chain is the special case of one output per stage but the last.) -/
structure Tree (N : Net R) : Prop where
  pos : 0 < N.n
  cap : 0 < N.cap
  down : ∀ i k, i < N.n → k < (N.comp i).nOut → i < N.tgt i k ∧ N.tgt i k < N.n
  inj : ∀ i k j m, i < N.n → j < N.n → k < (N.comp i).nOut → m < (N.comp j).nOut → N.tgt i k = N.tgt j m → i = j ∧ k = m
  up : ∀ i, 0 < i → i < N.n → ∃ j k, j < N.n ∧ k < (N.comp j).nOut ∧ N.tgt j k = i

/-- What a stage has to guarantee: it returns from `Process` once, when the input has ended, then cleans up once; it
receives nothing after returning and sends nothing after cleaning up; until it has cleaned up it can make progress by
itself or is ready to receive a record as well as the end of the input; and by itself it makes only finitely many
steps. -/
structure Contract (C : Comp R) : Prop where
  init : C.returned C.init = false ∧ C.cleaned C.init = false
  effect : ∀ tr s l s' a, C.Run tr s → C.step s l = some (s', a) →
    C.returned s' = (C.returned s || a.isEof) ∧ C.cleaned s' = (C.cleaned s || a.isClose)
  input : ∀ tr s l s' a, C.Run tr s → C.step s l = some (s', a) → a.isInput = true → C.returned s = false
  output : ∀ tr s l s' k r, C.Run tr s → C.step s l = some (s', .send k r) → C.cleaned s = false ∧ k < C.nOut
  closing : ∀ tr s l s', C.Run tr s → C.step s l = some (s', .close) → C.returned s = true ∧ C.cleaned s = false
  live : ∀ tr s, C.Run tr s → C.cleaned s = false →
    (∃ l s' a, C.env l = false ∧ C.step s l = some (s', a) ∧ a.isInput = false) ∨
    (C.returned s = false ∧ (∀ r, ∃ l s', C.env l = false ∧ C.step s l = some (s', .take r)) ∧
      ∃ l s', C.env l = false ∧ C.step s l = some (s', .eof))
  finite : ∃ μ : C.S → Nat, ∀ tr s l s' a, C.Run tr s → C.step s l = some (s', a) →
    (C.env l = true → μ s' = μ s ∧ a = .tau) ∧ (C.env l = false → a.isInput = false → μ s' < μ s)

/-- A step of the program itself (not the driver, a timer or the policy monitor). -/
def Label.own {N : Net R} : Label N → Bool
  | .stage i l => !(N.comp i).env l
  | _ => false

/-! ### Invariant -/

@[simp] theorem takes_append (a b : List (Act R)) : takes (a ++ b) = takes a ++ takes b := by simp [takes]
@[simp] theorem sends_append (k : Nat) (a b : List (Act R)) : sends k (a ++ b) = sends k a ++ sends k b := by simp [sends]
@[simp] theorem acts_append (i : Nat) (a b : List (Obs R)) : acts i (a ++ b) = acts i a ++ acts i b := by simp [acts]
@[simp] theorem driven_append (a b : List (Obs R)) : driven (a ++ b) = driven a ++ driven b := by simp [driven]
@[simp] theorem rootClosed_append (a b : List (Obs R)) : rootClosed (a ++ b) = (rootClosed a || rootClosed b) := by simp [rootClosed]
@[simp] theorem acts_self (i : Nat) (a : Act R) : acts i [.stage i a] = [a] := by simp [acts]
theorem acts_other {i j : Nat} (h : j ≠ i) (a : Act R) : acts i [.stage j a] = [] := by simp [acts, h]
@[simp] theorem acts_driven (i : Nat) (r : R) : acts i [.driven r] = [] := rfl
@[simp] theorem acts_root (i : Nat) : acts (R := R) i [.rootClosed] = [] := rfl
@[simp] theorem driven_stage (i : Nat) (a : Act R) : driven [.stage i a] = [] := rfl
@[simp] theorem driven_root : driven (R := R) [.rootClosed] = [] := rfl
@[simp] theorem driven_driven (r : R) : driven [.driven r] = [r] := rfl
@[simp] theorem root_stage (i : Nat) (a : Act R) : rootClosed [.stage i a] = false := rfl
@[simp] theorem root_driven (r : R) : rootClosed [Obs.driven r] = false := rfl
@[simp] theorem root_root : rootClosed (R := R) [.rootClosed] = true := rfl

structure Inv (N : Net R) (tr : List (Obs R)) (s : St N) : Prop where
  run : ∀ i, i < N.n → (N.comp i).Run (acts i tr) (s.st i)
  root : takes (acts 0 tr) ++ s.buf 0 = driven tr
  flow : ∀ i k, i < N.n → k < (N.comp i).nOut → takes (acts (N.tgt i k) tr) ++ s.buf (N.tgt i k) = sends k (acts i tr)
  closed0 : s.closed 0 = rootClosed tr
  closed : ∀ i k, i < N.n → k < (N.comp i).nOut → s.closed (N.tgt i k) = (N.comp i).cleaned (s.st i)
  ret : ∀ i, i < N.n → (N.comp i).returned (s.st i) = true → s.buf i = [] ∧ s.closed i = true
  clean : ∀ i, i < N.n → (N.comp i).cleaned (s.st i) = true → (N.comp i).returned (s.st i) = true
  ok : s.panicked = false

theorem closeAll_spec (xs : List Nat) (c : Nat → Bool) (hnd : xs.Nodup) (h : ∀ x ∈ xs, c x = false) :
    ∃ c', closeAll xs c = some c' ∧ ∀ y, c' y = (c y || decide (y ∈ xs)) := by
  induction xs generalizing c with
  | nil => exact ⟨c, rfl, by simp⟩
  | cons x xs ih =>
    obtain ⟨h1, h2⟩ := List.nodup_cons.1 hnd
    have hx : c x = false := h x (by simp)
    obtain ⟨c', e, hc⟩ := ih (Function.update c x true) h2 (by
      intro y hy
      rw [Function.update_of_ne (by rintro rfl; exact h1 hy)]
      exact h y (by simp [hy]))
    refine ⟨c', by rw [closeAll, if_neg (by simp [hx]), e], ?_⟩
    intro y
    rw [hc y]
    by_cases hy : y = x
    · subst hy; simp
    · rw [Function.update_of_ne hy]; simp [hy]

theorem outs_nodup {N : Net R} (hT : Tree N) {i : Nat} (hi : i < N.n) : (N.outs i).Nodup := by
  unfold Net.outs
  rw [List.nodup_map_iff_inj_on List.nodup_range]
  intro a ha b hb e
  exact (hT.inj i a i b hi hi (List.mem_range.1 ha) (List.mem_range.1 hb) e).2

theorem mem_outs {N : Net R} {i c : Nat} : c ∈ N.outs i ↔ ∃ k, k < (N.comp i).nOut ∧ N.tgt i k = c := by
  simp [Net.outs]

theorem inv_start {N : Net R} (hC : ∀ i, i < N.n → Contract (N.comp i)) : Inv N [] (St.start N) where
  run i _ := .nil
  root := rfl
  flow _ _ _ _ := rfl
  closed0 := rfl
  closed i k hi _ := (hC i hi).init.2.symm
  ret i hi h := by have := (hC i hi).init.1; rw [show (St.start N).st i = (N.comp i).init from rfl] at h; rw [this] at h; cases h
  clean i hi h := by have := (hC i hi).init.2; rw [show (St.start N).st i = (N.comp i).init from rfl] at h; rw [this] at h; cases h
  ok := rfl

theorem run_stage {N : Net R} {tr : List (Obs R)} {s : St N} (hI : Inv N tr s) {i : Nat} {l : (N.comp i).L} {t : (N.comp i).S} {a : Act R}
    (hi : i < N.n) (hs : (N.comp i).step (s.st i) l = some (t, a)) :
    ∀ j, j < N.n → (N.comp j).Run (acts j (tr ++ [.stage i a])) (Function.update s.st i t j) := by
  intro j hj
  by_cases e : j = i
  · subst e
    rw [acts_append, acts_self, Function.update_self]
    exact .snoc (hI.run j hj) hs
  · rw [acts_append, acts_other (Ne.symm e), List.append_nil, Function.update_of_ne e]
    exact hI.run j hj

theorem flag_stage {N : Net R} {s : St N} {i : Nat} {t : (N.comp i).S} (f : (j : Nat) → (N.comp j).S → Bool) (j : Nat) :
    f j (Function.update s.st i t j) = if j = i then f i t else f j (s.st j) := by
  by_cases e : j = i
  · subst e; simp
  · simp [e]

theorem takes_stage {i j : Nat} {a : Act R} (tr : List (Obs R)) (h : ∀ r, a ≠ .take r) : takes (acts j (tr ++ [.stage i a])) = takes (acts j tr) := by
  by_cases e : j = i
  · subst e
    cases a <;> simp [takes] at h ⊢
  · simp [acts_other (Ne.symm e)]

theorem sends_stage {i j k : Nat} {a : Act R} (tr : List (Obs R)) (h : ∀ r, a ≠ .send k r) : sends k (acts j (tr ++ [.stage i a])) = sends k (acts j tr) := by
  by_cases e : j = i
  · subst e
    cases a <;> simp [sends] at h ⊢
    exact h
  · simp [acts_other (Ne.symm e)]

theorem inv_step {N : Net R} (hT : Tree N) (hC : ∀ i, i < N.n → Contract (N.comp i)) {tr : List (Obs R)} {s s' : St N} {l : Label N} {o : Obs R}
    (hI : Inv N tr s) (h : Step N s l o s') : Inv N (tr ++ [o]) s' := by
  cases h with
  | drive r hp hc hroom =>
    have ne : ∀ i k, i < N.n → k < (N.comp i).nOut → N.tgt i k ≠ 0 := fun i k hi hk => by have := (hT.down i k hi hk).1; omega
    refine ⟨?_, ?_, ?_, ?_, ?_, ?_, ?_, hp⟩
    · intro i hi; simpa using hI.run i hi
    · simp [← hI.root]
    · intro i k hi hk
      simp only [acts_append, acts_driven, List.append_nil]
      rw [Function.update_of_ne (ne i k hi hk)]
      exact hI.flow i k hi hk
    · simp [hI.closed0]
    · exact hI.closed
    · intro i hi hr
      have := hI.ret i hi hr
      by_cases e : i = 0
      · subst e; rw [this.2] at hc; cases hc
      · dsimp only; rw [Function.update_of_ne e]; exact this
    · exact hI.clean
  | closeRoot hp hc =>
    have ne : ∀ i k, i < N.n → k < (N.comp i).nOut → N.tgt i k ≠ 0 := fun i k hi hk => by have := (hT.down i k hi hk).1; omega
    refine ⟨?_, ?_, ?_, ?_, ?_, ?_, ?_, hp⟩
    · intro i hi; simpa using hI.run i hi
    · simpa using hI.root
    · intro i k hi hk; simpa using hI.flow i k hi hk
    · simp
    · intro i k hi hk
      dsimp only
      rw [Function.update_of_ne (ne i k hi hk)]
      exact hI.closed i k hi hk
    · intro i hi hr
      refine ⟨(hI.ret i hi hr).1, ?_⟩
      by_cases e : i = 0
      · subst e; simp
      · dsimp only; rw [Function.update_of_ne e]; exact (hI.ret i hi hr).2
    · exact hI.clean
  | tau i l t hp hi hs =>
    have eff := (hC i hi).effect _ _ _ _ _ (hI.run i hi) hs
    simp only [Act.isEof, Act.isClose, Bool.or_false] at eff
    refine ⟨run_stage hI hi hs, ?_, ?_, ?_, ?_, ?_, ?_, hp⟩
    · rw [takes_stage _ (by simp)]; simpa using hI.root
    · intro j k hj hk
      rw [takes_stage _ (by simp), sends_stage _ (by simp)]; exact hI.flow j k hj hk
    · simpa using hI.closed0
    · intro j k hj hk
      rw [hI.closed j k hj hk]
      dsimp only
      rw [flag_stage (fun j => (N.comp j).cleaned)]
      split
      · subst j; exact eff.2.symm
      · rfl
    · intro j hj hr
      dsimp only at hr
      rw [flag_stage (fun j => (N.comp j).returned)] at hr
      split at hr
      · subst j; exact hI.ret i hi (eff.1 ▸ hr)
      · exact hI.ret j hj hr
    · intro j hj hr
      dsimp only at hr ⊢
      rw [flag_stage (fun j => (N.comp j).cleaned)] at hr
      rw [flag_stage (fun j => (N.comp j).returned)]
      split at hr
      · subst j; rw [if_pos rfl, eff.1]; exact hI.clean i hi (eff.2 ▸ hr)
      · rename_i e; rw [if_neg e]; exact hI.clean j hj hr
  | take i l t r q hp hi hs hb =>
    have eff := (hC i hi).effect _ _ _ _ _ (hI.run i hi) hs
    have hret := (hC i hi).input _ _ _ _ _ (hI.run i hi) hs rfl
    simp only [Act.isEof, Act.isClose, Bool.or_false] at eff
    have feed : ∀ j, takes (acts j (tr ++ [.stage i (.take r)])) ++ Function.update s.buf i q j = takes (acts j tr) ++ s.buf j := by
      intro j
      by_cases e : j = i
      · subst e; simp [hb, takes]
      · rw [acts_append, acts_other (Ne.symm e), List.append_nil, Function.update_of_ne e]
    refine ⟨run_stage hI hi hs, ?_, ?_, ?_, ?_, ?_, ?_, hp⟩
    · dsimp only
      rw [feed]; simpa using hI.root
    · intro j k hj hk
      dsimp only
      rw [feed, sends_stage _ (by simp)]; exact hI.flow j k hj hk
    · simpa using hI.closed0
    · intro j k hj hk
      rw [hI.closed j k hj hk]
      dsimp only
      rw [flag_stage (fun j => (N.comp j).cleaned)]
      split
      · subst j; exact eff.2.symm
      · rfl
    · intro j hj hr
      dsimp only at hr
      rw [flag_stage (fun j => (N.comp j).returned)] at hr
      split at hr
      · subst j; rw [eff.1, hret] at hr; cases hr
      · rename_i e
        dsimp only
        rw [Function.update_of_ne e]
        exact hI.ret j hj hr
    · intro j hj hr
      dsimp only at hr ⊢
      rw [flag_stage (fun j => (N.comp j).cleaned)] at hr
      rw [flag_stage (fun j => (N.comp j).returned)]
      split at hr
      · subst j; rw [if_pos rfl, eff.1]; exact hI.clean i hi (eff.2 ▸ hr)
      · rename_i e; rw [if_neg e]; exact hI.clean j hj hr
  | eof i l t hp hi hs hb hcl =>
    have eff := (hC i hi).effect _ _ _ _ _ (hI.run i hi) hs
    simp only [Act.isEof, Act.isClose, Bool.or_false, Bool.or_true] at eff
    refine ⟨run_stage hI hi hs, ?_, ?_, ?_, ?_, ?_, ?_, hp⟩
    · rw [takes_stage _ (by simp)]; simpa using hI.root
    · intro j k hj hk
      rw [takes_stage _ (by simp), sends_stage _ (by simp)]; exact hI.flow j k hj hk
    · simpa using hI.closed0
    · intro j k hj hk
      rw [hI.closed j k hj hk]
      dsimp only
      rw [flag_stage (fun j => (N.comp j).cleaned)]
      split
      · subst j; exact eff.2.symm
      · rfl
    · intro j hj hr
      dsimp only at hr
      rw [flag_stage (fun j => (N.comp j).returned)] at hr
      split at hr
      · subst j; exact ⟨hb, hcl⟩
      · exact hI.ret j hj hr
    · intro j hj hr
      dsimp only at hr ⊢
      rw [flag_stage (fun j => (N.comp j).cleaned)] at hr
      rw [flag_stage (fun j => (N.comp j).returned)]
      split at hr
      · subst j; rw [if_pos rfl, eff.1]
      · rename_i e; rw [if_neg e]; exact hI.clean j hj hr
  | send i l t k r hp hi hs hcl hroom =>
    have eff := (hC i hi).effect _ _ _ _ _ (hI.run i hi) hs
    have hout := (hC i hi).output _ _ _ _ _ _ (hI.run i hi) hs
    simp only [Act.isEof, Act.isClose, Bool.or_false] at eff
    have hne : N.tgt i k ≠ 0 := by have := (hT.down i k hi hout.2).1; omega
    refine ⟨run_stage hI hi hs, ?_, ?_, ?_, ?_, ?_, ?_, hp⟩
    · rw [takes_stage _ (by simp)]; dsimp only; rw [Function.update_of_ne (Ne.symm hne)]; simpa using hI.root
    · intro j m hj hm
      rw [takes_stage _ (by simp)]
      dsimp only
      by_cases e : N.tgt j m = N.tgt i k
      · obtain ⟨rfl, rfl⟩ := hT.inj j m i k hj hi hm hout.2 e
        rw [Function.update_self, ← List.append_assoc, hI.flow j m hj hm]
        simp [sends]
      · rw [Function.update_of_ne e, hI.flow j m hj hm]
        by_cases e' : j = i
        · subst e'
          have : k ≠ m := fun h => e (by rw [h])
          simp [sends, this]
        · simp [acts_other (Ne.symm e')]
    · simpa using hI.closed0
    · intro j k hj hk
      rw [hI.closed j k hj hk]
      dsimp only
      rw [flag_stage (fun j => (N.comp j).cleaned)]
      split
      · subst j; exact eff.2.symm
      · rfl
    · intro j hj hr
      dsimp only at hr
      rw [flag_stage (fun j => (N.comp j).returned)] at hr
      have hr' : (N.comp j).returned (s.st j) = true := by
        split at hr
        · subst j; exact eff.1 ▸ hr
        · exact hr
      have := hI.ret j hj hr'
      by_cases e : j = N.tgt i k
      · subst e; rw [this.2] at hcl; cases hcl
      · dsimp only; rw [Function.update_of_ne e]; exact this
    · intro j hj hr
      dsimp only at hr ⊢
      rw [flag_stage (fun j => (N.comp j).cleaned)] at hr
      rw [flag_stage (fun j => (N.comp j).returned)]
      split at hr
      · subst j; rw [if_pos rfl, eff.1]; exact hI.clean i hi (eff.2 ▸ hr)
      · rename_i e; rw [if_neg e]; exact hI.clean j hj hr
  | sendPanic i l t k r hp hi hs hcl =>
    have hout := (hC i hi).output _ _ _ _ _ _ (hI.run i hi) hs
    rw [hI.closed i k hi hout.2, hout.1] at hcl
    cases hcl
  | close i l t c hp hi hs hcl =>
    have eff := (hC i hi).effect _ _ _ _ _ (hI.run i hi) hs
    have hcls := (hC i hi).closing _ _ _ _ (hI.run i hi) hs
    simp only [Act.isEof, Act.isClose, Bool.or_false, Bool.or_true] at eff
    obtain ⟨c', e1, e2⟩ := closeAll_spec (N.outs i) s.closed (outs_nodup hT hi) (by
      intro x hx
      obtain ⟨k, hk, rfl⟩ := mem_outs.1 hx
      rw [hI.closed i k hi hk, hcls.2])
    rw [e1] at hcl
    cases hcl
    refine ⟨run_stage hI hi hs, ?_, ?_, ?_, ?_, ?_, ?_, hp⟩
    · rw [takes_stage _ (by simp)]; simpa using hI.root
    · intro j k hj hk
      rw [takes_stage _ (by simp), sends_stage _ (by simp)]; exact hI.flow j k hj hk
    · dsimp only
      rw [e2 0]
      have : ¬ (0 ∈ N.outs i) := by
        intro h0
        obtain ⟨k, hk, e⟩ := mem_outs.1 h0
        have := (hT.down i k hi hk).1
        omega
      simpa [this] using hI.closed0
    · intro j k hj hk
      dsimp only
      rw [e2, flag_stage (fun j => (N.comp j).cleaned)]
      by_cases e : j = i
      · subst e
        rw [if_pos rfl, eff.2]
        simp [mem_outs.2 ⟨k, hk, rfl⟩]
      · rw [if_neg e, hI.closed j k hj hk]
        have : ¬ (N.tgt j k ∈ N.outs i) := by
          intro h0
          obtain ⟨m, hm, e'⟩ := mem_outs.1 h0
          exact e (hT.inj i m j k hi hj hm hk e').1.symm
        simp [this]
    · intro j hj hr
      dsimp only at hr
      rw [flag_stage (fun j => (N.comp j).returned)] at hr
      have hr' : (N.comp j).returned (s.st j) = true := by
        split at hr
        · subst j; exact hcls.1
        · exact hr
      have := hI.ret j hj hr'
      refine ⟨this.1, ?_⟩
      dsimp only
      rw [e2, this.2]; rfl
    · intro j hj hr
      dsimp only at hr ⊢
      rw [flag_stage (fun j => (N.comp j).cleaned)] at hr
      rw [flag_stage (fun j => (N.comp j).returned)]
      split at hr
      · subst j; rw [if_pos rfl, eff.1]; exact hcls.1
      · rename_i e; rw [if_neg e]; exact hI.clean j hj hr
  | closePanic i l t hp hi hs hcl =>
    have hcls := (hC i hi).closing _ _ _ _ (hI.run i hi) hs
    obtain ⟨c', e1, e2⟩ := closeAll_spec (N.outs i) s.closed (outs_nodup hT hi) (by
      intro x hx
      obtain ⟨k, hk, rfl⟩ := mem_outs.1 hx
      rw [hI.closed i k hi hk, hcls.2])
    rw [e1] at hcl
    cases hcl

theorem inv_exec {N : Net R} (hT : Tree N) (hC : ∀ i, i < N.n → Contract (N.comp i)) {tr : List (Obs R)} {s : St N}
    (h : Exec N tr s) : Inv N tr s := by
  induction h with
  | nil => exact inv_start hC
  | snoc _ hs ih => exact inv_step hT hC ih hs

/-! ### Property theorems -/

/-- **C53** A pipeline never crashes on a channel: no stage ever sends on a closed channel or closes one twice. -/
theorem pipeline_never_panics {N : Net R} (hT : Tree N) (hC : ∀ i, i < N.n → Contract (N.comp i)) {tr : List (Obs R)} {s : St N}
    (h : Exec N tr s) : s.panicked = false := (inv_exec hT hC h).ok

/-- **C53** Channels are lossless and ordered at every moment: what a stage has received so far is a prefix of what was
sent to it, and the rest is still buffered. -/
theorem channels_lossless {N : Net R} (hT : Tree N) (hC : ∀ i, i < N.n → Contract (N.comp i)) {tr : List (Obs R)} {s : St N}
    (h : Exec N tr s) :
    takes (acts 0 tr) ++ s.buf 0 = driven tr ∧
    (∀ i k, i < N.n → k < (N.comp i).nOut → takes (acts (N.tgt i k) tr) ++ s.buf (N.tgt i k) = sends k (acts i tr)) ∧
    (∀ i, i < N.n → (N.comp i).Run (acts i tr) (s.st i)) :=
  ⟨(inv_exec hT hC h).root, (inv_exec hT hC h).flow, (inv_exec hT hC h).run⟩

/-- **C53** When `Wait` returns: the driver has closed the root channel; the first stage has received exactly the records
the driver sent; every other stage has received exactly the records sent to it; and every stage that feeds another one
has finished cleaning up, so nothing more will be sent. -/
theorem drained_when_wait_returns {N : Net R} (hT : Tree N) (hC : ∀ i, i < N.n → Contract (N.comp i)) {tr : List (Obs R)} {s : St N}
    (h : Exec N tr s) (hw : Waited s) :
    rootClosed tr = true ∧
    takes (acts 0 tr) = driven tr ∧
    (∀ i k, i < N.n → k < (N.comp i).nOut → takes (acts (N.tgt i k) tr) = sends k (acts i tr)) ∧
    (∀ i, i < N.n → 0 < (N.comp i).nOut → (N.comp i).cleaned (s.st i) = true) ∧
    (∀ i, i < N.n → (N.comp i).Run (acts i tr) (s.st i)) := by
  have hI := inv_exec hT hC h
  have h0 := hI.ret 0 hT.pos (hw 0 hT.pos)
  refine ⟨by rw [← hI.closed0, h0.2], ?_, ?_, ?_, hI.run⟩
  · have := hI.root
    rwa [h0.1, List.append_nil] at this
  · intro i k hi hk
    have := hI.flow i k hi hk
    rwa [(hI.ret _ (hT.down i k hi hk).2 (hw _ (hT.down i k hi hk).2)).1, List.append_nil] at this
  · intro i hi hk
    rw [← hI.closed i 0 hi hk]
    exact (hI.ret _ (hT.down i 0 hi hk).2 (hw _ (hT.down i 0 hi hk).2)).2

/-- A stage whose own step is blocked only by a full downstream channel. -/
theorem blocked_down {N : Net R} (hT : Tree N) (hC : ∀ i, i < N.n → Contract (N.comp i)) {tr : List (Obs R)} {s : St N}
    (hI : Inv N tr s) (hno : ∀ l o s', Step N s l o s' → l.own = false) (i : Nat) (hi : i < N.n)
    (hcl : (N.comp i).cleaned (s.st i) = false) :
    (N.comp i).returned (s.st i) = false ∧ s.buf i = [] ∧ s.closed i = false ∨
    ∃ k, k < (N.comp i).nOut ∧ s.buf (N.tgt i k) ≠ [] := by
  rcases (hC i hi).live _ _ (hI.run i hi) hcl with ⟨l, t, a, he, hs, ha⟩ | ⟨hr, htake, l, t, he, hs⟩
  · have own : Label.own (.stage i l : Label N) = true := by simp [Label.own, he]
    cases a with
    | tau => rw [hno _ _ _ (Step.tau s i l t hI.ok hi hs)] at own; cases own
    | take r => cases ha
    | eof => cases ha
    | send k r =>
      have hout := (hC i hi).output _ _ _ _ _ _ (hI.run i hi) hs
      have hc : s.closed (N.tgt i k) = false := by rw [hI.closed i k hi hout.2, hcl]
      right
      refine ⟨k, hout.2, ?_⟩
      intro hb
      have := hno _ _ _ (Step.send s i l t k r hI.ok hi hs hc (by rw [hb]; exact hT.cap))
      rw [this] at own; cases own
    | close =>
      have hcls := (hC i hi).closing _ _ _ _ (hI.run i hi) hs
      obtain ⟨c', e1, e2⟩ := closeAll_spec (N.outs i) s.closed (outs_nodup hT hi) (by
        intro x hx
        obtain ⟨k, hk, rfl⟩ := mem_outs.1 hx
        rw [hI.closed i k hi hk, hcls.2])
      have := hno _ _ _ (Step.close s i l t c' hI.ok hi hs e1)
      rw [this] at own; cases own
  · left
    cases hb : s.buf i with
    | cons r q =>
      obtain ⟨l, t, he, hs⟩ := htake r
      have own : Label.own (.stage i l : Label N) = true := by simp [Label.own, he]
      rw [hno _ _ _ (Step.take s i l t r q hI.ok hi hs hb)] at own; cases own
    | nil =>
      refine ⟨hr, rfl, ?_⟩
      cases hc : s.closed i with
      | false => rfl
      | true =>
        have own : Label.own (.stage i l : Label N) = true := by simp [Label.own, he]
        rw [hno _ _ _ (Step.eof s i l t hI.ok hi hs hb hc)] at own; cases own

/-- **C53** No deadlock: once the driver has closed the root channel, as long as not every stage has finished cleaning up,
some step of the program itself (not a timer, not the policy monitor) is possible. In particular the pipeline cannot hang
before `Wait` returns. -/
theorem no_deadlock {N : Net R} (hT : Tree N) (hC : ∀ i, i < N.n → Contract (N.comp i)) {tr : List (Obs R)} {s : St N}
    (h : Exec N tr s) (hroot : rootClosed tr = true) (hnot : ¬ ∀ i, i < N.n → (N.comp i).cleaned (s.st i) = true) :
    ∃ l o s', Step N s l o s' ∧ l.own = true := by
  refine Classical.byContradiction fun hcon => ?_
  have hno : ∀ l o s', Step N s l o s' → l.own = false := by
    intro l o s' hs
    cases ho : l.own with
    | false => rfl
    | true => exact absurd ⟨l, o, s', hs, ho⟩ hcon
  have hI := inv_exec hT hC h
  -- no channel holds a record
  have empty : ∀ d i, i < N.n → N.n - i ≤ d → s.buf i = [] := by
    intro d
    induction d with
    | zero => intro i hi hd; omega
    | succ d ih =>
      intro i hi hd
      cases hret : (N.comp i).returned (s.st i) with
      | true => exact (hI.ret i hi hret).1
      | false =>
        have hcl : (N.comp i).cleaned (s.st i) = false := by
          cases hc : (N.comp i).cleaned (s.st i) with
          | false => rfl
          | true => rw [hI.clean i hi hc] at hret; cases hret
        rcases blocked_down hT hC hI hno i hi hcl with hb | ⟨k, hk, hb⟩
        · exact hb.2.1
        · have := hT.down i k hi hk
          exact absurd (ih _ this.2 (by omega)) hb
  -- then every stage has cleaned up, from the first one on
  apply hnot
  intro i
  induction i using Nat.strongRecOn with
  | _ i ih =>
    intro hi
    cases hcl : (N.comp i).cleaned (s.st i) with
    | true => rfl
    | false =>
      rcases blocked_down hT hC hI hno i hi hcl with hb | ⟨k, hk, hb⟩
      · have hcc : s.closed i = true := by
          by_cases h0 : i = 0
          · subst h0; rw [hI.closed0, hroot]
          · obtain ⟨j, k, hj, hk, rfl⟩ := hT.up i (by omega) hi
            rw [hI.closed j k hj hk]
            exact ih j (hT.down j k hj hk).1 hj
        rw [hb.2.2] at hcc; cases hcc
      · have := hT.down i k hi hk
        exact absurd (empty _ _ this.2 (Nat.le_refl _)) hb

/-! Termination -/

/-- A bound on the internal work of a stage. -/
noncomputable def mu (N : Net R) (i : Nat) : (N.comp i).S → Nat :=
  open Classical in if h : Contract (N.comp i) then Classical.choose h.finite else fun _ => 0

theorem mu_spec {N : Net R} {i : Nat} (h : Contract (N.comp i)) : ∀ tr s l s' a, (N.comp i).Run tr s → (N.comp i).step s l = some (s', a) →
    ((N.comp i).env l = true → mu N i s' = mu N i s ∧ a = .tau) ∧ ((N.comp i).env l = false → a.isInput = false → mu N i s' < mu N i s) := by
  unfold mu
  rw [dif_pos h]
  exact Classical.choose_spec h.finite

/-- Remaining work of the pipeline, stage by stage. -/
noncomputable def remaining {N : Net R} (s : St N) (i : Fin N.n) : Nat × Nat :=
  ((s.buf i).length + (!(N.comp i).returned (s.st i)).toNat, mu N i (s.st i))

/-- Earlier stages count more. -/
def Less {N : Net R} : (Fin N.n → Nat × Nat) → (Fin N.n → Nat × Nat) → Prop :=
  Pi.Lex (· < ·) (fun {_} => Prod.Lex (· < ·) (· < ·))

theorem less_wf {N : Net R} : WellFounded (Less (N := N)) :=
  Pi.Lex.wellFounded _ (fun _ => WellFounded.prod_lex Nat.lt_wfRel.wf Nat.lt_wfRel.wf)

theorem remaining_other {N : Net R} {s : St N} {i : Nat} {t : (N.comp i).S} (b : Nat → List R) (c : Nat → Bool) (p : Bool) (j : Fin N.n)
    (h : j.1 ≠ i) (hb : b j = s.buf j) : remaining (⟨Function.update s.st i t, b, c, p⟩ : St N) j = remaining s j := by
  unfold remaining
  dsimp only
  rw [Function.update_of_ne h, hb]

theorem remaining_self {N : Net R} {s : St N} {i : Nat} {t : (N.comp i).S} (b : Nat → List R) (c : Nat → Bool) (p : Bool) (hi : i < N.n) :
    remaining (⟨Function.update s.st i t, b, c, p⟩ : St N) ⟨i, hi⟩ =
      ((b i).length + (!(N.comp i).returned t).toNat, mu N i t) := by
  unfold remaining
  dsimp only
  rw [Function.update_self]

theorem less_at {N : Net R} (x y : Fin N.n → Nat × Nat) (i : Fin N.n) (h : ∀ j : Fin N.n, j.1 < i.1 → x j = y j)
    (hlt : Prod.Lex (· < ·) (· < ·) (x i) (y i)) : Less x y := ⟨i, fun j hj => h j hj, hlt⟩

theorem own_step_less {N : Net R} (hT : Tree N) (hC : ∀ i, i < N.n → Contract (N.comp i)) {tr : List (Obs R)} {s s' : St N} {l : Label N} {o : Obs R}
    (hI : Inv N tr s) (h : Step N s l o s') (hown : l.own = true) : Less (remaining s') (remaining s) := by
  have hI' := inv_step hT hC hI h
  cases h with
  | drive r hp hc hroom => cases hown
  | closeRoot hp hc => cases hown
  | tau i l t hp hi hs =>
    have eff := (hC i hi).effect _ _ _ _ _ (hI.run i hi) hs
    have hm := (mu_spec (hC i hi) _ _ _ _ _ (hI.run i hi) hs).2 (by simpa [Label.own] using hown) rfl
    simp only [Act.isEof, Act.isClose, Bool.or_false] at eff
    refine less_at _ _ ⟨i, hi⟩ (fun j hj => remaining_other _ _ _ j (Nat.ne_of_lt hj) rfl) ?_
    rw [remaining_self, eff.1]
    exact Prod.Lex.right _ hm
  | take i l t r q hp hi hs hb =>
    have eff := (hC i hi).effect _ _ _ _ _ (hI.run i hi) hs
    simp only [Act.isEof, Act.isClose, Bool.or_false] at eff
    refine less_at _ _ ⟨i, hi⟩ (fun j hj => remaining_other _ _ _ j (Nat.ne_of_lt hj) ?_) ?_
    · rw [Function.update_of_ne (Nat.ne_of_lt hj)]
    · rw [remaining_self, eff.1, Function.update_self]
      refine Prod.Lex.left _ _ ?_
      show q.length + (!(N.comp i).returned (s.st i)).toNat < (s.buf i).length + (!(N.comp i).returned (s.st i)).toNat
      rw [hb, List.length_cons]
      omega
  | eof i l t hp hi hs hb hcl =>
    have eff := (hC i hi).effect _ _ _ _ _ (hI.run i hi) hs
    have hret := (hC i hi).input _ _ _ _ _ (hI.run i hi) hs rfl
    simp only [Act.isEof, Act.isClose, Bool.or_false, Bool.or_true] at eff
    refine less_at _ _ ⟨i, hi⟩ (fun j hj => remaining_other _ _ _ j (Nat.ne_of_lt hj) rfl) ?_
    rw [remaining_self, eff.1]
    refine Prod.Lex.left _ _ ?_
    show _ < (s.buf i).length + (!(N.comp i).returned (s.st i)).toNat
    rw [hret]
    simp
  | send i l t k r hp hi hs hcl hroom =>
    have eff := (hC i hi).effect _ _ _ _ _ (hI.run i hi) hs
    have hout := (hC i hi).output _ _ _ _ _ _ (hI.run i hi) hs
    have hm := (mu_spec (hC i hi) _ _ _ _ _ (hI.run i hi) hs).2 (by simpa [Label.own] using hown) rfl
    have hd := hT.down i k hi hout.2
    simp only [Act.isEof, Act.isClose, Bool.or_false] at eff
    refine less_at _ _ ⟨i, hi⟩ (fun j hj => remaining_other _ _ _ j (Nat.ne_of_lt hj) ?_) ?_
    · have : j.1 < i := hj
      rw [Function.update_of_ne (by omega)]
    · rw [remaining_self, eff.1, Function.update_of_ne (by omega)]
      exact Prod.Lex.right _ hm
  | sendPanic i l t k r hp hi hs hcl => have := hI'.ok; cases this
  | close i l t c hp hi hs hcl =>
    have eff := (hC i hi).effect _ _ _ _ _ (hI.run i hi) hs
    have hm := (mu_spec (hC i hi) _ _ _ _ _ (hI.run i hi) hs).2 (by simpa [Label.own] using hown) rfl
    simp only [Act.isEof, Act.isClose, Bool.or_false] at eff
    refine less_at _ _ ⟨i, hi⟩ (fun j hj => remaining_other _ _ _ j (Nat.ne_of_lt hj) rfl) ?_
    rw [remaining_self, eff.1]
    exact Prod.Lex.right _ hm
  | closePanic i l t hp hi hs hcl => have := hI'.ok; cases this

theorem env_step_same {N : Net R} (hT : Tree N) (hC : ∀ i, i < N.n → Contract (N.comp i)) {tr : List (Obs R)} {s s' : St N} {l : Label N} {o : Obs R}
    (hI : Inv N tr s) (hroot : rootClosed tr = true ∨ ∃ i m, l = .stage i m) (h : Step N s l o s') (hown : l.own = false) : remaining s' = remaining s := by
  have hI' := inv_step hT hC hI h
  have tau : ∀ (i : Nat) (l : (N.comp i).L) (t : (N.comp i).S) (a : Act R) (hi : i < N.n), (N.comp i).step (s.st i) l = some (t, a) →
      Label.own (.stage i l : Label N) = false → a = .tau ∧
      remaining ({ s with st := Function.update s.st i t } : St N) = remaining s := by
    intro i l t a hi hs ho
    have eff := (hC i hi).effect _ _ _ _ _ (hI.run i hi) hs
    obtain ⟨hm, rfl⟩ := (mu_spec (hC i hi) _ _ _ _ _ (hI.run i hi) hs).1 (by simpa [Label.own] using ho)
    simp only [Act.isEof, Act.isClose, Bool.or_false] at eff
    refine ⟨rfl, funext fun j => ?_⟩
    by_cases e : j.1 = i
    · obtain ⟨j, hj⟩ := j
      dsimp only at e
      subst e
      rw [remaining_self, eff.1, hm]
      rfl
    · exact remaining_other _ _ _ j e rfl
  cases h with
  | drive r hp hc hroom =>
    rcases hroot with hr | ⟨i, m, e⟩
    · rw [hI.closed0, hr] at hc; cases hc
    · cases e
  | closeRoot hp hc =>
    rcases hroot with hr | ⟨i, m, e⟩
    · rw [hI.closed0, hr] at hc; cases hc
    · cases e
  | tau i l t hp hi hs => exact (tau i l t _ hi hs hown).2
  | take i l t r q hp hi hs hb => cases (tau i l t _ hi hs hown).1
  | eof i l t hp hi hs hb hcl => cases (tau i l t _ hi hs hown).1
  | send i l t k r hp hi hs hcl hroom => cases (tau i l t _ hi hs hown).1
  | sendPanic i l t k r hp hi hs hcl => have := hI'.ok; cases this
  | close i l t c hp hi hs hcl => cases (tau i l t _ hi hs hown).1
  | closePanic i l t hp hi hs hcl => have := hI'.ok; cases this

/-- An infinite schedule from state `run 0`: at each moment either the program makes a step of its own (`own k`), or
something else happens: nothing, a timer, or the policy monitor. -/
structure Schedule (N : Net R) (run : Nat → St N) (own : Nat → Bool) : Prop where
  yes : ∀ k, own k = true → ∃ l o, Step N (run k) l o (run (k + 1)) ∧ l.own = true
  no : ∀ k, own k = false → run (k + 1) = run k ∨ ∃ l o, Step N (run k) l o (run (k + 1)) ∧ l.own = false

theorem schedule_exec {N : Net R} {run : Nat → St N} {own : Nat → Bool} (hS : Schedule N run own)
    {tr : List (Obs R)} (h : Exec N tr (run 0)) (hroot : rootClosed tr = true) (k : Nat) :
    ∃ tr', Exec N tr' (run k) ∧ rootClosed tr' = true := by
  induction k with
  | zero => exact ⟨tr, h, hroot⟩
  | succ k ih =>
    obtain ⟨tr', h', hr⟩ := ih
    cases ho : own k with
    | true =>
      obtain ⟨l, o, hs, _⟩ := hS.yes k ho
      exact ⟨_, .snoc h' hs, by simp [hr]⟩
    | false =>
      rcases hS.no k ho with e | ⟨l, o, hs, _⟩
      · exact ⟨tr', by rw [e]; exact h', hr⟩
      · exact ⟨_, .snoc h' hs, by simp [hr]⟩

/-- **C53** Once the root channel is closed, the program makes only finitely many steps of its own, under every schedule
and whatever timers and the policy monitor do. -/
theorem finitely_many_steps {N : Net R} (hT : Tree N) (hC : ∀ i, i < N.n → Contract (N.comp i)) {run : Nat → St N} {own : Nat → Bool}
    (hS : Schedule N run own) {tr : List (Obs R)} (h : Exec N tr (run 0)) (hroot : rootClosed tr = true) :
    ∃ K, ∀ k, K ≤ k → own k = false := by
  have same : ∀ k, own k = false → remaining (run (k + 1)) = remaining (run k) := by
    intro k ho
    obtain ⟨tr', h', hr⟩ := schedule_exec hS h hroot k
    rcases hS.no k ho with e | ⟨l, o, hs, hl⟩
    · rw [e]
    · exact env_step_same hT hC (inv_exec hT hC h') (.inl hr) hs hl
  have less : ∀ k, own k = true → Less (remaining (run (k + 1))) (remaining (run k)) := by
    intro k ho
    obtain ⟨tr', h', hr⟩ := schedule_exec hS h hroot k
    obtain ⟨l, o, hs, hl⟩ := hS.yes k ho
    exact own_step_less hT hC (inv_exec hT hC h') hs hl
  exact Verif.finitely_often less_wf (fun k => remaining (run k)) own same less

/-- **C53** `Wait` returns: once the root channel is closed, under every schedule that does not ignore the program forever
while it can make a step, all stages eventually return and clean up. -/
theorem wait_returns {N : Net R} (hT : Tree N) (hC : ∀ i, i < N.n → Contract (N.comp i)) {run : Nat → St N} {own : Nat → Bool}
    (hS : Schedule N run own) {tr : List (Obs R)} (h : Exec N tr (run 0)) (hroot : rootClosed tr = true)
    (hfair : ∀ k, (∃ l o s', Step N (run k) l o s' ∧ l.own = true) → ∃ j, k ≤ j ∧ own j = true) :
    ∃ k, Waited (run k) ∧ ∀ i, i < N.n → (N.comp i).cleaned ((run k).st i) = true := by
  obtain ⟨K, hK⟩ := finitely_many_steps hT hC hS h hroot
  obtain ⟨tr', h', hr⟩ := schedule_exec hS h hroot K
  have all : ∀ i, i < N.n → (N.comp i).cleaned ((run K).st i) = true := by
    refine Classical.byContradiction fun hnot => ?_
    obtain ⟨j, hj, ho⟩ := hfair K (no_deadlock hT hC h' hr hnot)
    rw [hK j hj] at ho
    cases ho
  exact ⟨K, fun i hi => (inv_exec hT hC h').clean i hi (all i hi), all⟩


/-! Fair schedules exist -/

/-- The program can make a step of its own. -/
def CanStep (N : Net R) (s : St N) : Prop := ∃ s' l o, Step N s l o s' ∧ l.own = true

open Classical in
/-- Some step of the program's own if there is one, otherwise nothing. -/
noncomputable def next (N : Net R) (s : St N) : St N := if h : CanStep N s then Classical.choose h else s

/-- The schedule that lets the program run. -/
noncomputable def busy (N : Net R) (s : St N) : Nat → St N
  | 0 => s
  | k + 1 => next N (busy N s k)

open Classical in
/-- Fair schedules exist from every state, so `wait_returns` is not vacuous: letting the program run is one. -/
theorem fair_schedule_exists (N : Net R) (s : St N) :
    Schedule N (busy N s) (fun k => decide (CanStep N (busy N s k))) ∧
    ∀ k, (∃ l o s', Step N (busy N s k) l o s' ∧ l.own = true) → ∃ j, k ≤ j ∧ decide (CanStep N (busy N s j)) = true := by
  refine ⟨⟨?_, ?_⟩, ?_⟩
  · intro k hk
    have hk := of_decide_eq_true hk
    show ∃ l o, Step N _ l o (next N _) ∧ _
    unfold next
    rw [dif_pos hk]
    exact Classical.choose_spec hk
  · intro k hk
    have hk := of_decide_eq_false hk
    left
    show next N _ = _
    unfold next
    rw [dif_neg hk]
  · rintro k ⟨l, o, s', h1, h2⟩
    exact ⟨k, Nat.le_refl _, decide_eq_true ⟨s', l, o, h1, h2⟩⟩

/-- **C53** In particular, from every reachable state in which the root channel is closed the pipeline can reach the point where
`Wait` returns. -/
theorem wait_reachable {N : Net R} (hT : Tree N) (hC : ∀ i, i < N.n → Contract (N.comp i)) {tr : List (Obs R)} {s : St N}
    (h : Exec N tr s) (hroot : rootClosed tr = true) : ∃ tr' s', Exec N tr' s' ∧ Waited s' := by
  obtain ⟨hS, hf⟩ := fair_schedule_exists N s
  obtain ⟨k, hw, _⟩ := wait_returns hT hC hS (tr := tr) h hroot hf
  obtain ⟨tr', h', _⟩ := schedule_exec hS (tr := tr) h hroot k
  exact ⟨tr', _, h', hw⟩

/-- After the root channel is closed the driver sends nothing. -/
theorem schedule_driven {N : Net R} (hT : Tree N) (hC : ∀ i, i < N.n → Contract (N.comp i)) {run : Nat → St N} {own : Nat → Bool} (hS : Schedule N run own)
    {tr : List (Obs R)} (h : Exec N tr (run 0)) (hroot : rootClosed tr = true) (k : Nat) :
    ∃ tr', Exec N tr' (run k) ∧ rootClosed tr' = true ∧ driven tr' = driven tr := by
  have keep : ∀ {tr' : List (Obs R)} {s s' : St N} {l : Label N} {o : Obs R}, Exec N tr' s → rootClosed tr' = true → Step N s l o s' → driven (tr' ++ [o]) = driven tr' := by
    intro tr' s s' l o h' hr hs
    have hc : s.closed 0 = true := (inv_exec hT hC h').closed0.trans hr
    have : driven [o] = [] := by
      cases hs with
      | drive r hp hcl hroom => rw [hc] at hcl; cases hcl
      | closeRoot => rfl
      | tau => rfl
      | take => rfl
      | eof => rfl
      | send => rfl
      | sendPanic => rfl
      | close => rfl
      | closePanic => rfl
    unfold driven at this ⊢
    rw [List.filterMap_append, this, List.append_nil]
  induction k with
  | zero => exact ⟨tr, h, hroot, rfl⟩
  | succ k ih =>
    obtain ⟨tr', h', hr, hd⟩ := ih
    cases ho : own k with
    | true =>
      obtain ⟨l, o, hs, _⟩ := hS.yes k ho
      exact ⟨_, .snoc h' hs, by simp [hr], (keep h' hr hs).trans hd⟩
    | false =>
      rcases hS.no k ho with e | ⟨l, o, hs, _⟩
      · exact ⟨tr', by rw [e]; exact h', hr, hd⟩
      · exact ⟨_, .snoc h' hs, by simp [hr], (keep h' hr hs).trans hd⟩

/-- **C53** … without the driver having sent anything more. -/
theorem wait_reachable_driven {N : Net R} (hT : Tree N) (hC : ∀ i, i < N.n → Contract (N.comp i)) {tr : List (Obs R)} {s : St N}
    (h : Exec N tr s) (hroot : rootClosed tr = true) : ∃ tr' s', Exec N tr' s' ∧ Waited s' ∧ driven tr' = driven tr := by
  obtain ⟨hS, hf⟩ := fair_schedule_exists N s
  obtain ⟨k, hw, _⟩ := wait_returns hT hC hS (tr := tr) h hroot hf
  obtain ⟨tr', h', _, hd⟩ := schedule_driven hT hC hS (tr := tr) h hroot k
  exact ⟨tr', _, h', hw, hd⟩

/-- If the records fit in the root channel the driver can send them all and close it before any stage moves. -/
theorem drive_all (N : Net R) (rs : List R) (hcap : rs.length ≤ N.cap) :
    ∃ tr s, Exec N tr s ∧ driven tr = rs ∧ rootClosed tr = true := by
  have key : ∀ xs : List R, xs.length ≤ N.cap → ∃ tr s, Exec N tr s ∧ driven tr = xs ∧ s.panicked = false ∧ s.closed 0 = false ∧ s.buf 0 = xs := by
    intro xs
    induction xs using Verif.snocInduction with
    | nil => intro _; exact ⟨[], St.start N, .nil, rfl, rfl, rfl, rfl⟩
    | snoc xs x ih =>
      intro hl
      rw [List.length_append, List.length_singleton] at hl
      obtain ⟨tr, s, h, hd, hp, hc, hb⟩ := ih (by omega)
      refine ⟨_, _, .snoc h (.drive s x hp hc (by rw [hb]; omega)), ?_, hp, hc, ?_⟩
      · unfold driven at hd ⊢
        rw [List.filterMap_append, hd]
        rfl
      · simp [hb]
  obtain ⟨tr, s, h, hd, hp, hc, hb⟩ := key rs hcap
  refine ⟨_, _, .snoc h (.closeRoot s hp hc), ?_, by simp⟩
  unfold driven at hd ⊢
  rw [List.filterMap_append, hd]
  exact List.append_nil _

/-- **C53** So for every list of records that fits, a complete execution exists. -/
theorem complete_run_exists {N : Net R} (hT : Tree N) (hC : ∀ i, i < N.n → Contract (N.comp i)) (rs : List R) (hcap : rs.length ≤ N.cap) :
    ∃ tr s, Exec N tr s ∧ Waited s ∧ driven tr = rs := by
  obtain ⟨tr, s, h, hd, hr⟩ := drive_all N rs hcap
  obtain ⟨tr', s', h', hw, hd'⟩ := wait_reachable_driven hT hC h hr
  exact ⟨tr', s', h', hw, hd'.trans hd⟩

end
end Verif.Pipeline.Drain
