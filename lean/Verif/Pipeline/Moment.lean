import Verif.Pipeline.Process
/-
Every moment of a run can be continued, without another record, to one where `Wait` returns; what only grows is then the beginning of what is there at the end.
-/
namespace Verif.Pipeline.Drain

variable {R : Type}

/-- What one stage may come to by its own steps. -/
inductive Later (C : Comp R) : C.S → C.S → Prop
  | here (s : C.S) : Later C s s
  | step {s t u : C.S} {l : C.L} {a : Act R} : Later C s t → C.step t l = some (u, a) → Later C s u

theorem Later.trans {C : Comp R} {s t u : C.S} (h : Later C s t) (h' : Later C t u) : Later C s u := by
  induction h' with
  | here => exact h
  | step _ hst ih => exact .step ih hst

/-- Every moment of a run can be continued without another record to one where `Wait` returns; any relation between earlier and later states that every step keeps holds between the two. -/
theorem completes_related {N : Net R} (hT : Tree N) (hC : ∀ i, i < N.n → Contract (N.comp i)) (r : St N → St N → Prop) (hrefl : ∀ s, r s s) (htrans : ∀ {a b c}, r a b → r b c → r a c)
    (hf : ∀ s l o s', Step N s l o s' → r s s') {tr : List (Obs R)} {s : St N} (h : Exec N tr s) :
    ∃ tr' s', Exec N tr' s' ∧ Waited s' ∧ driven tr' = driven tr ∧ r s s' := by
  have grows : ∀ {run : Nat → St N} {own : Nat → Bool}, Schedule N run own → ∀ k, r (run 0) (run k) := by
    intro run own hS k
    induction k with
    | zero => exact hrefl _
    | succ k ih =>
      refine htrans ih ?_
      cases ho : own k with
      | true => obtain ⟨l, o, hs, _⟩ := hS.yes k ho; exact hf _ _ _ _ hs
      | false =>
        rcases hS.no k ho with e | ⟨l, o, hs, _⟩
        · rw [e]; exact hrefl _
        · exact hf _ _ _ _ hs
  have closed : ∀ {tr : List (Obs R)} {s : St N}, Exec N tr s → rootClosed tr = true →
      ∃ tr' s', Exec N tr' s' ∧ Waited s' ∧ driven tr' = driven tr ∧ r s s' := by
    intro tr s h hr
    obtain ⟨hS, hfair⟩ := fair_schedule_exists N s
    obtain ⟨k, hw, _⟩ := wait_returns hT hC hS (tr := tr) h hr hfair
    obtain ⟨tr', h', _, hd⟩ := schedule_driven hT hC hS (tr := tr) h hr k
    exact ⟨tr', _, h', hw, hd, grows hS k⟩
  cases hr : rootClosed tr with
  | true => exact closed h hr
  | false =>
    have hI := inv_exec hT hC h
    have hst : Step N s .closeRoot .rootClosed _ := .closeRoot s hI.ok (by rw [hI.closed0]; exact hr)
    obtain ⟨tr', s', h1, h2, h3, h4⟩ := closed (.snoc h hst) (by rw [rootClosed_append]; simp [rootClosed])
    refine ⟨tr', s', h1, h2, ?_, htrans (hf _ _ _ _ hst) h4⟩
    rw [h3, driven_append]
    simp [driven]

/-- … and any sequence that no step shortens or changes is the beginning of what it is then. -/
theorem completes_growing {α : Type} {N : Net R} (hT : Tree N) (hC : ∀ i, i < N.n → Contract (N.comp i)) (f : St N → List α)
    (hf : ∀ s l o s', Step N s l o s' → f s <+: f s') {tr : List (Obs R)} {s : St N} (h : Exec N tr s) :
    ∃ tr' s', Exec N tr' s' ∧ Waited s' ∧ driven tr' = driven tr ∧ f s <+: f s' :=
  completes_related hT hC (fun s s' => f s <+: f s') (fun _ => List.prefix_rfl) (fun h h' => h.trans h') hf h

/-- A step of the network is a step of at most one stage. -/
theorem step_later {N : Net R} {s : St N} {l : Label N} {o : Obs R} {s' : St N} (h : Step N s l o s') (i : Nat) : Later (N.comp i) (s.st i) (s'.st i) := by
  have key : ∀ (j : Nat) (m : (N.comp j).L) (t : (N.comp j).S) (a : Act R), (N.comp j).step (s.st j) m = some (t, a) → Later (N.comp i) (s.st i) (Function.update s.st j t i) := by
    intro j m t a hst
    by_cases e : i = j
    · subst e
      rw [Function.update_self]
      exact .step (.here _) hst
    · rw [Function.update_of_ne e]
      exact .here _
  cases h with
  | drive => exact .here _
  | closeRoot => exact .here _
  | tau j m t hp hi hst => exact key j m t _ hst
  | take j m t r q hp hi hst => exact key j m t _ hst
  | eof j m t hp hi hst => exact key j m t _ hst
  | send j m t k r hp hi hst => exact key j m t _ hst
  | sendPanic => exact .here _
  | close j m t c hp hi hst => exact key j m t _ hst
  | closePanic => exact .here _

/-- All stages at once. -/
theorem completes_all {N : Net R} (hT : Tree N) (hC : ∀ i, i < N.n → Contract (N.comp i)) {tr : List (Obs R)} {s : St N} (h : Exec N tr s) :
    ∃ tr' s', Exec N tr' s' ∧ Waited s' ∧ driven tr' = driven tr ∧ ∀ i, Later (N.comp i) (s.st i) (s'.st i) :=
  completes_related hT hC (fun s s' => ∀ i, Later (N.comp i) (s.st i) (s'.st i)) (fun _ _ => .here _) (fun h h' i => (h i).trans (h' i)) (fun _ _ _ _ h i => step_later h i) h

/-- A sequence read off the state of one stage grows if no step of that stage changes or shortens it. -/
theorem growing_at {α : Type} {N : Net R} (i : Nat) (g : (N.comp i).S → List α)
    (hg : ∀ s m t a, (N.comp i).step s m = some (t, a) → g s <+: g t) :
    ∀ (s : St N) (l : Label N) (o : Obs R) (s' : St N), Step N s l o s' → g (s.st i) <+: g (s'.st i) := by
  intro s l o s' h
  have key : ∀ (j : Nat) (m : (N.comp j).L) (t : (N.comp j).S) (a : Act R), (N.comp j).step (s.st j) m = some (t, a) →
      g (s.st i) <+: g (Function.update s.st j t i) := by
    intro j m t a hst
    by_cases e : i = j
    · subst e
      rw [Function.update_self]
      exact hg _ _ _ _ hst
    · rw [Function.update_of_ne e]
  cases h with
  | drive => exact List.prefix_rfl
  | closeRoot => exact List.prefix_rfl
  | tau i m t hp hi hst => exact key i m t _ hst
  | take i m t r q hp hi hst => exact key i m t _ hst
  | eof i m t hp hi hst => exact key i m t _ hst
  | send i m t k r hp hi hst => exact key i m t _ hst
  | sendPanic => exact List.prefix_rfl
  | close i m t c hp hi hst => exact key i m t _ hst
  | closePanic => exact List.prefix_rfl

/-- What a transport has put out grows with every step of the exporter, if it grows with every export. -/
theorem exporter_growing {α X D : Type} (C : Exporter.Codec R D) (T : Exporter.Transport X D) (eb : Int) (x0 : X) (start : Int) (g : X → List α)
    (hg : ∀ x ds, g x <+: g (T.send x ds).1) (s : (exporter C T eb x0 start).S) (m : (exporter C T eb x0 start).L) (t : (exporter C T eb x0 start).S) (a : Act R)
    (h : (exporter C T eb x0 start).step s m = some (t, a)) :
    g (show Exporter.State X R D × Bool from s).1.tr <+: g (show Exporter.State X R D × Bool from t).1.tr := by
  have hp : ∀ s : Exporter.State X R D, g s.tr <+: g (Exporter.process C T s).tr := by
    intro s
    unfold Exporter.process
    split
    · exact List.prefix_rfl
    · split
      · exact hg _ _
      · exact List.prefix_rfl
  have hstep : ∀ (s : Exporter.State X R D) (e : Exporter.Ev R), g s.tr <+: g (Exporter.step C T eb s e).tr := by
    intro s e
    unfold Exporter.step
    split
    · cases e with
      | recv r after =>
        dsimp only
        split
        · exact hp { s with counter := s.counter + 1, recs := s.recs ++ [r] }
        · exact List.prefix_rfl
      | close =>
        dsimp only
        split
        · exact hp s
        · exact List.prefix_rfl
      | tick now after =>
        dsimp only
        split
        · exact hp s
        · exact List.prefix_rfl
    · exact List.prefix_rfl
  change expStep C T eb s m = some (t, a) at h
  cases m <;> unfold expStep at h <;> dsimp only at h <;> split at h <;> cases h <;>
    first | exact hstep _ _ | exact List.prefix_rfl

/-- What has come out of an exporter only grows. -/
theorem exporter_later {α X D : Type} {C : Comp R} {K : Exporter.Codec R D} {T : Exporter.Transport X D} {eb : Int} {x0 : X} {start : Int} (hC : C = exporter K T eb x0 start) (g : X → List α)
    (hg : ∀ x ds, g x <+: g (T.send x ds).1) {s t : C.S} (h : Later C s t) :
    ∃ a b : Exporter.State X R D × Bool, HEq s a ∧ HEq t b ∧ g a.1.tr <+: g b.1.tr := by
  subst hC
  have grow := fun (s : (exporter K T eb x0 start).S) m t a hst => exporter_growing K T eb x0 start g hg s m t a hst
  refine ⟨s, t, HEq.rfl, HEq.rfl, ?_⟩
  induction h with
  | here => exact List.prefix_rfl
  | step _ hst ih => exact ih.trans (grow _ _ _ _ hst)

end Verif.Pipeline.Drain
