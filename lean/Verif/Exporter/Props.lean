import Verif.Exporter.Spec
import Verif.Base.Snoc
/-
C42 (batching), C43 (failure isolation), C44 (file framing).
-/
namespace Verif.Exporter

variable {S R D : Type}

theorem run_snoc (C : Codec R D) (T : Transport S D) (eb : Int) (s : State S R D) (es : List (Ev R)) (e : Ev R) :
    run C T eb s (es ++ [e]) = step C T eb (run C T eb s es) e := by
  induction es generalizing s with
  | nil => rfl
  | cons x xs ih => exact ih _

theorem run_append (C : Codec R D) (T : Transport S D) (eb : Int) (s : State S R D) (es es' : List (Ev R)) :
    run C T eb s (es ++ es') = run C T eb (run C T eb s es) es' := by
  induction es generalizing s with
  | nil => rfl
  | cons x xs ih => exact ih _

theorem received_append (es es' : List (Ev R)) :
    received (es ++ es') = received es ++ (if closed es then [] else received es') := by
  induction es with
  | nil => rfl
  | cons x xs ih =>
    cases x with
    | recv r a => show r :: received (xs ++ es') = _; rw [ih]; rfl
    | close => rfl
    | tick n a => show received (xs ++ es') = _; rw [ih]; rfl

theorem closed_append (es es' : List (Ev R)) : closed (es ++ es') = (closed es || closed es') := by
  induction es with
  | nil => rfl
  | cons x xs ih => cases x <;> simp [closed, ih]

/-- What the transport has been handed by the batches. -/
def callsOf (C : Codec R D) (bs : List (List R)) : List (List D) := bs.filterMap (payload C)

theorem process_spec (C : Codec R D) (T : Transport S D) (s : State S R D) :
    (process C T s).batches = s.batches ++ [s.recs] ∧ (process C T s).recs = s.recs ∧ (process C T s).counter = s.counter
    ∧ (process C T s).running = s.running ∧ (process C T s).lastFlush = s.lastFlush
    ∧ (process C T s).calls.map (·.1) = s.calls.map (·.1) ++ (payload C s.recs).toList := by
  unfold process payload
  cases C.encode s.recs with
  | none => exact ⟨rfl, rfl, rfl, rfl, rfl, by simp⟩
  | some d => cases d with
    | nil => exact ⟨rfl, rfl, rfl, rfl, rfl, by simp⟩
    | cons d ds => exact ⟨rfl, rfl, rfl, rfl, rfl, by simp⟩

/-- Invariant of the loop. -/
structure Inv (C : Codec R D) (eb : Int) (es : List (Ev R)) (s : State S R D) : Prop where
  run : s.running = !closed es
  cnt : s.counter = s.recs.length
  all : received es = s.batches.flatten ++ (if s.running then s.recs else [])
  small : s.running = true → s.recs = [] ∨ (s.recs.length : Int) < eb
  sizes : ∀ b ∈ s.batches, b ≠ [] ∧ ((b.length : Int) ≤ eb ∨ b.length = 1)
  calls : s.calls.map (·.1) = callsOf C s.batches

theorem inv_step (C : Codec R D) (T : Transport S D) (eb : Int) (es : List (Ev R)) (s : State S R D) (h : Inv C eb es s) (e : Ev R) :
    Inv C eb (es ++ [e]) (step C T eb s e) := by
  obtain ⟨h1, h2, h3, h4, h5, h6⟩ := h
  cases hr : s.running with
  | false =>
    have hc : closed es = true := by rw [hr] at h1; simpa using h1.symm
    unfold step
    rw [if_neg (by rw [hr]; decide)]
    refine ⟨?_, h2, ?_, h4, h5, h6⟩
    · rw [closed_append, hc, hr]; rfl
    · rw [received_append, hc, h3, hr]; simp
  | true =>
    have hc : closed es = false := by rw [hr] at h1; simpa using h1.symm
    rw [hr] at h3
    simp only [if_true] at h3
    have hsm := h4 hr
    have pc : ∀ (s : State S R D), callsOf C s.batches ++ (payload C s.recs).toList = callsOf C (s.batches ++ [s.recs]) := by
      intro s
      unfold callsOf
      rw [List.filterMap_append, List.filterMap_cons]
      cases payload C s.recs <;> rfl
    unfold step
    rw [if_pos hr]
    cases e with
    | recv r after =>
      have hrec : received (es ++ [Ev.recv r after]) = s.batches.flatten ++ (s.recs ++ [r]) := by
        rw [received_append, hc, h3]; simp [received]
      have hcl : closed (es ++ [Ev.recv r after]) = false := by rw [closed_append, hc]; rfl
      have hcount : s.counter + 1 = ((s.recs ++ [r]).length : Int) := by rw [h2]; simp
      simp only
      split
      · rename_i hge
        obtain ⟨p1, p2, p3, p4, p5, p6⟩ := process_spec C T { s with counter := s.counter + 1, recs := s.recs ++ [r] }
        refine ⟨?_, rfl, ?_, fun _ => Or.inl rfl, ?_, ?_⟩
        · show (process C T _).running = _; rw [p4, hcl]; exact hr
        · show _ = (process C T _).batches.flatten ++ _
          rw [p1, hrec]
          show _ = _ ++ (if (process C T _).running then [] else [])
          rw [p4]; simp
        · show ∀ b ∈ (process C T _).batches, _
          rw [p1]
          intro b hb
          rcases List.mem_append.1 hb with hb | hb
          · exact h5 b hb
          · rw [List.mem_singleton] at hb
            subst hb
            refine ⟨by simp, ?_⟩
            rcases hsm with hs | hs
            · exact Or.inr (by simp [hs])
            · left; simp only [List.length_append, List.length_cons, List.length_nil]; omega
        · show (process C T _).calls.map _ = callsOf C (process C T _).batches
          rw [p6, p1, ← pc]
          show s.calls.map _ ++ _ = _
          rw [h6]
      · rename_i hlt
        refine ⟨?_, hcount, ?_, fun _ => Or.inr ?_, h5, h6⟩
        · show s.running = _; rw [hcl, hr]; rfl
        · show _ = s.batches.flatten ++ (if s.running then s.recs ++ [r] else []); rw [hrec, hr]; rfl
        · show ((s.recs ++ [r]).length : Int) < eb; rw [← hcount]; omega
    | close =>
      have hrec : received (es ++ [(Ev.close : Ev R)]) = s.batches.flatten ++ s.recs := by
        rw [received_append, hc, h3]; simp [received]
      have hcl : closed (es ++ [(Ev.close : Ev R)]) = true := by rw [closed_append]; simp [closed]
      simp only
      split
      · rename_i hpos
        obtain ⟨p1, p2, p3, p4, p5, p6⟩ := process_spec C T s
        refine ⟨by rw [hcl]; rfl, ?_, ?_, fun hh => (by cases hh), ?_, ?_⟩
        · show (process C T s).counter = ((process C T s).recs.length : Int); rw [p3, p2, h2]
        · show _ = (process C T s).batches.flatten ++ []; rw [p1, hrec]; simp
        · show ∀ b ∈ (process C T s).batches, _
          rw [p1]
          intro b hb
          rcases List.mem_append.1 hb with hb | hb
          · exact h5 b hb
          · rw [List.mem_singleton] at hb
            subst hb
            have hne : s.recs ≠ [] := by intro hn; rw [h2, hn] at hpos; simp at hpos
            refine ⟨hne, Or.inl ?_⟩
            rcases hsm with hs | hs
            · exact absurd hs hne
            · omega
        · show (process C T s).calls.map _ = callsOf C (process C T s).batches
          rw [p6, p1, ← pc, h6]
      · rename_i hpos
        have hnil : s.recs = [] := by
          cases hh : s.recs with
          | nil => rfl
          | cons a l => rw [h2, hh] at hpos; simp only [List.length_cons] at hpos; omega
        refine ⟨by rw [hcl]; rfl, h2, ?_, fun hh => (by cases hh), h5, h6⟩
        show _ = s.batches.flatten ++ []; rw [hrec, hnil]
    | tick now after =>
      have hrec : received (es ++ [(Ev.tick now after : Ev R)]) = s.batches.flatten ++ s.recs := by
        rw [received_append, hc, h3]; simp [received]
      have hcl : closed (es ++ [(Ev.tick now after : Ev R)]) = false := by rw [closed_append, hc]; rfl
      simp only
      split
      · rename_i hpos
        obtain ⟨p1, p2, p3, p4, p5, p6⟩ := process_spec C T s
        refine ⟨?_, rfl, ?_, fun _ => Or.inl rfl, ?_, ?_⟩
        · show (process C T _).running = _; rw [p4, hcl]; exact hr
        · show _ = (process C T s).batches.flatten ++ (if (process C T s).running then [] else []); rw [p1, hrec]; simp
        · show ∀ b ∈ (process C T s).batches, _
          rw [p1]
          intro b hb
          rcases List.mem_append.1 hb with hb | hb
          · exact h5 b hb
          · rw [List.mem_singleton] at hb
            subst hb
            have hne : s.recs ≠ [] := by intro hn; rw [h2, hn] at hpos; simp at hpos
            refine ⟨hne, Or.inl ?_⟩
            rcases hsm with hs | hs
            · exact absurd hs hne
            · omega
        · show (process C T s).calls.map _ = callsOf C (process C T s).batches
          rw [p6, p1, ← pc, h6]
      · refine ⟨?_, h2, ?_, h4, h5, h6⟩
        · rw [hcl]; exact hr
        · rw [hrec, hr]; rfl

theorem run_inv (C : Codec R D) (T : Transport S D) (eb : Int) (tr : S) (start : Int) (es : List (Ev R)) :
    Inv C eb es (run C T eb (init tr start) es) := by
  induction es using snocInduction with
  | nil => exact ⟨rfl, rfl, rfl, fun _ => Or.inl rfl, fun b hb => (by cases hb), rfl⟩
  | snoc es e ih => rw [run_snoc]; exact inv_step C T eb es _ ih e

/-- C42. Whatever the order of arrivals, ticks and the close, the batches passed to the encoder are, in order, the records
received, except for a remainder that is smaller than the buffer size; once the input is closed nothing remains. -/
theorem batches_are_the_input (C : Codec R D) (T : Transport S D) (eb : Int) (tr : S) (start : Int) (es : List (Ev R)) :
    ∃ rest, received es = (run C T eb (init tr start) es).batches.flatten ++ rest
      ∧ (closed es = true → rest = []) ∧ (rest = [] ∨ (rest.length : Int) < eb) := by
  obtain ⟨h1, h2, h3, h4, h5, h6⟩ := run_inv C T eb tr start es
  refine ⟨_, h3, ?_, ?_⟩
  · intro hc; rw [h1, hc]; rfl
  · cases hr : (run C T eb (init tr start) es).running with
    | false => exact Or.inl rfl
    | true => rw [if_pos rfl]; exact h4 hr

/-- C42. No batch is empty, and none is larger than the buffer size (at least one). -/
theorem batch_sizes (C : Codec R D) (T : Transport S D) (eb : Int) (tr : S) (start : Int) (es : List (Ev R)) (b : List R)
    (hb : b ∈ (run C T eb (init tr start) es).batches) : b ≠ [] ∧ (b.length : Int) ≤ max eb 1 := by
  obtain ⟨h1, h2⟩ := (run_inv C T eb tr start es).sizes b hb
  refine ⟨h1, ?_⟩
  rcases h2 with h2 | h2 <;> omega

/-! ### Timeliness -/

theorem lastFlush_le (C : Codec R D) (T : Transport S D) (eb : Int) (s : State S R D) (t : Int) (h : s.lastFlush ≤ t)
    (es : List (Ev R)) (hes : ∀ e ∈ es, ∀ x ∈ readings e, x ≤ t) : (run C T eb s es).lastFlush ≤ t := by
  induction es generalizing s with
  | nil => exact h
  | cons e es ih =>
    refine ih (step C T eb s e) ?_ (fun e he => hes e (.tail _ he))
    have he := hes e (.head _)
    unfold step
    split
    · cases e with
      | recv r a =>
        simp only
        split
        · exact he a (by simp [readings])
        · exact h
      | close =>
        simp only
        split
        · show (process C T s).lastFlush ≤ t; rw [(process_spec C T s).2.2.2.2.1]; exact h
        · exact h
      | tick n a =>
        simp only
        split
        · exact he a (by simp [readings])
        · exact h
    · exact h

theorem batches_mono (C : Codec R D) (T : Transport S D) (eb : Int) (s : State S R D) (e : Ev R) :
    s.batches <+: (step C T eb s e).batches := by
  have hp : ∀ s' : State S R D, s'.batches = s.batches → s.batches <+: (process C T s').batches := by
    intro s' h; rw [(process_spec C T s').1, h]; exact List.prefix_append _ _
  unfold step
  split
  · cases e with
    | recv r a =>
      simp only
      split
      · exact hp { s with counter := s.counter + 1, recs := s.recs ++ [r] } rfl
      · exact List.prefix_refl _
    | close =>
      simp only
      split
      · exact hp s rfl
      · exact List.prefix_refl _
    | tick n a =>
      simp only
      split
      · exact hp s rfl
      · exact List.prefix_refl _
  · exact List.prefix_refl _

theorem step_cases (C : Codec R D) (T : Transport S D) (eb : Int) (s : State S R D) (e : Ev R) :
    (step C T eb s e).recs = [] ∨ (step C T eb s e).running = false
    ∨ ((step C T eb s e).lastFlush = s.lastFlush ∧ (step C T eb s e).running = s.running) := by
  unfold step
  split
  · cases e with
    | recv r a =>
      simp only
      split
      · exact Or.inl rfl
      · exact Or.inr (Or.inr ⟨rfl, rfl⟩)
    | close =>
      simp only
      split
      · exact Or.inr (Or.inl rfl)
      · exact Or.inr (Or.inl rfl)
    | tick n a =>
      simp only
      split
      · exact Or.inl rfl
      · exact Or.inr (Or.inr ⟨rfl, rfl⟩)
  · exact Or.inr (Or.inr ⟨rfl, rfl⟩)

/-- C42, timeliness. Records received by time `t` have been passed to the encoder after any tick that comes more than one
second later, whatever happened in between. -/
theorem flush_deadline (C : Codec R D) (T : Transport S D) (eb : Int) (tr : S) (start t now after : Int) (pre mid : List (Ev R))
    (hstart : start ≤ t) (hpre : ∀ e ∈ pre, ∀ x ∈ readings e, x ≤ t) (hnow : now - t > 1000000000) :
    received pre <+: (run C T eb (init tr start) (pre ++ mid ++ [.tick now after])).batches.flatten := by
  have full : ∀ es s, run C T eb (init tr start) es = s → received pre <+: received es →
      (s.recs = [] ∨ s.running = false) → received pre <+: s.batches.flatten := by
    intro es s hs hp hh
    have inv := run_inv C T eb tr start es
    rw [hs] at inv
    have := inv.all
    have e : (if s.running then s.recs else []) = [] := by
      rcases hh with hh | hh
      · rw [hh]; simp
      · rw [hh]; rfl
    rw [e, List.append_nil] at this
    rw [← this]; exact hp
  have pfx : ∀ es : List (Ev R), received pre <+: received (pre ++ es) := by
    intro es; rw [received_append]; exact List.prefix_append _ _
  have flat : ∀ (a b : List (List R)), a <+: b → a.flatten <+: b.flatten := by
    rintro a b ⟨c, rfl⟩; rw [List.flatten_append]; exact List.prefix_append _ _
  have key : received pre <+: (run C T eb (init tr start) (pre ++ mid)).batches.flatten
      ∨ (run C T eb (init tr start) (pre ++ mid)).lastFlush ≤ t := by
    induction mid using snocInduction with
    | nil =>
      right
      rw [List.append_nil]
      exact lastFlush_le C T eb (init tr start) t hstart pre hpre
    | snoc mid e ih =>
      rw [← List.append_assoc, run_snoc]
      rcases ih with ih | ih
      · exact Or.inl (ih.trans (flat _ _ (batches_mono C T eb _ e)))
      · rcases step_cases C T eb (run C T eb (init tr start) (pre ++ mid)) e with h | h | h
        · exact Or.inl (full (pre ++ mid ++ [e]) _ (run_snoc ..) (by rw [List.append_assoc]; exact pfx _) (Or.inl h))
        · exact Or.inl (full (pre ++ mid ++ [e]) _ (run_snoc ..) (by rw [List.append_assoc]; exact pfx _) (Or.inr h))
        · exact Or.inr (by rw [h.1]; exact ih)
  rw [run_snoc]
  rcases key with h | h
  · exact h.trans (flat _ _ (batches_mono C T eb _ _))
  · have inv := run_inv C T eb tr start (pre ++ mid)
    have hcnt := inv.cnt
    have goal : (step C T eb (run C T eb (init tr start) (pre ++ mid)) (.tick now after)).recs = []
        ∨ (step C T eb (run C T eb (init tr start) (pre ++ mid)) (.tick now after)).running = false := by
      generalize run C T eb (init tr start) (pre ++ mid) = s at *
      unfold step
      split
      · simp only
        split
        · exact Or.inl rfl
        · rename_i hno
          left
          cases hrec : s.recs with
          | nil => rfl
          | cons a l =>
            exfalso; apply hno
            refine ⟨by unfold maxIdle; omega, ?_⟩
            rw [hcnt, hrec]; simp only [List.length_cons]; omega
      · rename_i hr
        right; simpa using hr
    exact full (pre ++ mid ++ [.tick now after]) _ (run_snoc ..) (by rw [List.append_assoc]; exact pfx _) goal

/-- C42: the timer does nothing within one second of the last flush (or start), and nothing when no record waits. -/
theorem no_early_flush (C : Codec R D) (T : Transport S D) (eb : Int) (tr : S) (start now after : Int) (es : List (Ev R))
    (h : now - (run C T eb (init tr start) es).lastFlush ≤ 1000000000 ∨ received es = []) :
    run C T eb (init tr start) (es ++ [.tick now after]) = run C T eb (init tr start) es := by
  rw [run_snoc]
  have inv := run_inv C T eb tr start es
  have hcnt := inv.cnt
  have hall := inv.all
  generalize run C T eb (init tr start) es = s at *
  unfold step
  split
  · rename_i hr
    simp only
    rw [if_neg]
    rintro ⟨h1, h2⟩
    rcases h with h | h
    · unfold maxIdle at h1; omega
    · rw [h, hr, if_pos rfl] at hall
      have : s.recs = [] := (List.append_eq_nil_iff.1 hall.symm).2
      rw [hcnt, this] at h2
      simp at h2
  · rfl

/-! ### C43 -/

/-- C43. The transport is called once per batch, in order, with the data that batch encodes to, except for batches that fail
to encode or encode to nothing; neither an encoding failure nor a transport failure changes any other call. -/
theorem transport_calls (C : Codec R D) (T : Transport S D) (eb : Int) (tr : S) (start : Int) (es : List (Ev R)) :
    (run C T eb (init tr start) es).calls.map (·.1) = (run C T eb (init tr start) es).batches.filterMap (payload C) :=
  (run_inv C T eb tr start es).calls

/-- The part of the state that decides how records are batched. -/
def core (s : State S R D) : List R × Int × Int × Bool × List (List R) := (s.recs, s.counter, s.lastFlush, s.running, s.batches)

/-- C43. How records are batched does not depend on the encoder, the transport or their failures. -/
theorem batches_independent {S' D' : Type} (C : Codec R D) (T : Transport S D) (C' : Codec R D') (T' : Transport S' D')
    (eb : Int) (tr : S) (tr' : S') (start : Int) (es : List (Ev R)) :
    (run C T eb (init tr start) es).batches = (run C' T' eb (init tr' start) es).batches := by
  have hp : ∀ (s : State S R D) (s' : State S' R D'), core s = core s' → core (process C T s) = core (process C' T' s') := by
    intro s s' h
    obtain ⟨p1, p2, p3, p4, p5, _⟩ := process_spec C T s
    obtain ⟨q1, q2, q3, q4, q5, _⟩ := process_spec C' T' s'
    simp only [core, Prod.mk.injEq] at h ⊢
    obtain ⟨h1, h2, h3, h4, h5⟩ := h
    rw [p1, p2, p3, p4, p5, q1, q2, q3, q4, q5, h1, h2, h3, h4, h5]
    exact ⟨rfl, rfl, rfl, rfl, rfl⟩
  have key : ∀ (es : List (Ev R)) (s : State S R D) (s' : State S' R D'), core s = core s' →
      core (run C T eb s es) = core (run C' T' eb s' es) := by
    intro es
    induction es with
    | nil => intro s s' h; exact h
    | cons e es ih =>
      intro s s' h
      apply ih
      have h0 := h
      simp only [core, Prod.mk.injEq] at h
      obtain ⟨h1, h2, h3, h4, h5⟩ := h
      unfold step
      have hif : ∀ (a b : State S R D) (a' b' : State S' R D'), core a = core a' → core b = core b' →
          core (if s.running then a else b) = core (if s'.running then a' else b') := by
        intro a b a' b' ha hb; rw [h4]; split <;> assumption
      apply hif
      · cases e with
        | recv r a =>
          simp only
          rw [h2]
          have : core { s with counter := s'.counter + 1, recs := s.recs ++ [r] }
              = core { s' with counter := s'.counter + 1, recs := s'.recs ++ [r] } := by
            simp only [core]; rw [h1, h3, h4, h5]
          split
          · have := hp _ _ this
            simp only [core, clear, Prod.mk.injEq] at this ⊢
            exact ⟨trivial, trivial, trivial, this.2.2.2.1, this.2.2.2.2⟩
          · exact this
        | close =>
          simp only
          rw [h2]
          split
          · have := hp _ _ h0
            simp only [core, Prod.mk.injEq] at this ⊢
            exact ⟨this.1, this.2.1, this.2.2.1, trivial, this.2.2.2.2⟩
          · simp only [core]; rw [h1, h3, h5]
        | tick n a =>
          simp only
          rw [h2, h3]
          split
          · have := hp _ _ h0
            simp only [core, clear, Prod.mk.injEq] at this ⊢
            exact ⟨trivial, trivial, trivial, this.2.2.2.1, this.2.2.2.2⟩
          · exact h0
      · exact h0
  have := key es (init tr start) (init tr' start) rfl
  simp only [core, Prod.mk.injEq] at this
  exact this.2.2.2.2

/-- C43. If two encoders agree on every batch but those in `bad`, the calls made for the other batches are the same, and in the
same order — here the second encoder fails on the bad batches, so its calls are those of the first without theirs. -/
theorem failure_isolation {S' : Type} (C C' : Codec R D) (T : Transport S D) (T' : Transport S' D) (eb : Int) (tr : S) (tr' : S')
    (start : Int) (es : List (Ev R)) (bad : List R → Bool) (hgood : ∀ b, bad b = false → C'.encode b = C.encode b)
    (hbad : ∀ b, bad b = true → C'.encode b = none) :
    (run C' T' eb (init tr' start) es).calls.map (·.1)
      = ((run C T eb (init tr start) es).batches.filter (fun b => !bad b)).filterMap (payload C) := by
  rw [transport_calls, batches_independent C' T' C T eb tr' tr start es]
  generalize (run C T eb (init tr start) es).batches = bs
  induction bs with
  | nil => rfl
  | cons b bs ih =>
    cases hb : bad b with
    | true =>
      have : payload C' b = none := by unfold payload; rw [hbad b hb]
      rw [List.filterMap_cons, this, List.filter_cons, hb]
      exact ih
    | false =>
      have : payload C' b = payload C b := by unfold payload; rw [hgood b hb]
      rw [List.filterMap_cons, this, List.filter_cons, hb]
      simp only [Bool.not_false, if_true, List.filterMap_cons]
      cases payload C b with
      | none => exact ih
      | some d => simp only [ih]

theorem flatten_payload_perRecord (f : R → Option D) (bs : List (List R)) :
    (bs.filterMap (payload (perRecord f))).flatten = bs.flatten.filterMap f := by
  induction bs with
  | nil => rfl
  | cons b bs ih =>
    rw [List.flatten_cons, List.filterMap_append, ← ih, List.filterMap_cons]
    have hp : payload (perRecord f) b = (match b.filterMap f with | [] => none | d :: ds => some (d :: ds)) := by
      show (match some (b.filterMap f) with | some (d :: ds) => some (d :: ds) | _ => none) = _
      cases b.filterMap f <;> rfl
    rw [hp]
    cases b.filterMap f <;> rfl

/-- C43, per-record encoders (OpenTelemetry; and ECS, whose encoding never fails): a record that cannot be encoded affects only
itself — the transport is handed exactly the encodings of the records that can, in order, however they were batched. -/
theorem per_record_isolation (f : R → Option D) (T : Transport S D) (eb : Int) (tr : S) (start : Int) (es : List (Ev R))
    (hc : closed es = true) :
    ((run (perRecord f) T eb (init tr start) es).calls.map (·.1)).flatten = (received es).filterMap f := by
  obtain ⟨rest, h1, h2, _⟩ := batches_are_the_input (perRecord f) T eb tr start es
  rw [transport_calls, flatten_payload_perRecord, h1, h2 hc, List.append_nil]

theorem total_eq (f : R → D) : total f = perRecord (fun r => some (f r)) := by
  unfold total perRecord
  congr 1
  funext rs
  congr 1
  induction rs with
  | nil => rfl
  | cons r rs ih => simp

theorem allOrNone_total (f : R → D) : allOrNone (fun r => some (f r)) = total f := by
  unfold allOrNone total
  congr 1
  funext rs
  induction rs with
  | nil => rfl
  | cons r rs ih => rw [List.mapM_cons, ih]; rfl

/-- C43, JSON: a record that cannot be encoded makes its batch, and only its batch, be dropped. -/
theorem json_batch_failure (f : R → Option D) (b : List R) :
    payload (allOrNone f) b = none ↔ b = [] ∨ ∃ r ∈ b, f r = none := by
  have hp : ∀ b, payload (allOrNone f) b = (match b.mapM f with | some (d :: ds) => some (d :: ds) | _ => none) := fun _ => rfl
  simp only [hp]
  induction b with
  | nil => simp
  | cons r rs ih =>
    rw [List.mapM_cons]
    cases hf : f r with
    | none => simp [hf]
    | some d =>
      simp only [Option.bind_eq_bind, Option.bind_some, List.cons_ne_nil, List.mem_cons, exists_eq_or_imp, hf, false_or]
      cases hm : rs.mapM f with
      | none =>
        rw [hm] at ih
        simp only [Option.bind_none, true_iff, reduceCtorEq]
        rcases ih.1 rfl with h | h
        · subst h; simp at hm
        · exact Or.inr h
      | some ds =>
        rw [hm] at ih
        simp only [Option.bind_some, Option.pure_def, reduceCtorEq, false_iff, not_exists, false_or]
        rintro x ⟨hx, hx'⟩
        cases ds with
        | nil =>
          have : rs = [] := by
            cases rs with
            | nil => rfl
            | cons y ys =>
              rw [List.mapM_cons] at hm
              cases hy : f y with
              | none => rw [hy] at hm; simp at hm
              | some _ =>
                rw [hy] at hm
                simp only [Option.bind_eq_bind, Option.bind_some] at hm
                cases hz : List.mapM f ys <;> rw [hz] at hm <;> simp at hm
          subst this; cases hx
        | cons d ds =>
          exact absurd (ih.2 (Or.inr ⟨x, hx, hx'⟩)) (by simp)

/-! ### C44: transports -/

/-- The state of the transport is the result of the calls. -/
theorem run_tr (C : Codec R D) (T : Transport S D) (eb : Int) (tr : S) (start : Int) (es : List (Ev R)) :
    (run C T eb (init tr start) es).tr = ((run C T eb (init tr start) es).calls.map (·.1)).foldl (fun s d => (T.send s d).1) tr := by
  have hp : ∀ s : State S R D, (s.tr = (s.calls.map (·.1)).foldl (fun s d => (T.send s d).1) tr) →
      (process C T s).tr = ((process C T s).calls.map (·.1)).foldl (fun s d => (T.send s d).1) tr := by
    intro s h
    unfold process
    cases C.encode s.recs with
    | none => exact h
    | some d =>
      simp only
      split
      · simp only [List.map_append, List.foldl_append, ← h]; rfl
      · exact h
  induction es using snocInduction with
  | nil => rfl
  | snoc es e ih =>
    rw [run_snoc]
    generalize run C T eb (init tr start) es = s at *
    unfold step
    split
    · cases e with
      | recv r a =>
        simp only
        split
        · exact hp { s with counter := s.counter + 1, recs := s.recs ++ [r] } ih
        · exact ih
      | close =>
        simp only
        split
        · exact hp s ih
        · exact ih
      | tick n a =>
        simp only
        split
        · exact hp s ih
        · exact ih
    · exact ih

theorem fileExport_ok (os : Nat → Option Nat) (hos : ∀ i, os i = none) (f : OutFile) (ds : List Datum) :
    (fileExport os f ds).1.contents = f.contents ++ logOf ds ∧ (fileExport os f ds).2 = true := by
  have hw : ∀ (f : OutFile) b, f.write os b = (⟨f.contents ++ b, f.writes + 1⟩, true) := by
    intro f b; unfold OutFile.write; rw [hos]
  induction ds generalizing f with
  | nil => simp [fileExport, logOf]
  | cons d ds ih =>
    cases d with
    | odd p =>
      unfold fileExport
      simp only [hw, if_true]
      refine ⟨?_, (ih _).2⟩
      rw [(ih _).1]; simp [logOf, Datum.text]
    | bytes b =>
      unfold fileExport
      simp only [hw, if_true]
      refine ⟨?_, (ih _).2⟩
      rw [(ih _).1]; simp [logOf, Datum.text]
    | obj b =>
      unfold fileExport
      simp only [hw, if_true]
      refine ⟨?_, (ih _).2⟩
      rw [(ih _).1]; simp [logOf, Datum.text]

theorem linesOf_log (ds : List Datum) (h : ∀ d ∈ ds, newline ∉ d.text) : linesOf [] (logOf ds) = ds.map Datum.text := by
  have go : ∀ (t cur rest : Bytes), newline ∉ t → linesOf cur (t ++ newline :: rest) = (cur ++ t) :: linesOf [] rest := by
    intro t
    induction t with
    | nil => intro cur rest _; simp [linesOf]
    | cons c cs ih =>
      intro cur rest hn
      simp only [List.cons_append, linesOf]
      rw [if_neg (fun e : c = newline => hn (by rw [e]; exact .head _)), ih (cur ++ [c]) rest (fun hm => hn (.tail _ hm))]
      simp
  induction ds with
  | nil => rfl
  | cons d ds ih =>
    have : logOf (d :: ds) = d.text ++ newline :: logOf ds := by simp [logOf]
    rw [this, go d.text [] _ (h d (.head _)), ih (fun x hx => h x (.tail _ hx))]
    rfl

/-- C44. If no write fails, the file holds one newline-terminated line per exported datum, in order, and the data can be read
back from it whenever they contain no newline. -/
theorem file_framing (os : Nat → Option Nat) (hos : ∀ i, os i = none) (batches : List (List Datum)) :
    (batches.foldl (fun f ds => (fileExport os f ds).1) newFile).contents = logOf batches.flatten
    ∧ ((∀ d ∈ batches.flatten, newline ∉ d.text) →
        linesOf [] (batches.foldl (fun f ds => (fileExport os f ds).1) newFile).contents = batches.flatten.map Datum.text) := by
  have key : ∀ (bs : List (List Datum)) (f : OutFile),
      (bs.foldl (fun f ds => (fileExport os f ds).1) f).contents = f.contents ++ logOf bs.flatten := by
    intro bs
    induction bs with
    | nil => intro f; simp [logOf]
    | cons b bs ih =>
      intro f
      simp only [List.foldl_cons, List.flatten_cons]
      rw [ih, (fileExport_ok os hos f b).1]
      simp [logOf]
  have h := key batches newFile
  have e : newFile.contents ++ logOf batches.flatten = logOf batches.flatten := rfl
  rw [e] at h
  refine ⟨h, fun hn => ?_⟩
  rw [h]
  exact linesOf_log _ hn

/-- What exporting `ds` can leave in the file: the lines of the data, where the newline after a datum may have been lost, up to a
datum whose text could not be written completely (`ok = false`), if any. -/
inductive Written : List Datum → Bytes → Bool → Prop where
  | done : Written [] [] true
  | line (d : Datum) (ds : List Datum) (out : Bytes) (ok : Bool) (h : Written ds out ok) : Written (d :: ds) (d.text ++ [newline] ++ out) ok
  | glued (d : Datum) (ds : List Datum) (out : Bytes) (ok : Bool) (h : Written ds out ok) : Written (d :: ds) (d.text ++ out) ok
  | cut (d : Datum) (ds : List Datum) (t : Bytes) (h : t <+: d.text ++ [newline]) : Written (d :: ds) t false

/-- C44 with failing writes: data before the first failure are complete and in order, nothing is written after it, and the error is
reported; a lost newline is not (finding: two lines are then glued together silently). -/
theorem file_with_failures (os : Nat → Option Nat) (f : OutFile) (ds : List Datum) :
    ∃ out, (fileExport os f ds).1.contents = f.contents ++ out ∧ Written ds out (fileExport os f ds).2 := by
  have hw : ∀ (f : OutFile) b, (os f.writes = none ∧ f.write os b = (⟨f.contents ++ b, f.writes + 1⟩, true))
      ∨ ∃ k, os f.writes = some k ∧ f.write os b = (⟨f.contents ++ b.take k, f.writes + 1⟩, false) := by
    intro f b
    unfold OutFile.write
    cases h : os f.writes with
    | none => exact Or.inl ⟨rfl, rfl⟩
    | some k => exact Or.inr ⟨k, rfl, rfl⟩
  have two : ∀ (d : Datum) (ds : List Datum) (f : OutFile),
      (∀ f : OutFile, ∃ out, (fileExport os f ds).1.contents = f.contents ++ out ∧ Written ds out (fileExport os f ds).2) →
      ∃ out, (if (f.write os d.text).2 then fileExport os ((f.write os d.text).1.write os [newline]).1 ds
          else ((f.write os d.text).1, false)).1.contents = f.contents ++ out
        ∧ Written (d :: ds) out (if (f.write os d.text).2 then fileExport os ((f.write os d.text).1.write os [newline]).1 ds
          else ((f.write os d.text).1, false)).2 := by
    intro d ds f ih
    rcases hw f d.text with ⟨_, h⟩ | ⟨k, _, h⟩
    · rw [h]
      simp only [if_true]
      rcases hw ⟨f.contents ++ d.text, f.writes + 1⟩ [newline] with ⟨_, h'⟩ | ⟨k, _, h'⟩
      · rw [h']
        obtain ⟨out, h1, h2⟩ := ih ⟨f.contents ++ d.text ++ [newline], f.writes + 1 + 1⟩
        exact ⟨_, by rw [h1]; simp, .line d ds out _ h2⟩
      · rw [h']
        cases k with
        | zero =>
          obtain ⟨out, h1, h2⟩ := ih ⟨f.contents ++ d.text ++ [newline].take 0, f.writes + 1 + 1⟩
          exact ⟨_, by rw [h1]; simp, .glued d ds out _ h2⟩
        | succ k =>
          obtain ⟨out, h1, h2⟩ := ih ⟨f.contents ++ d.text ++ [newline].take (k + 1), f.writes + 1 + 1⟩
          exact ⟨_, by rw [h1]; simp, .line d ds out _ h2⟩
    · rw [h]
      simp only [Bool.false_eq_true, if_false]
      exact ⟨_, rfl, .cut d ds _ ((List.take_prefix _ _).trans (List.prefix_append _ _))⟩
  induction ds generalizing f with
  | nil => exact ⟨[], by simp [fileExport], .done⟩
  | cons d ds ih =>
    cases d with
    | odd p =>
      unfold fileExport
      rcases hw f (p ++ [newline]) with ⟨_, h⟩ | ⟨k, _, h⟩
      · rw [h]
        simp only [if_true]
        obtain ⟨out, h1, h2⟩ := ih ⟨f.contents ++ (p ++ [newline]), f.writes + 1⟩
        exact ⟨_, by rw [h1]; simp [Datum.text], .line (.odd p) ds out _ h2⟩
      · rw [h]
        simp only [Bool.false_eq_true, if_false]
        exact ⟨_, rfl, .cut (.odd p) ds _ (List.take_prefix _ _)⟩
    | bytes b => unfold fileExport; exact two (.bytes b) ds f ih
    | obj b => unfold fileExport; exact two (.obj b) ds f ih

/-- C42-C44 together: a text log. With an encoder that encodes records one by one and a file that accepts every write, after the
input is closed the file holds one line per encodable record, in the order received, however they were batched. -/
theorem file_log (f : R → Option Datum) (os : Nat → Option Nat) (hos : ∀ i, os i = none) (eb start : Int) (es : List (Ev R))
    (hc : closed es = true) :
    (run (perRecord f) (fileTransport os) eb (init newFile start) es).tr.contents = logOf ((received es).filterMap f) := by
  rw [run_tr]
  have := (file_framing os hos ((run (perRecord f) (fileTransport os) eb (init newFile start) es).calls.map (·.1))).1
  rw [per_record_isolation f (fileTransport os) eb newFile start es hc] at this
  exact this

/-- C43: the terminal and the null transport never report a failure, whatever they are given; the terminal prints every datum on its
own line after what was printed before, the null transport keeps nothing. -/
theorem console_never_fails (out : Bytes) (ds : List Datum) :
    terminal.send out ds = (out ++ logOf ds, true) ∧ null.send () ds = ((), true) := ⟨rfl, rfl⟩

/-- The same for the terminal. -/
theorem terminal_log (f : R → Option Datum) (eb start : Int) (es : List (Ev R)) (hc : closed es = true) :
    (run (perRecord f) terminal eb (init [] start) es).tr = logOf ((received es).filterMap f) := by
  rw [run_tr]
  have key : ∀ (bs : List (List Datum)) (s : Bytes), bs.foldl (fun s d => (terminal.send s d).1) s = s ++ logOf bs.flatten := by
    intro bs
    induction bs with
    | nil => intro s; simp [logOf]
    | cons b bs ih => intro s; simp only [List.foldl_cons]; rw [ih]; simp [terminal, logOf]
  rw [key, per_record_isolation f terminal eb [] start es hc]
  rfl

/-- The message a byte-slice datum produces. -/
def asBytes : Datum → Option Bytes
  | .bytes b => some b
  | _ => none

theorem kafkaExport_ok (ok : Nat → Bool) (hok : ∀ i, ok i = true) (ds : List Datum) (s : List Bytes × Nat) :
    (kafkaExport ok s ds).1 = s.1 ++ ds.filterMap asBytes := by
  induction ds generalizing s with
  | nil => simp [kafkaExport]
  | cons d ds ih =>
    cases d with
    | bytes b => simp only [kafkaExport, hok, if_true]; rw [ih]; simp [asBytes]
    | obj b => simp only [kafkaExport]; rw [ih]; rfl
    | odd b => simp only [kafkaExport]; rw [ih]; rfl

/-- The same for Kafka: one message per encoded record. -/
theorem kafka_log (f : R → Option Bytes) (ok : Nat → Bool) (hok : ∀ i, ok i = true) (eb start : Int) (es : List (Ev R))
    (hc : closed es = true) :
    (run (perRecord (fun r => (f r).map Datum.bytes)) (kafka ok) eb (init ([], 0) start) es).tr.1 = (received es).filterMap f := by
  rw [run_tr]
  have key : ∀ (bs : List (List Datum)) (s : List Bytes × Nat),
      (bs.foldl (fun s d => ((kafka ok).send s d).1) s).1 = s.1 ++ bs.flatten.filterMap asBytes := by
    intro bs
    induction bs with
    | nil => intro s; simp
    | cons b bs ih =>
      intro s; simp only [List.foldl_cons]; rw [ih]
      show (kafkaExport ok s b).1 ++ _ = _
      rw [kafkaExport_ok ok hok]; simp
  rw [key, per_record_isolation (fun r => (f r).map Datum.bytes) (kafka ok) eb ([], 0) start es hc]
  show [] ++ _ = _
  rw [List.nil_append]
  induction received es with
  | nil => rfl
  | cons r rs ih => cases h : f r <;> simp [h, asBytes, ih]

/-- C43, Kafka: a message that cannot be produced affects no other message. -/
theorem kafka_skips_failures (ok : Nat → Bool) (ds : List Datum) (s : List Bytes × Nat) :
    ∃ sent, (kafkaExport ok s ds).1 = s.1 ++ sent ∧ (kafkaExport ok s ds).2 = s.2 + (ds.filterMap asBytes).length
      ∧ sent = (((ds.filterMap asBytes).zipIdx s.2).filter (fun p => ok p.2)).map (·.1) := by
  induction ds generalizing s with
  | nil => exact ⟨[], by simp [kafkaExport], rfl, rfl⟩
  | cons d ds ih =>
    cases d with
    | bytes b =>
      obtain ⟨sent, h1, h2, h3⟩ := ih (if ok s.2 then s.1 ++ [b] else s.1, s.2 + 1)
      have he : kafkaExport ok s (.bytes b :: ds) = kafkaExport ok (if ok s.2 then s.1 ++ [b] else s.1, s.2 + 1) ds := rfl
      rw [he, h1, h2]
      cases hok : ok s.2 with
      | true =>
        refine ⟨b :: sent, by simp, by simp [asBytes]; omega, ?_⟩
        simp [asBytes, hok, h3]
      | false =>
        refine ⟨sent, by simp, by simp [asBytes]; omega, ?_⟩
        simp [asBytes, hok, h3]
    | obj b => exact ih s
    | odd b => exact ih s

/-- C43, syslog: the first failing message of a batch abandons the rest of the batch; the messages before it are sent. -/
theorem syslog_stops (ok : Nat → Bool) (ds : List Datum) (s : List Bytes × Nat) :
    ∃ n, n ≤ ds.length ∧ (syslogExport ok s ds).1.1 = s.1 ++ (ds.take n).map Datum.text
      ∧ ((syslogExport ok s ds).2 = true → n = ds.length) := by
  induction ds generalizing s with
  | nil => exact ⟨0, Nat.le_refl _, by simp [syslogExport], fun _ => rfl⟩
  | cons d ds ih =>
    have go : ∀ b, d.text = b → ∃ n, n ≤ (d :: ds).length
        ∧ (if ok s.2 then syslogExport ok (s.1 ++ [b], s.2 + 1) ds else ((s.1, s.2 + 1), false)).1.1 = s.1 ++ ((d :: ds).take n).map Datum.text
        ∧ ((if ok s.2 then syslogExport ok (s.1 ++ [b], s.2 + 1) ds else ((s.1, s.2 + 1), false)).2 = true → n = (d :: ds).length) := by
      intro b hb
      cases ok s.2 with
      | true =>
        obtain ⟨n, h1, h2, h3⟩ := ih (s.1 ++ [b], s.2 + 1)
        refine ⟨n + 1, Nat.succ_le_succ h1, ?_, fun h => by rw [h3 h]; rfl⟩
        simp only [if_true]; rw [h2]; simp [hb]
      | false => exact ⟨0, Nat.zero_le _, by simp, fun h => by simp at h⟩
    cases d with
    | bytes b => unfold syslogExport; exact go b rfl
    | obj b => unfold syslogExport; exact go b rfl
    | odd b => exact ⟨0, Nat.zero_le _, by simp [syslogExport], fun h => by simp [syslogExport] at h⟩

/-! ### Concrete cases -/

/-- Three records with buffer size 2, a tick, the close; the encoder rejects record 2. -/
def demoCodec : Codec Nat Datum := perRecord (fun n => if n = 2 then none else some (.bytes [n.toUInt8 + 48]))
def demoEvs : List (Ev Nat) := [.recv 1 10, .tick 20 20, .recv 2 30, .recv 3 40, .tick 2000000000 2000000001, .recv 4 2000000002, .close]

example : (run demoCodec terminal 2 (init [] 0) demoEvs).batches = [[1, 2], [3], [4]] := by decide
example : closed demoEvs = true ∧ received demoEvs = [1, 2, 3, 4] := by decide
example : (run demoCodec terminal 2 (init [] 0) demoEvs).tr = [49, 10, 51, 10, 52, 10] := by decide
example : ∀ e ∈ [Ev.recv 1 10, .tick 20 20], ∀ x ∈ readings e, x ≤ (20 : Int) := by decide
/-- A failing encoder loses the whole batch with the all-or-nothing encoder. -/
example : payload (allOrNone (fun n : Nat => if n = 2 then none else some n)) [1, 2, 3] = none := by decide
/-- A lost newline glues two lines and the export is reported as successful. -/
theorem lost_newline_unreported : ∃ os, (fileExport os newFile [.bytes [49], .bytes [50]]).2 = true
    ∧ linesOf [] (fileExport os newFile [.bytes [49], .bytes [50]]).1.contents = [[49, 50]] :=
  ⟨fun i => if i = 1 then some 0 else none, by decide⟩

end Verif.Exporter
