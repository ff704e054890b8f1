import Verif.Pipeline.Cache
import Verif.Base.Machine
import Verif.Config.Model
/-
C95: the health checks made after a pipeline is loaded.
Sources: /repo/driver/pipeline/pipeline.go:202, 296-328; /repo/driver/pipeline/config.go:57; /repo/core/exporter/exporter.go:104-110;
/repo/core/exporter/transports/protocol.go:25-37.
-/
namespace Verif.Pipeline.Health
open Verif.Machine (Exec run exec_of_run)

/-! ### Model -/

/-- What a call of `Test` on a stage comes to: nil error, an error, or no return at all. -/
inductive Check where
  | ok
  | fails
  | hangs
deriving DecidableEq, Repr

/-- What can be seen of the checks: `Test` of stage `i` is called, returns nil, returns an error (which is logged, pipeline.go:306); the health line "passed" or "failed" is
written (pipeline.go:317-319, 323-325). -/
inductive Obs where
  | called (i : Nat)
  | succeeded (i : Nat)
  | errored (i : Nat)
  | verdict (passed : Bool)
deriving DecidableEq, Repr

/-- Where the goroutine that makes the checks is (pipeline.go:302-313). -/
inductive Phase where
  | working (i : Nat)
  | testing (i : Nat)
  | sending (ok : Bool)
  | ended
deriving DecidableEq, Repr

/-- The goroutine, the channel of capacity one (pipeline.go:301), the time since the checks began (in nanoseconds), whether the context's timer has fired, whether `test` has
returned. -/
structure St where
  phase : Phase := .working 0
  box : Option Bool := none
  now : Nat := 0
  fired : Bool := false
  returned : Bool := false
deriving DecidableEq, Repr

/-- Steps: the goroutine goes on to the next stage, gets a result of `Test`, sends on the channel; time passes; the timer fires; `select` takes the result; `select` takes
the timer. -/
inductive Lbl where
  | next
  | ret
  | send
  | tick (d : Nat)
  | fire
  | recv
  | giveUp
deriving DecidableEq, Repr

/-- `HealthChecksTimeout` (config.go:57): ten seconds. -/
def timeout : Nat := 10000000000

/-- `Pipeline.test` (pipeline.go:297-328) on stages of which `cs` tells what their `Test` does (`none`: the stage is not an `SFTestableProcessor`, pipeline.go:304). When both cases of the
`select` are ready, either may be taken. -/
def step (cs : List (Option Check)) (s : St) : Lbl → Option (St × List Obs)
  | .next =>
    match s.phase with
    | .working i =>
      match cs[i]? with
      | none => some ({ s with phase := .sending true }, [])
      | some none => some ({ s with phase := .working (i + 1) }, [])
      | some (some _) => some ({ s with phase := .testing i }, [.called i])
    | _ => none
  | .ret =>
    match s.phase with
    | .testing i =>
      match cs[i]? with
      | some (some .ok) => some ({ s with phase := .working (i + 1) }, [.succeeded i])
      | some (some .fails) => some ({ s with phase := .sending false }, [.errored i])
      | _ => none
    | _ => none
  | .send =>
    match s.phase, s.box with
    | .sending b, none => some ({ s with phase := .ended, box := some b }, [])
    | _, _ => none
  | .tick d => some ({ s with now := s.now + d }, [])
  | .fire => if timeout ≤ s.now ∧ s.fired = false then some ({ s with fired := true }, []) else none
  | .recv =>
    if s.returned = false then
      match s.box with
      | some b => some ({ s with box := none, returned := true }, [.verdict b])
      | none => none
    else none
  | .giveUp => if s.returned = false ∧ s.fired = true then some ({ s with returned := true }, [.verdict false]) else none

/-- `Exporter.Test` (exporter.go:105-110): the transport's test, if it has one (`t`), or success. -/
def exporterTest (t : Option Check) : Check :=
  match t with
  | some c => c
  | none => .ok

/-- Which transports of the code base implement `Test` (protocol.go:33-37): none of console, file, syslog, Elastic, Kafka, null. -/
def transportTest (_ : Config.Transport) : Option Check := none

/-- What the stages of the code base do when tested: the exporter is the only one with a method `Test` (exporter.go:105); `exporting` gives the transport of a stage
that is an exporter. -/
def shippedTest {F : Type} (exporting : F → Option Config.Transport) (f : F) : Option Check :=
  (exporting f).map (fun t => exporterTest (transportTest t))

/-- The checks of a loaded pipeline (pipeline.go:303: the processors in the order of `pl.processors`). -/
def checksOf {F : Type} (test : F → Option Check) (l : Load F) : List (Option Check) := l.stages.map (fun st => test st.proc)

/-! ### Specification -/

/-- The stages that will be tested, from the `i`th on, with the results to be expected, up to and including the first that does not succeed. -/
def script (i : Nat) : List (Option Check) → List Obs
  | [] => []
  | none :: cs => script (i + 1) cs
  | some .ok :: cs => .called i :: .succeeded i :: script (i + 1) cs
  | some .fails :: _ => [.called i, .errored i]
  | some .hangs :: _ => [.called i]

/-- Health lines written. -/
def verdicts : List Obs → List Bool
  | [] => []
  | .verdict b :: tr => b :: verdicts tr
  | _ :: tr => verdicts tr

/-- Everything but the health lines. -/
def tests (tr : List Obs) : List Obs := tr.filter (fun o => match o with | .verdict _ => false | _ => true)

/-- No testable stage fails or hangs. -/
def AllOk (cs : List (Option Check)) : Prop := ∀ c ∈ cs, c = none ∨ c = some .ok

/-- Stage `i` fails, and those before it do not. -/
def FirstFailure (cs : List (Option Check)) (i : Nat) : Prop := cs[i]? = some (some .fails) ∧ AllOk (cs.take i)

/-- A label that is not the passing of time. -/
def Lbl.works : Lbl → Bool
  | .tick _ => false
  | _ => true

/-! ### Proofs -/

theorem tests_append (a b : List Obs) : tests (a ++ b) = tests a ++ tests b := List.filter_append ..

theorem verdicts_append (a b : List Obs) : verdicts (a ++ b) = verdicts a ++ verdicts b := by
  induction a with
  | nil => rfl
  | cons o a ih => cases o <;> simp [verdicts, ih]

/-- What the goroutine has still to do. -/
def remaining (cs : List (Option Check)) : Phase → List Obs
  | .working i => script i (cs.drop i)
  | .testing i => (script i (cs.drop i)).tail
  | .sending _ => []
  | .ended => []

/-- The value sent, or to be sent, on the channel is right. -/
def Right (cs : List (Option Check)) (b : Bool) : Prop :=
  (b = true → AllOk cs) ∧ (b = false → ∃ i, FirstFailure cs i)

structure Inv (cs : List (Option Check)) (tr : List Obs) (s : St) : Prop where
  done : tests tr ++ remaining cs s.phase = script 0 cs
  work : ∀ i, s.phase = .working i → AllOk (cs.take i)
  test : ∀ i, s.phase = .testing i → AllOk (cs.take i) ∧ ∃ c, cs[i]? = some (some c)
  sent : ∀ b, s.phase = .sending b → Right cs b
  full : s.phase ≠ .ended → s.box = none ∧ (s.returned = true → s.fired = true)
  box : ∀ b, s.box = some b → s.phase = .ended ∧ Right cs b
  fired : s.fired = true → timeout ≤ s.now
  lines : (verdicts tr).length = s.returned.toNat
  pass : true ∈ verdicts tr → s.phase = .ended ∧ AllOk cs
  fail : false ∈ verdicts tr → timeout ≤ s.now ∨ (s.phase = .ended ∧ ∃ i, FirstFailure cs i)

theorem allOk_succ {cs : List (Option Check)} {i : Nat} {c : Option Check} (h : AllOk (cs.take i)) (hi : cs[i]? = some c) (hc : c = none ∨ c = some .ok) :
    AllOk (cs.take (i + 1)) := by
  rw [List.take_add_one, hi]
  intro x hx
  rcases List.mem_append.1 hx with hx | hx
  · exact h x hx
  · rw [Option.toList_some, List.mem_singleton] at hx
    rw [hx]; exact hc

theorem drop_cons {α : Type} {l : List α} {i : Nat} {a : α} (h : l[i]? = some a) : l.drop i = a :: l.drop (i + 1) := by
  obtain ⟨hlt, rfl⟩ := List.getElem?_eq_some_iff.1 h
  exact List.drop_eq_getElem_cons hlt

theorem inv_init (cs : List (Option Check)) : Inv cs [] {} where
  done := rfl
  work i h := by cases h; intro x hx; cases hx
  test i h := by cases h
  sent b h := by cases h
  full _ := ⟨rfl, fun h => (by cases h)⟩
  box b h := by cases h
  fired h := by cases h
  lines := rfl
  pass h := by cases h
  fail h := by cases h

theorem inv_step {cs : List (Option Check)} {tr : List Obs} {s s' : St} {l : Lbl} {os : List Obs} (I : Inv cs tr s) (h : step cs s l = some (s', os)) :
    Inv cs (tr ++ os) s' := by
  cases l with
  | next =>
    simp only [step] at h
    split at h
    · rename_i i hp
      have hfull := I.full (by rw [hp]; intro e; cases e)
      have hd := I.done
      rw [hp] at hd
      have hw := I.work i hp
      have nopass : true ∉ verdicts tr := fun hm => by have := (I.pass hm).1; rw [hp] at this; cases this
      have fail' : false ∈ verdicts tr → timeout ≤ s.now := fun hm => by
        rcases I.fail hm with h | h
        · exact h
        · have := h.1; rw [hp] at this; cases this
      split at h
      · rename_i hi
        cases h
        have hlen : cs.length ≤ i := List.getElem?_eq_none_iff.1 hi
        have hall : AllOk cs := by rwa [List.take_of_length_le hlen] at hw
        refine ⟨?_, fun _ h => (by cases h), fun _ h => (by cases h), ?_, fun _ => hfull, ?_, I.fired, ?_, ?_, ?_⟩
        · rw [remaining, List.drop_eq_nil_of_le hlen] at hd
          simpa [remaining, script] using hd
        · intro b hb
          cases hb
          exact ⟨fun _ => hall, fun h => (by cases h)⟩
        · intro b hb
          rw [hfull.1] at hb; cases hb
        · simpa using I.lines
        · intro hm; rw [List.append_nil] at hm; exact absurd hm nopass
        · intro hm; rw [List.append_nil] at hm; exact .inl (fail' hm)
      · rename_i hi
        cases h
        refine ⟨?_, ?_, fun _ h => (by cases h), fun _ h => (by cases h), fun _ => hfull, ?_, I.fired, ?_, ?_, ?_⟩
        · rw [remaining, drop_cons hi, script] at hd
          rw [List.append_nil]; exact hd
        · intro j hj
          cases hj
          exact allOk_succ hw hi (.inl rfl)
        · intro b hb
          rw [hfull.1] at hb; cases hb
        · simpa using I.lines
        · intro hm; rw [List.append_nil] at hm; exact absurd hm nopass
        · intro hm; rw [List.append_nil] at hm; exact .inl (fail' hm)
      · rename_i c hi
        cases h
        have hv : verdicts (tr ++ [.called i]) = verdicts tr := by rw [verdicts_append]; simp [verdicts]
        refine ⟨?_, fun _ h => (by cases h), ?_, fun _ h => (by cases h), fun _ => hfull, ?_, I.fired, ?_, ?_, ?_⟩
        · rw [remaining, drop_cons hi] at hd
          rw [remaining, drop_cons hi, tests_append, ← hd]
          cases c <;> simp [script, tests]
        · intro j hj
          cases hj
          exact ⟨hw, c, hi⟩
        · intro b hb
          rw [hfull.1] at hb; cases hb
        · rw [hv]; exact I.lines
        · intro hm; rw [hv] at hm; exact absurd hm nopass
        · intro hm; rw [hv] at hm; exact .inl (fail' hm)
    · cases h
  | ret =>
    simp only [step] at h
    split at h
    · rename_i i hp
      have hfull := I.full (by rw [hp]; intro e; cases e)
      have hd := I.done
      rw [hp] at hd
      obtain ⟨hw, -⟩ := I.test i hp
      have nopass : true ∉ verdicts tr := fun hm => by have := (I.pass hm).1; rw [hp] at this; cases this
      have fail' : false ∈ verdicts tr → timeout ≤ s.now := fun hm => by
        rcases I.fail hm with h | h
        · exact h
        · have := h.1; rw [hp] at this; cases this
      split at h
      · rename_i hi
        cases h
        have hv : verdicts (tr ++ [.succeeded i]) = verdicts tr := by rw [verdicts_append]; simp [verdicts]
        refine ⟨?_, ?_, fun _ h => (by cases h), fun _ h => (by cases h), fun _ => hfull, ?_, I.fired, ?_, ?_, ?_⟩
        · rw [remaining, drop_cons hi, script] at hd
          rw [remaining, tests_append, ← hd]
          simp [tests]
        · intro j hj
          cases hj
          exact allOk_succ hw hi (.inr rfl)
        · intro b hb
          rw [hfull.1] at hb; cases hb
        · rw [hv]; exact I.lines
        · intro hm; rw [hv] at hm; exact absurd hm nopass
        · intro hm; rw [hv] at hm; exact .inl (fail' hm)
      · rename_i hi
        cases h
        have hv : verdicts (tr ++ [.errored i]) = verdicts tr := by rw [verdicts_append]; simp [verdicts]
        refine ⟨?_, fun _ h => (by cases h), fun _ h => (by cases h), ?_, fun _ => hfull, ?_, I.fired, ?_, ?_, ?_⟩
        · rw [remaining, drop_cons hi, script] at hd
          rw [remaining, tests_append, ← hd]
          simp [tests]
        · intro b hb
          cases hb
          exact ⟨fun h => (by cases h), fun _ => ⟨i, hi, hw⟩⟩
        · intro b hb
          rw [hfull.1] at hb; cases hb
        · rw [hv]; exact I.lines
        · intro hm; rw [hv] at hm; exact absurd hm nopass
        · intro hm; rw [hv] at hm; exact .inl (fail' hm)
      · cases h
    · cases h
  | send =>
    simp only [step] at h
    split at h
    · rename_i b hp hb
      cases h
      have hd := I.done
      rw [hp] at hd
      rw [List.append_nil]
      refine ⟨hd, fun _ h => (by cases h), fun _ h => (by cases h), fun _ h => (by cases h), fun h => absurd rfl h, ?_, I.fired, I.lines, ?_, ?_⟩
      · intro c hc
        cases hc
        exact ⟨rfl, I.sent b hp⟩
      · intro hm
        have := (I.pass hm).1; rw [hp] at this; cases this
      · intro hm
        rcases I.fail hm with h | h
        · exact .inl h
        · have := h.1; rw [hp] at this; cases this
    · cases h
  | tick d =>
    cases h
    rw [List.append_nil]
    exact ⟨I.done, I.work, I.test, I.sent, I.full, I.box, fun h => Nat.le_trans (I.fired h) (Nat.le_add_right _ _), I.lines, I.pass,
      fun h => (I.fail h).elim (fun h => .inl (Nat.le_trans h (Nat.le_add_right _ _))) .inr⟩
  | fire =>
    simp only [step] at h
    split at h
    · rename_i hc
      cases h
      rw [List.append_nil]
      exact ⟨I.done, I.work, I.test, I.sent, fun h => ⟨(I.full h).1, fun _ => rfl⟩, I.box, fun _ => hc.1, I.lines, I.pass, I.fail⟩
    · cases h
  | recv =>
    simp only [step] at h
    split at h
    · rename_i hr
      split at h
      · rename_i b hb
        cases h
        obtain ⟨hp, hR⟩ := I.box b hb
        have hno : verdicts tr = [] := by
          have := I.lines; rw [hr] at this
          exact List.eq_nil_of_length_eq_zero this
        have hv : verdicts (tr ++ [.verdict b]) = [b] := by rw [verdicts_append, hno]; rfl
        have ht : tests (tr ++ [.verdict b]) = tests tr := by rw [tests_append]; simp [tests]
        refine ⟨by rw [ht]; exact I.done, I.work, I.test, I.sent, fun h => absurd hp h, fun c hc => (by cases hc), I.fired, by rw [hv]; rfl, ?_, ?_⟩
        · intro hm
          rw [hv, List.mem_singleton] at hm
          exact ⟨hp, hR.1 hm.symm⟩
        · intro hm
          rw [hv, List.mem_singleton] at hm
          exact .inr ⟨hp, hR.2 hm.symm⟩
      · cases h
    · cases h
  | giveUp =>
    simp only [step] at h
    split at h
    · rename_i hc
      cases h
      have hno : verdicts tr = [] := by
        have := I.lines; rw [hc.1] at this
        exact List.eq_nil_of_length_eq_zero this
      have hv : verdicts (tr ++ [.verdict false]) = [false] := by rw [verdicts_append, hno]; rfl
      have ht : tests (tr ++ [.verdict false]) = tests tr := by rw [tests_append]; simp [tests]
      refine ⟨by rw [ht]; exact I.done, I.work, I.test, I.sent, fun h => ⟨(I.full h).1, fun _ => hc.2⟩, I.box, I.fired, by rw [hv]; rfl, ?_, ?_⟩
      · intro hm
        rw [hv, List.mem_singleton] at hm
        cases hm
      · intro _
        exact .inl (I.fired hc.2)
    · cases h

theorem inv {cs : List (Option Check)} {tr : List Obs} {s : St} (h : Exec (step cs) {} tr s) : Inv cs tr s :=
  Exec.invariant (Inv cs) (inv_init cs) (fun _ _ _ _ _ I hs => inv_step I hs) h

theorem script_ok {cs : List (Option Check)} (h : AllOk cs) (i : Nat) : ∀ o ∈ script i cs, ∀ j, o ≠ .errored j := by
  induction cs generalizing i with
  | nil => intro o ho; cases ho
  | cons c cs ih =>
    have h' : AllOk cs := fun x hx => h x (List.mem_cons_of_mem _ hx)
    rcases h c (List.mem_cons_self ..) with rfl | rfl
    · exact ih h' (i + 1)
    · intro o ho j
      rcases List.mem_cons.1 ho with rfl | ho
      · intro e; cases e
      · rcases List.mem_cons.1 ho with rfl | ho
        · intro e; cases e
        · exact ih h' (i + 1) o ho j

/-! ### C95 -/

/-- At most one health line is written, and it is written exactly when `test`, and with it `Load`, returns. -/
theorem one_health_line {cs : List (Option Check)} {tr : List Obs} {s : St} (h : Exec (step cs) {} tr s) :
    (s.returned = false → verdicts tr = []) ∧ (s.returned = true → ∃ b, verdicts tr = [b]) := by
  have := (inv h).lines
  refine ⟨fun hr => ?_, fun hr => ?_⟩
  · rw [hr] at this; exact List.eq_nil_of_length_eq_zero this
  · rw [hr] at this; exact List.length_eq_one_iff.1 this

/-- Stages are tested in their order, each at most once, and none after the first that fails or hangs. -/
theorem checks_in_order {cs : List (Option Check)} {tr : List Obs} {s : St} (h : Exec (step cs) {} tr s) : tests tr <+: script 0 cs :=
  ⟨_, (inv h).done⟩

/-- "passed" is written only after every testable stage was tested and succeeded. -/
theorem passed_means_all_passed {cs : List (Option Check)} {tr : List Obs} {s : St} (h : Exec (step cs) {} tr s) (hp : true ∈ verdicts tr) :
    AllOk cs ∧ tests tr = script 0 cs ∧ s.phase = .ended := by
  obtain ⟨he, ha⟩ := (inv h).pass hp
  have hd := (inv h).done
  rw [he, remaining, List.append_nil] at hd
  exact ⟨ha, hd, he⟩

/-- "failed" is written only if a stage's test failed (it was reached, and the failure reported) or the ten seconds had passed. -/
theorem failed_means_failure_or_timeout {cs : List (Option Check)} {tr : List Obs} {s : St} (h : Exec (step cs) {} tr s) (hf : false ∈ verdicts tr)
    (hnow : s.now < 10 * 10 ^ 9) : ∃ i, FirstFailure cs i ∧ .errored i ∈ tr := by
  have hnow : s.now < timeout := hnow
  rcases (inv h).fail hf with ht | ⟨he, i, hi⟩
  · exact absurd ht (Nat.not_le_of_lt hnow)
  · refine ⟨i, hi, ?_⟩
    have hd := (inv h).done
    rw [he, remaining, List.append_nil] at hd
    have key : ∀ (cs : List (Option Check)) (i k : Nat), FirstFailure cs i → Obs.errored (k + i) ∈ script k cs := by
      intro cs
      induction cs with
      | nil => intro i k hF; cases hF.1
      | cons c cs ih =>
        intro i k hF
        cases i with
        | zero =>
          have h1 := hF.1
          rw [List.getElem?_cons_zero] at h1
          cases h1
          simp [script]
        | succ i =>
          have h1 : FirstFailure cs i := ⟨by simpa using hF.1, fun x hx => hF.2 x (by rw [List.take_succ_cons]; exact List.mem_cons_of_mem _ hx)⟩
          have h2 := ih i (k + 1) h1
          rw [Nat.add_right_comm] at h2
          rcases hF.2 c (by rw [List.take_succ_cons]; exact List.mem_cons_self ..) with rfl | rfl
          · exact h2
          · exact List.mem_cons_of_mem _ (List.mem_cons_of_mem _ h2)
    have := key cs i 0 hi
    rw [Nat.zero_add, ← hd] at this
    exact (List.mem_filter.1 this).1

/-- Once ten seconds have passed `test` can return whatever the stages do: a hanging check cannot keep the program from starting. -/
theorem returns_at_deadline {cs : List (Option Check)} {tr : List Obs} {s : St} (_ : Exec (step cs) {} tr s) (hr : s.returned = false) (ht : 10 * 10 ^ 9 ≤ s.now) :
    (∃ s' , step cs s .fire = some (s', []) ∧ ∃ s'', step cs s' .giveUp = some (s'', [.verdict false])) ∨
    (∃ s', step cs s .giveUp = some (s', [.verdict false])) := by
  have ht : timeout ≤ s.now := ht
  cases hf : s.fired with
  | true => exact .inr ⟨_, by simp only [step]; exact if_pos ⟨hr, hf⟩⟩
  | false => exact .inl ⟨_, by simp only [step]; exact if_pos ⟨ht, hf⟩, _, by simp only [step]; exact if_pos ⟨hr, trivial⟩⟩

/-- Work left. -/
def work (cs : List (Option Check)) (s : St) : Nat :=
  (match s.phase with
    | .working i => 2 * (cs.length - i) + 2
    | .testing i => 2 * (cs.length - i) + 1
    | .sending _ => 1
    | .ended => 0) + (!s.fired).toNat + (!s.returned).toNat

theorem work_step {cs : List (Option Check)} {s s' : St} {l : Lbl} {os : List Obs} (h : step cs s l = some (s', os)) : work cs s' + l.works.toNat ≤ work cs s := by
  cases l with
  | tick d => cases h; exact Nat.le_refl _
  | next =>
    simp only [step] at h
    split at h
    · rename_i i hp
      split at h
      · cases h; simp only [work, hp, Lbl.works, Bool.toNat_true]; omega
      · rename_i hi
        have := (List.getElem?_eq_some_iff.1 hi).1
        cases h; simp only [work, hp, Lbl.works, Bool.toNat_true]; omega
      · cases h; simp only [work, hp, Lbl.works, Bool.toNat_true]; omega
    · cases h
  | ret =>
    simp only [step] at h
    split at h
    · rename_i i hp
      split at h
      · rename_i hi
        have := (List.getElem?_eq_some_iff.1 hi).1
        cases h; simp only [work, hp, Lbl.works, Bool.toNat_true]; omega
      · rename_i hi
        have := (List.getElem?_eq_some_iff.1 hi).1
        cases h; simp only [work, hp, Lbl.works, Bool.toNat_true]; omega
      · cases h
    · cases h
  | send =>
    simp only [step] at h
    split at h
    · rename_i b hp hb
      cases h; simp only [work, hp, Lbl.works, Bool.toNat_true]; omega
    · cases h
  | fire =>
    simp only [step] at h
    split at h
    · rename_i hc
      cases h
      simp only [work, hc.2, Lbl.works, Bool.toNat_true, Bool.not_false, Bool.not_true, Bool.toNat_false]; omega
    · cases h
  | recv =>
    simp only [step] at h
    split at h
    · rename_i hr
      split at h
      · cases h
        simp only [work, hr, Lbl.works, Bool.toNat_true, Bool.not_false, Bool.not_true, Bool.toNat_false]; omega
      · cases h
    · cases h
  | giveUp =>
    simp only [step] at h
    split at h
    · rename_i hc
      cases h
      simp only [work, hc.1, Lbl.works, Bool.toNat_true, Bool.not_false, Bool.not_true, Bool.toNat_false]; omega
    · cases h

/-- Apart from waiting, the checks take a bounded number of steps: two for each stage and four more. -/
theorem checks_are_bounded {cs : List (Option Check)} {ls : List Lbl} {tr : List Obs} {s : St} (h : run (step cs) {} ls = some (s, tr)) :
    (ls.filter Lbl.works).length ≤ 2 * cs.length + 4 := by
  have key : ∀ (ls : List Lbl) (s0 s : St) (tr : List Obs), run (step cs) s0 ls = some (s, tr) → (ls.filter Lbl.works).length + work cs s ≤ work cs s0 := by
    intro ls
    induction ls with
    | nil => intro s0 s tr h; cases h; simp
    | cons l ls ih =>
      intro s0 s tr h
      unfold run at h
      split at h
      · cases h
      · rename_i s1 os hs
        split at h
        · cases h
        · rename_i s2 os' hr
          cases h
          have h1 := ih _ _ _ hr
          have h2 := work_step hs
          rw [List.filter_cons]
          split
          · rename_i hw
            rw [hw, Bool.toNat_true] at h2
            rw [List.length_cons]; omega
          · rename_i hw
            rw [Bool.not_eq_true] at hw
            rw [hw, Bool.toNat_false] at h2
            omega
  have := key ls _ _ _ h
  simp only [work, Bool.not_false, Bool.toNat_true] at this
  omega

/-- The goroutine that makes the checks is never held up by the channel, not even after `test` has given up: unless a stage's `Test` hangs, it can go on until it ends. -/
theorem checker_ends {cs : List (Option Check)} {tr : List Obs} {s : St} (h : Exec (step cs) {} tr s) (hh : some .hangs ∉ cs) (he : s.phase ≠ .ended) :
    ∃ l, l ∈ [Lbl.next, .ret, .send] ∧ ∃ s' os, step cs s l = some (s', os) := by
  have I := inv h
  cases hp : s.phase with
  | working i =>
    refine ⟨.next, by simp, ?_⟩
    simp only [step, hp]
    cases cs[i]? with
    | none => exact ⟨_, _, rfl⟩
    | some c => cases c <;> exact ⟨_, _, rfl⟩
  | testing i =>
    refine ⟨.ret, by simp, ?_⟩
    obtain ⟨-, c, hc⟩ := I.test i hp
    simp only [step, hp, hc]
    cases c with
    | ok => exact ⟨_, _, rfl⟩
    | fails => exact ⟨_, _, rfl⟩
    | hangs => exact absurd (List.mem_of_getElem? hc) hh
  | sending b =>
    refine ⟨.send, by simp, ?_⟩
    simp only [step, hp, (I.full he).1]
    exact ⟨_, _, rfl⟩
  | ended => exact absurd hp he

/-- With the plugins of the code base the checks cannot fail, only time out: a file that cannot be written, an Elastic or Kafka server that is not there go unnoticed. -/
theorem shipped_checks_never_fail {F : Type} (exporting : F → Option Config.Transport) (l : Load F) {tr : List Obs} {s : St}
    (h : Exec (step (checksOf (shippedTest exporting) l)) {} tr s) (hnow : s.now < 10 * 10 ^ 9) : false ∉ verdicts tr := by
  intro hf
  obtain ⟨i, hi, -⟩ := failed_means_failure_or_timeout h hf hnow
  have := List.mem_of_getElem? hi.1
  obtain ⟨st, -, hs⟩ := List.mem_map.1 this
  unfold shippedTest at hs
  cases he : exporting st.proc with
  | none => rw [he] at hs; cases hs
  | some t => rw [he] at hs; cases hs

/-- Three stages, of which the last two can be tested; the last fails. -/
def demoChecks : List (Option Check) := [none, some .ok, some .fails]

/-- A run on them: the failure is found and reported. -/
example : run (step demoChecks) {} [.next, .next, .tick 5, .ret, .next, .ret, .send, .recv] =
    some ({ phase := .ended, now := 5, returned := true }, [.called 1, .succeeded 1, .called 2, .errored 2, .verdict false]) := by decide

/-- One that hangs: the program goes on after ten seconds. -/
example : run (step [none, some .hangs]) {} [.next, .next, .tick timeout, .fire, .giveUp] =
    some ({ phase := .testing 1, now := timeout, fired := true, returned := true }, [.called 1, .verdict false]) := by decide

/-- All well. -/
example : run (step [none, none, some .ok]) {} [.next, .next, .next, .ret, .next, .send, .recv] =
    some ({ phase := .ended, returned := true }, [.called 2, .succeeded 2, .verdict true]) := by decide

/-- The usual three stages, the last one an exporter to Elastic. -/
def demoLoad : Load Nat := { regs := {}, stages := [⟨0, [], none⟩, ⟨1, [], none⟩, ⟨2, [], none⟩] }

example : checksOf (shippedTest (fun f => if f = 2 then some Config.Transport.es else none)) demoLoad = [none, none, some .ok] := by decide

/-- A result that arrives in time may be overtaken by the timer. -/
example : ∃ tr s, Exec (step [some .ok]) {} tr s ∧ verdicts tr = [false] ∧ timeout ≤ s.now :=
  ⟨_, _, exec_of_run (show run (step [some .ok]) {} [.next, .ret, .next, .send, .tick timeout, .fire, .giveUp] = some (_, _) by rfl), by decide, by decide⟩

end Verif.Pipeline.Health
