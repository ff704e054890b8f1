import Verif.Monitor.LiveProps
/-! C99: runs of the policy monitor: one that settles, and the cases in which the latest policies are not adopted. -/
namespace Verif.Monitor.Live
open Verif.Monitor

/-! ### A small world -/

/-- The policy directory with one file of that content. -/
def one (n : Nat) : List (FileEnt Nat) := [⟨"p.yaml".toList, 0, some n⟩]

/-- The compiler of the examples: the content of the only file. -/
def demoCompile : List (Str × Option Nat) → Option Nat
  | [(_, some n)] => some n
  | _ => none

/-- The file was written. -/
def wrote : FsEvent := ⟨"p.yaml".toList, 2⟩

/-- Contents get greater. -/
def demoAge (_ : Str) : Option (Option Nat) → Nat
  | none => 0
  | some none => 1
  | some (some n) => n + 2

theorem demoAge_inj : ∀ p x y, demoAge p x = demoAge p y → x = y := by
  intro p x y h
  match x, y, h with
  | none, none, _ => rfl
  | none, some none, h => cases h
  | none, some (some _), h => cases h
  | some none, none, h => cases h
  | some none, some none, _ => rfl
  | some none, some (some b), h => have h : 1 = b + 2 := h; omega
  | some (some _), none, h => cases h
  | some (some a), some none, h => have h : a + 2 = 1 := h; omega
  | some (some a), some (some b), h =>
    have h : a + 2 = b + 2 := h
    have : a = b := by omega
    rw [this]

theorem p_yaml : Yaml "p.yaml".toList := (yaml_iff _).1 (by decide)

theorem one_plain (n : Nat) : Plain (one n) := by
  refine ⟨List.nodup_cons.2 ⟨List.not_mem_nil, List.nodup_nil⟩, ?_⟩
  intro f hf _
  rw [List.mem_singleton.1 hf]
  exact ⟨rfl, p_yaml⟩

theorem look_one (n : Nat) (p : Str) : look (one n) p = if p = "p.yaml".toList then some (some n) else none := by
  unfold look one
  by_cases h : p = "p.yaml".toList
  · rw [if_pos h, List.find?_cons_of_pos (by rw [h]; exact beq_self_eq_true _)]; rfl
  · rw [if_neg h, List.find?_cons_of_neg (by
      intro h'
      exact h (beq_iff_eq.1 h').symm)]
    rfl

theorem one_usable (n : Nat) : Usable (one n) := by
  refine ⟨⟨"p.yaml".toList, n, p_yaml, by rw [look_one, if_pos rfl]⟩, ?_⟩
  intro p _ h
  rw [look_one] at h
  split at h
  · cases h
  · cases h

theorem one_reported (n m : Nat) : Reported (one n) (one m) [wrote] := by
  intro p _ hne
  by_cases h : p = "p.yaml".toList
  · exact ⟨wrote, List.mem_singleton.2 rfl, h.symm, .inr (.inl rfl)⟩
  · rw [look_one, look_one, if_neg h, if_neg h] at hne
    exact absurd rfl hne

theorem one_forward {n m : Nat} (h : n ≤ m) : Forward demoAge (one n) (one m) := by
  intro p _
  rw [look_one, look_one]
  split
  · change n + 2 ≤ m + 2; omega
  · exact Nat.le_refl _

abbrev demoStep := step (B := Nat) (C := Nat) (P := Nat) id demoCompile

/-- Polls until the end of the round. -/
theorem polls {s : LSt Nat Nat Nat} {i y : Nat} (k : Nat) (hk : i + (k + 1) = pollLimit) (hp : s.phase = .draining i y) :
    Machine.run demoStep s (List.replicate (k + 1) .poll) = some ({ s with phase := if y > 0 then .listing else .idle }, List.replicate (k + 1) .polled) := by
  induction k generalizing s i with
  | zero =>
    have hn : ¬ i + 1 < pollLimit := by omega
    have hs : demoStep s .poll = some ({ s with phase := if y > 0 then .listing else .idle }, [.polled]) := by
      change step id demoCompile s .poll = _
      unfold step
      rw [hp]
      dsimp only
      rw [if_neg hn]
    change Machine.run demoStep s [.poll] = _
    unfold Machine.run
    rw [hs]
    rfl
  | succ k ih =>
    have hn : i + 1 < pollLimit := by omega
    have hs : demoStep s .poll = some ({ s with phase := .draining (i + 1) y }, [.polled]) := by
      change step id demoCompile s .poll = _
      unfold step
      rw [hp]
      dsimp only
      rw [if_pos hn]
    have := ih (s := { s with phase := .draining (i + 1) y }) (i := i + 1) (by omega) rfl
    rw [List.replicate_succ]
    unfold Machine.run
    rw [hs]
    dsimp only
    rw [this]
    rfl

theorem run_append {s s1 s2 : LSt Nat Nat Nat} {a b : List (Label Nat)} {o1 o2 : List (Obs Nat Nat)} (h1 : Machine.run demoStep s a = some (s1, o1)) (h2 : Machine.run demoStep s1 b = some (s2, o2)) :
    Machine.run demoStep s (a ++ b) = some (s2, o1 ++ o2) := by
  induction a generalizing s o1 with
  | nil => cases h1; exact h2
  | cons l a ih =>
    rw [List.cons_append]
    unfold Machine.run at h1 ⊢
    split at h1
    · cases h1
    · rename_i s3 o3 hs3
      split at h1
      · cases h1
      · rename_i s4 o4 hr
        cases h1
        rw [ih hr]
        simp

/-- A state with nothing but the directory, what is remembered, the phase and the channel. -/
def quietState (n : Nat) (q : List FsEvent) (ph : Phase Nat Nat) (pol : List (Str × Nat)) (chan : List Nat) : LSt Nat Nat Nat := ⟨one n, true, q, ph, pol, chan⟩

def polls1000 : List (Label Nat) := List.replicate 1000 .poll

def tenSeconds : List (Obs Nat Nat) := List.replicate 1000 .polled

theorem run_polls (n : Nat) (q : List FsEvent) (y : Nat) (pol : List (Str × Nat)) (chan : List Nat) :
    Machine.run demoStep (quietState n q (.draining 0 (y + 1)) pol chan) (polls1000) = some (quietState n q .listing pol chan, tenSeconds) := by
  have := polls (s := quietState n q (.draining 0 (y + 1)) pol chan) (i := 0) (y := y + 1) 999 rfl rfl
  rw [if_pos (Nat.succ_pos y)] at this
  exact this

/-- Polls are no runs of the compiler. -/
theorem many_attempts : tenSeconds.filterMap attemptOf = [] := by
  unfold tenSeconds
  generalize 1000 = n
  induction n with
  | zero => rfl
  | succ n ih => rw [List.replicate_succ]; exact ih

theorem mem_many {o : Obs Nat Nat} (h : o ∈ tenSeconds) : o = .polled := List.eq_of_mem_replicate h

/-! ### A run that settles -/

/-- Started, watching, and the file changes from 1 to 2. -/
def before : List (Label Nat) := [.start, .add, .change (one 2) [wrote]]

def beforeObs : List (Obs Nat Nat) := [.changed (one 1) (one 2) [wrote]]

theorem before_run : Machine.run demoStep (init (one 1)) before = some (quietState 2 [wrote] .idle [] [], beforeObs) := rfl

/-- The round that follows. -/
def roundLabels : List (Label Nat) := [.recv] ++ (polls1000 ++ [.list, .sum, .sum, .ask, .opens, .read, .read])

def roundObs : List (Obs Nat Nat) := [.received wrote] ++ (tenSeconds ++ [.listed, .attempted [("p.yaml".toList, some 2)] (some 2) true])

theorem round_run : Machine.run demoStep (quietState 2 [wrote] .idle [] []) roundLabels = some (quietState 2 [] .idle [("p.yaml".toList, 2)] [2], roundObs) :=
  run_append (s1 := quietState 2 [] (.draining 0 1) [] []) rfl (run_append (run_polls 2 [] 0 [] []) rfl)

theorem before_regular : Regular demoAge beforeObs := by
  intro d d' es h
  cases List.mem_singleton.1 h
  exact ⟨one_plain 2, one_reported 1 2, one_forward (by decide)⟩

/-- `settles` applies: the monitor has compiled the directory as it is. -/
example : ∃ got room, lastAttempt (beforeObs ++ roundObs) = some (got, demoCompile got, room) ∧ ReadFrom (one 2) got ∧
    ∀ p, demoCompile got = some p → room = true → (adopted (beforeObs ++ roundObs) ++ [2]).getLast? = some p := by
  have hx : Exec id demoCompile (one 1) beforeObs (quietState 2 [wrote] .idle [] []) := Machine.exec_of_run before_run
  have hin : ∀ l ∈ roundLabels, Inner l := by
    intro l hl
    rcases List.mem_append.1 hl with hl | hl
    · rw [List.mem_singleton.1 hl]; exact .inl trivial
    · rcases List.mem_append.1 hl with hl | hl
      · rw [List.eq_of_mem_replicate hl]; exact .inl trivial
      · simp at hl
        rcases hl with rfl | rfl | rfl | rfl | rfl <;> exact .inl trivial
  have hrun : Running (quietState 2 [wrote] .idle [] []) := ⟨(fun h => by cases h), (fun h => by cases h)⟩
  have := settles hx (one_plain 1) before_regular demoAge_inj (fun b b' h => h) hrun hin round_run
  refine this.2.2 ?_ (one_usable 2) ⟨wrote, List.mem_append_right _ (List.mem_append_left _ (List.mem_singleton.2 rfl)), p_yaml, .inr (.inl rfl)⟩
  refine (settled_iff ⟨(fun h => by cases h), (fun h => by cases h)⟩).2 ⟨rfl, rfl⟩

/-! ### When the latest policies are not adopted -/

/-- **C99** A file changed after the first compilation and before the directory is watched (`NewLocalPolicyMonitor`, `Init`, `StartMonitor`) goes unnoticed: the monitor settles without having compiled it. -/
theorem change_before_watch_missed : ∃ (tr : List (Obs Nat Nat)) (s : LSt Nat Nat Nat), Exec id demoCompile (one 1) tr s ∧ Regular demoAge tr ∧ Running s ∧ s.watching = true ∧ Settled id demoCompile s ∧
    Usable s.dir ∧ s.dir = one 2 ∧ lastAttempt tr = none := by
  refine ⟨[.changed (one 1) (one 2) [wrote]], quietState 2 [] .idle [] [], Machine.exec_of_run (ls := [.change (one 2) [wrote], .start, .add]) rfl, before_regular, ⟨(fun h => by cases h), (fun h => by cases h)⟩, rfl, ?_,
    one_usable 2, rfl, rfl⟩
  exact (settled_iff ⟨(fun h => by cases h), (fun h => by cases h)⟩).2 ⟨rfl, rfl⟩

/-- **C99** A file that changes between its checksum and its compilation, and later changes back, leaves the policies in between in force, although every change was reported. -/
theorem change_back_missed : ∃ (tr : List (Obs Nat Nat)) (s : LSt Nat Nat Nat), Exec id demoCompile (one 1) tr s ∧
    (∀ d d' es, Obs.changed d d' es ∈ tr → Plain d' ∧ Reported d d' es) ∧ Running s ∧ Settled id demoCompile s ∧ Usable s.dir ∧ Told tr ∧ s.dir = one 2 ∧
    lastAttempt tr = some ([("p.yaml".toList, some 3)], some 3, true) ∧ s.chan = [3] := by
  have r1 := run_append (a := [.recv]) (s := quietState 2 [wrote] .idle [] []) (s1 := quietState 2 [] (.draining 0 1) [] []) (o1 := [.received wrote]) rfl (run_polls 2 [] 0 [] [])
  have r2 : Machine.run demoStep (quietState 2 [] .listing [] []) [.list, .sum, .sum, .change (one 3) [wrote], .ask, .opens, .read, .read, .change (one 2) [wrote], .recv, .drain] =
      some (quietState 2 [] (.draining 0 2) [("p.yaml".toList, 2)] [3],
        [.listed, .changed (one 2) (one 3) [wrote], .attempted [("p.yaml".toList, some 3)] (some 3) true, .changed (one 3) (one 2) [wrote], .received wrote, .received wrote]) := rfl
  have r3 := run_append r2 (run_polls 2 [] 1 [("p.yaml".toList, 2)] [3])
  have r4 : Machine.run demoStep (quietState 2 [] .listing [("p.yaml".toList, 2)] [3]) [.list, .sum, .sum] = some (quietState 2 [] .idle [("p.yaml".toList, 2)] [3], [.listed]) := rfl
  have r := run_append before_run (run_append r1 (run_append r3 r4))
  refine ⟨_, _, Machine.exec_of_run r, ?_, ⟨(fun h => by cases h), (fun h => by cases h)⟩, (settled_iff ⟨(fun h => by cases h), (fun h => by cases h)⟩).2 ⟨rfl, rfl⟩, one_usable 2, ?_, rfl, ?_, rfl⟩
  · intro d d' es h
    have h : (d, d', es) = (one 1, one 2, [wrote]) ∨ (d, d', es) = (one 2, one 3, [wrote]) ∨ (d, d', es) = (one 3, one 2, [wrote]) := by
      have no : Obs.changed d d' es ∉ tenSeconds := fun h => by cases mem_many h
      simp only [List.mem_append, no, or_false, beforeObs, List.mem_cons, List.not_mem_nil] at h
      rcases h with h | h | (h | h | h | h | h | h) | h <;> cases h <;> simp
    rcases h with h | h | h <;> cases h
    · exact ⟨one_plain 2, one_reported 1 2⟩
    · exact ⟨one_plain 3, one_reported 2 3⟩
    · exact ⟨one_plain 2, one_reported 3 2⟩
  · exact ⟨wrote, List.mem_append_right _ (List.mem_append_left _ (List.mem_append_left _ (List.mem_singleton.2 rfl))), p_yaml, .inr (.inl rfl)⟩
  · unfold lastAttempt
    simp only [List.filterMap_append, many_attempts, List.append_nil]
    rfl

/-- **C99** Making an unreadable file readable is not noticed: a change of mode is not an event that counts. -/
theorem chmod_missed : ∃ (tr : List (Obs Nat Nat)) (s : LSt Nat Nat Nat), Exec id demoCompile (one 1) tr s ∧ Running s ∧ Settled id demoCompile s ∧ Usable s.dir ∧ s.dir = one 2 ∧ Told tr ∧
    lastAttempt tr = some ([("p.yaml".toList, none)], none, true) ∧ s.chan = [] := by
  have r0 : Machine.run demoStep (init (one 1)) [.start, .add, .change [⟨"p.yaml".toList, 0, none⟩] [wrote], .recv] =
      some (⟨[⟨"p.yaml".toList, 0, none⟩], true, [], .draining 0 1, [], []⟩, [.changed (one 1) [⟨"p.yaml".toList, 0, none⟩] [wrote], .received wrote]) := rfl
  have r1 : Machine.run demoStep ⟨[⟨"p.yaml".toList, 0, none⟩], true, [], .draining 0 1, [], []⟩ polls1000 = some (⟨[⟨"p.yaml".toList, 0, none⟩], true, [], .listing, [], []⟩, tenSeconds) := by
    have := polls (s := ⟨[⟨"p.yaml".toList, 0, none⟩], true, [], .draining 0 1, [], []⟩) (i := 0) (y := 1) 999 rfl rfl
    rw [if_pos (by decide)] at this
    exact this
  have r2 : Machine.run demoStep ⟨[⟨"p.yaml".toList, 0, none⟩], true, [], .listing, [], []⟩ [.list, .sum, .ask, .opens, .read, .read, .change (one 2) [⟨"p.yaml".toList, 16⟩], .recv] =
      some (quietState 2 [] (.draining 0 0) [] [], [.listed, .attempted [("p.yaml".toList, none)] none true, .changed [⟨"p.yaml".toList, 0, none⟩] (one 2) [⟨"p.yaml".toList, 16⟩], .received ⟨"p.yaml".toList, 16⟩]) := rfl
  have r3 : Machine.run demoStep (quietState 2 [] (.draining 0 0) [] []) polls1000 = some (quietState 2 [] .idle [] [], tenSeconds) := by
    have := polls (s := quietState 2 [] (.draining 0 0) [] []) (i := 0) (y := 0) 999 rfl rfl
    rw [if_neg (by decide)] at this
    exact this
  have r := run_append r0 (run_append r1 (run_append r2 r3))
  refine ⟨_, _, Machine.exec_of_run r, ⟨(fun h => by cases h), (fun h => by cases h)⟩, (settled_iff ⟨(fun h => by cases h), (fun h => by cases h)⟩).2 ⟨rfl, rfl⟩, one_usable 2, rfl, ?_, ?_, rfl⟩
  · exact ⟨wrote, List.mem_append_left _ (by simp), p_yaml, .inr (.inl rfl)⟩
  · unfold lastAttempt
    simp only [List.filterMap_append, many_attempts, List.append_nil]
    rfl

/-- A change and its event, received at once. -/
def storm : Nat → List (Label Nat)
  | 0 => []
  | n + 1 => .change (one n) [wrote] :: .drain :: storm n

/-- **C99** As long as events keep coming the round does not end, and the policy engine's `Cleanup` waits: for every number of events. -/
theorem cleanup_waits_for_the_storm (n : Nat) : ∃ (s : LSt Nat Nat Nat) (os : List (Obs Nat Nat)),
    Machine.run demoStep (init (one 1)) ([.start, .add, .change (one 2) [wrote], .recv] ++ storm n) = some (s, os) ∧ os.countP isPolled = 0 ∧ os.length = 2 + 2 * n ∧ demoStep s .stop = none := by
  have key : ∀ (s : LSt Nat Nat Nat) (y : Nat), s.phase = .draining 0 y → s.watching = true → s.queue = [] → ∃ (s' : LSt Nat Nat Nat) (os : List (Obs Nat Nat)),
      Machine.run demoStep s (storm n) = some (s', os) ∧ os.countP isPolled = 0 ∧ os.length = 2 * n ∧ demoStep s' .stop = none := by
    induction n with
    | zero =>
      intro s y hp _ _
      refine ⟨s, [], rfl, rfl, rfl, ?_⟩
      change step id demoCompile s .stop = none
      unfold step; rw [hp]
    | succ n ih =>
      intro s y hp hw hq
      obtain ⟨s', os, h1, h2, h3, h4⟩ := ih ⟨one n, true, [], .draining 0 (count wrote y), s.policies, s.chan⟩ (count wrote y) rfl rfl rfl
      refine ⟨s', [.changed s.dir (one n) [wrote], .received wrote] ++ os, ?_, ?_, ?_, h4⟩
      · have : Machine.run demoStep s [.change (one n) [wrote], .drain] = some (⟨one n, true, [], .draining 0 (count wrote y), s.policies, s.chan⟩, [.changed s.dir (one n) [wrote], .received wrote]) := by
          obtain ⟨dir, watching, queue, phase, policies, chan⟩ := s
          subst hp hw hq
          rfl
        exact run_append this h1
      · rw [List.countP_append, h2]; rfl
      · rw [List.length_append, h3]; change 2 + 2 * n = _; omega
  obtain ⟨s', os, h1, h2, h3, h4⟩ := key (quietState 2 [] (.draining 0 1) [] []) 1 rfl rfl rfl
  refine ⟨s', beforeObs ++ [.received wrote] ++ os, run_append (s1 := quietState 2 [] (.draining 0 1) [] []) rfl h1, ?_, ?_, h4⟩
  · rw [List.countP_append, h2]; rfl
  · rw [List.length_append, h3]; change 2 + 2 * n = _; omega

end Verif.Monitor.Live
