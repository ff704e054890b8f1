import Verif.Monitor.LiveProps
/-
C99: the policy monitor after an edit of the only policy file of a watched directory: a run in which it compiles the new text and pushes what comes of it, and comes to rest.
Sources: /repo/core/policyengine/monitor/localpolicymonitor.go:74-231
-/
namespace Verif.Monitor.Live
open Verif.Monitor

variable {B C P : Type}

/-- A directory with one file. -/
def sole (f : Str) (b : B) : List (FileEnt B) := [⟨f, 0, some b⟩]

/-- The event of a write to it. -/
def writeTo (f : Str) : FsEvent := ⟨f, opWrite⟩

/-- What the watcher and the monitor do: start, watch; the file is written; the event is received, nothing more for ten seconds; the directory is listed, summed and compiled. -/
def editLabels (f : Str) (b : B) : List (Label B) :=
  [.start, .add, .change (sole f b) [writeTo f], .recv] ++ (List.replicate 1000 .poll ++ [.list, .sum, .sum, .ask, .opens, .read, .read])

/-- … and what is seen of it. -/
def editObs (f : Str) (b0 b : B) (p : P) : List (Obs B P) :=
  [.changed (sole f b0) (sole f b) [writeTo f], .received (writeTo f)] ++ (List.replicate 1000 .polled ++ [.listed, .attempted [(f, some b)] (some p) true])

theorem look_sole (f : Str) (b : B) (q : Str) : look (sole f b) q = if q = f then some (some b) else none := by
  unfold look sole
  by_cases h : q = f
  · rw [if_pos h, List.find?_cons_of_pos (by rw [h]; exact beq_self_eq_true _)]; rfl
  · rw [if_neg h, List.find?_cons_of_neg (by
      intro h'
      exact h (beq_iff_eq.1 h').symm)]
    rfl

theorem sole_listed {f : Str} (hf : Yaml f) (b : B) : listFilePaths (sole f b) = sole f b ∧ listRecursiveFilePaths (sole f b) = sole f b := by
  have h := (yaml_iff f).2 hf
  constructor
  · unfold listFilePaths sole
    rw [List.filter_cons_of_pos (by change (true && hasSuffix f ".yaml".toList) = true; rw [h]; rfl)]
    rfl
  · unfold listRecursiveFilePaths sole
    rw [List.filter_cons_of_pos (by change (hasSuffix f ".yaml".toList || hasSuffix f ".yml".toList) = true; rw [h]; rfl)]
    rfl

theorem sole_plain {f : Str} (hf : Yaml f) (b : B) : Plain (sole f b) := by
  refine ⟨List.nodup_cons.2 ⟨List.not_mem_nil, List.nodup_nil⟩, ?_⟩
  intro g hg _
  rw [List.mem_singleton.1 hg]
  exact ⟨rfl, hf⟩

theorem sole_usable {f : Str} (hf : Yaml f) (b : B) : Usable (sole f b) := by
  refine ⟨⟨f, b, hf, by rw [look_sole, if_pos rfl]⟩, ?_⟩
  intro p _ h
  rw [look_sole] at h
  split at h <;> cases h

section
variable [DecidableEq C] {sha : B → C} {compile : List (Str × Option B) → Option P}

theorem run_cons {s s1 s2 : LSt B C P} {l : Label B} {ls : List (Label B)} {o1 o2 : List (Obs B P)} (h1 : step sha compile s l = some (s1, o1)) (h2 : Machine.run (step sha compile) s1 ls = some (s2, o2)) :
    Machine.run (step sha compile) s (l :: ls) = some (s2, o1 ++ o2) := by
  unfold Machine.run
  rw [h1]
  dsimp only
  rw [h2]

/-- Nothing comes for the rest of the ten seconds. -/
theorem run_quiet {d : List (FileEnt B)} {q : List FsEvent} {pol : List (Str × C)} {ch : List P} {y : Nat} (hy : 0 < y) (ls : List (Label B)) (s2 : LSt B C P) (os : List (Obs B P))
    (h : Machine.run (step sha compile) ⟨d, true, q, .listing, pol, ch⟩ ls = some (s2, os)) : ∀ (k i : Nat), i + (k + 1) = pollLimit →
      Machine.run (step sha compile) ⟨d, true, q, .draining i y, pol, ch⟩ (List.replicate (k + 1) .poll ++ ls) = some (s2, List.replicate (k + 1) .polled ++ os) := by
  intro k
  induction k with
  | zero =>
    intro i hi
    refine run_cons (s1 := ⟨d, true, q, .listing, pol, ch⟩) (o1 := [.polled]) ?_ h
    unfold step
    dsimp only
    rw [if_neg (by omega), if_pos hy]
  | succ k ih =>
    intro i hi
    refine run_cons (s1 := ⟨d, true, q, .draining (i + 1) y, pol, ch⟩) (o1 := [.polled]) ?_ (ih (i + 1) (by omega))
    unfold step
    dsimp only
    rw [if_pos (by omega)]

/-- The monitor's run. -/
theorem edit_run {f : Str} (hf : Yaml f) (b0 b : B) {p : P} (hc : compile [(f, some b)] = some p) :
    Machine.run (step sha compile) (init (sole f b0)) (editLabels f b) = some (⟨sole f b, true, [], .idle, [(f, sha b)], [p]⟩, editObs f b0 b p) := by
  obtain ⟨l1, l2⟩ := sole_listed hf b
  have hl : (look (sole f b) f).join = some b := by rw [look_sole, if_pos rfl]; rfl
  have hcount : count (writeTo f) 0 = 1 := by
    unfold count hasModifiedYaml
    rw [if_pos]
    change (true && (hasSuffix f ".yaml".toList || hasSuffix f ".yml".toList)) = true
    rw [(yaml_iff f).2 hf]
    rfl
  unfold editLabels editObs
  refine run_cons (s1 := ⟨sole f b0, false, [], .idle, [], []⟩) (o1 := []) rfl ?_
  refine run_cons (s1 := ⟨sole f b0, true, [], .idle, [], []⟩) (o1 := []) rfl ?_
  refine run_cons (s1 := ⟨sole f b, true, [writeTo f], .idle, [], []⟩) (o1 := [.changed (sole f b0) (sole f b) [writeTo f]]) rfl ?_
  refine run_cons (s1 := ⟨sole f b, true, [], .draining 0 1, [], []⟩) (o1 := [.received (writeTo f)]) ?_ ?_
  · unfold step
    dsimp only
    rw [hcount]
  refine run_quiet (y := 1) (by decide) _ _ _ ?_ 999 0 rfl
  refine run_cons (s1 := ⟨sole f b, true, [], .summing [f] false [], [], []⟩) (o1 := [.listed]) ?_ ?_
  · unfold step
    dsimp only
    rw [l1]
    rfl
  refine run_cons (s1 := ⟨sole f b, true, [], .summing [] true [(f, sha b)], [], []⟩) (o1 := []) ?_ ?_
  · unfold step
    dsimp only
    rw [hl]
    rfl
  refine run_cons (s1 := ⟨sole f b, true, [], .asking, [(f, sha b)], []⟩) (o1 := []) rfl ?_
  refine run_cons (s1 := ⟨sole f b, true, [], .opening, [(f, sha b)], []⟩) (o1 := []) ?_ ?_
  · unfold step
    dsimp only
    rw [l1]
    rfl
  refine run_cons (s1 := ⟨sole f b, true, [], .reading [f] [], [(f, sha b)], []⟩) (o1 := []) ?_ ?_
  · unfold step
    dsimp only
    rw [l2]
    rfl
  refine run_cons (s1 := ⟨sole f b, true, [], .reading [] [(f, some b)], [(f, sha b)], []⟩) (o1 := []) ?_ ?_
  · unfold step
    dsimp only
    rw [hl]
    rfl
  refine run_cons (s2 := ⟨sole f b, true, [], .idle, [(f, sha b)], [p]⟩) (o1 := [.attempted [(f, some b)] (some p) true]) (o2 := []) ?_ rfl
  unfold step
  dsimp only
  rw [hc]
  dsimp only
  rw [if_pos (show ([] : List P).length < chanCap from (by decide : 0 < chanCap))]
  rfl

end

theorem edit_pushed (f : Str) (b0 b : B) (p : P) : pushed (editObs f b0 b p) = [p] := by
  have h : ∀ n, pushed (List.replicate n (Obs.polled : Obs B P)) = [] := by
    intro n
    unfold pushed
    rw [List.filterMap_eq_nil_iff]
    intro o ho
    rw [List.eq_of_mem_replicate ho]
  unfold editObs
  rw [pushed_append, pushed_append, h]
  rfl

theorem edit_told {f : Str} (hf : Yaml f) (b0 b : B) (p : P) : Told (editObs f b0 b p) :=
  ⟨writeTo f, List.mem_append_left _ (List.mem_cons_of_mem _ List.mem_cons_self), hf, .inr (.inl rfl)⟩

theorem edit_regular {f : Str} (hf : Yaml f) {age : Str → Option (Option B) → Nat} {b0 b : B} (ha : age f (some (some b0)) ≤ age f (some (some b))) (p : P) : Regular age (editObs f b0 b p) := by
  intro d d' es h
  have h : (Obs.changed d d' es : Obs B P) = .changed (sole f b0) (sole f b) [writeTo f] := by
    unfold editObs at h
    rcases List.mem_append.1 h with h | h
    · rcases List.mem_cons.1 h with h | h
      · exact h
      · cases List.mem_singleton.1 h
    · rcases List.mem_append.1 h with h | h
      · cases List.eq_of_mem_replicate h
      · rcases List.mem_cons.1 h with h | h
        · cases h
        · cases List.mem_singleton.1 h
  cases h
  refine ⟨sole_plain hf b, ?_, ?_⟩
  · intro q _ hne
    by_cases hq : q = f
    · exact ⟨writeTo f, List.mem_singleton.2 rfl, hq.symm, .inr (.inl rfl)⟩
    · rw [look_sole, look_sole, if_neg hq, if_neg hq] at hne
      exact absurd rfl hne
  · intro q _
    rw [look_sole, look_sole]
    by_cases hq : q = f
    · rw [if_pos hq, if_pos hq, hq]; exact ha
    · rw [if_neg hq, if_neg hq]; exact Nat.le_refl _

end Verif.Monitor.Live
