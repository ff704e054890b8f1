import Verif.Base.Snoc
import Verif.Monitor.LiveInv
/-! C99: the policy monitor settles on the policies of the directory. -/
namespace Verif.Monitor.Live
open Verif.Monitor

variable {B C P : Type} [DecidableEq C] {sha : B → C} {compile : List (Str × Option B) → Option P} {age : Str → Option (Option B) → Nat}

/-! ### Specification -/

/-- Steps of the monitor's goroutine. -/
def Mine : Label B → Prop
  | .recv => True
  | .drain => True
  | .poll => True
  | .list => True
  | .sum => True
  | .ask => True
  | .opens => True
  | .read => True
  | _ => False

/-- Steps of the monitor's goroutine and of the policy engine taking interpreters. -/
def Inner (l : Label B) : Prop := Mine l ∨ l = .take

/-- The goroutine runs. -/
def Running (s : LSt B C P) : Prop := s.phase ≠ .off ∧ s.phase ≠ .ended

/-- The goroutine can do nothing until something happens outside. -/
def Settled (sha : B → C) (compile : List (Str × Option B) → Option P) (s : LSt B C P) : Prop := ∀ l, Mine l → step sha compile s l = none

/-- The monitor has been told of a change of a policy file. -/
def Told (tr : List (Obs B P)) : Prop := ∃ e, Obs.received e ∈ tr ∧ Yaml e.name ∧ (e.op = opCreate ∨ e.op = opWrite ∨ e.op = opRemove ∨ e.op = opRename)

/-- Counting observations. -/
def isPolled : Obs B P → Bool
  | .polled => true
  | _ => false

def isListed : Obs B P → Bool
  | .listed => true
  | _ => false

def isAttempted : Obs B P → Bool
  | .attempted .. => true
  | _ => false

/-- Paths of the current round not read yet. -/
def unread (s : LSt B C P) : Nat :=
  match s.phase with
  | .summing todo _ _ => todo.length
  | .reading todo _ => todo.length
  | _ => 0

def isTake : Label B → Bool
  | .take => true
  | _ => false

/-! ### The trace -/

theorem pushed_append (a b : List (Obs B P)) : pushed (a ++ b) = pushed a ++ pushed b := List.filterMap_append

theorem adopted_append (a b : List (Obs B P)) : adopted (a ++ b) = adopted a ++ adopted b := List.filterMap_append

/-- What each step does to the interpreters. -/
theorem step_chan {s s' : LSt B C P} {l : Label B} {os : List (Obs B P)} (hs : step sha compile s l = some (s', os)) :
    (∃ got r room, os = [.attempted got r room] ∧ r = compile got ∧ room = decide (s.chan.length < 10) ∧ s'.chan = s.chan ++ pushed os) ∨
    (∃ r, os = [.taken r] ∧ s.chan = r :: s'.chan) ∨
    (os.filterMap attemptOf = [] ∧ pushed os = [] ∧ adopted os = [] ∧ s'.chan = s.chan ∧ os.length ≤ 1) := by
  unfold step at hs
  cases l with
  | change d es => cases hs; exact .inr (.inr ⟨rfl, rfl, rfl, rfl, by simp⟩)
  | start => dsimp only at hs; split at hs <;> cases hs; exact .inr (.inr ⟨rfl, rfl, rfl, rfl, by simp⟩)
  | add => dsimp only at hs; split at hs <;> cases hs; exact .inr (.inr ⟨rfl, rfl, rfl, rfl, by simp⟩)
  | recv => dsimp only at hs; split at hs <;> cases hs; exact .inr (.inr ⟨rfl, rfl, rfl, rfl, by simp⟩)
  | drain => dsimp only at hs; split at hs <;> cases hs; exact .inr (.inr ⟨rfl, rfl, rfl, rfl, by simp⟩)
  | poll => dsimp only at hs; split at hs <;> cases hs; exact .inr (.inr ⟨rfl, rfl, rfl, rfl, by simp⟩)
  | list =>
    dsimp only at hs
    split at hs
    · split at hs <;> cases hs <;> exact .inr (.inr ⟨rfl, rfl, rfl, rfl, by simp⟩)
    · cases hs
  | sum =>
    dsimp only at hs
    split at hs
    · cases hs; exact .inr (.inr ⟨rfl, rfl, rfl, rfl, by simp⟩)
    · split at hs <;> cases hs <;> exact .inr (.inr ⟨rfl, rfl, rfl, rfl, by simp⟩)
    · cases hs
  | ask => dsimp only at hs; split at hs <;> cases hs; exact .inr (.inr ⟨rfl, rfl, rfl, rfl, by simp⟩)
  | opens =>
    dsimp only at hs
    split at hs
    · split at hs <;> cases hs <;> exact .inr (.inr ⟨rfl, rfl, rfl, rfl, by simp⟩)
    · cases hs
  | read =>
    dsimp only at hs
    split at hs
    · split at hs
      · rename_i hc
        cases hs
        exact .inl ⟨_, _, _, rfl, hc.symm, rfl, (List.append_nil _).symm⟩
      · rename_i hc
        split at hs
        · rename_i hl
          cases hs
          exact .inl ⟨_, _, _, rfl, hc.symm, (decide_eq_true hl).symm, rfl⟩
        · rename_i hl
          cases hs
          exact .inl ⟨_, _, _, rfl, hc.symm, (decide_eq_false hl).symm, (List.append_nil _).symm⟩
    · cases hs; exact .inr (.inr ⟨rfl, rfl, rfl, rfl, by simp⟩)
    · cases hs
  | take =>
    dsimp only at hs
    split at hs
    · rename_i hc; cases hs; exact .inr (.inl ⟨_, rfl, hc⟩)
    · cases hs
  | stop => dsimp only at hs; split at hs <;> cases hs; exact .inr (.inr ⟨rfl, rfl, rfl, rfl, by simp⟩)

/-- **C99** Interpreters are adopted in the order they were compiled in, none twice: those adopted and those still in the channel are those pushed; at most ten wait. -/
theorem in_order {d : List (FileEnt B)} {tr : List (Obs B P)} {s : LSt B C P} (h : Exec sha compile d tr s) : adopted tr ++ s.chan = pushed tr ∧ s.chan.length ≤ 10 := by
  induction h with
  | nil => exact ⟨rfl, by simp [init]⟩
  | @snoc tr s l s' os hx hs ih =>
    rw [adopted_append, pushed_append, ← ih.1]
    rcases step_chan hs with ⟨got, r, room, rfl, -, hroom, hc⟩ | ⟨r, rfl, hc⟩ | ⟨-, h1, h2, hc, -⟩
    · rw [hc]
      refine ⟨by simp [adopted], ?_⟩
      cases r with
      | none => rw [List.length_append]; exact ih.2
      | some r =>
        cases room with
        | false => rw [List.length_append]; exact ih.2
        | true =>
          rw [List.length_append]
          have : s.chan.length < 10 := of_decide_eq_true hroom.symm
          change s.chan.length + 1 ≤ 10
          omega
    · rw [hc]
      refine ⟨by simp [adopted, pushed], ?_⟩
      have := ih.2; rw [hc] at this; simp at this; omega
    · rw [h1, h2, hc]; exact ⟨by simp, ih.2⟩

/-- **C99** Every run of the compiler yields what the compiler makes of the files read; its result finds room in the channel exactly when fewer than ten interpreters pushed before have not been adopted. -/
theorem attempts_faithful {d : List (FileEnt B)} {tr : List (Obs B P)} {s : LSt B C P} (h : Exec sha compile d tr s) {pre post : List (Obs B P)} {got : List (Str × Option B)} {r : Option P} {room : Bool}
    (ht : tr = pre ++ .attempted got r room :: post) : r = compile got ∧ (room = true ↔ (pushed pre).length < (adopted pre).length + 10) := by
  induction h generalizing post with
  | nil => cases pre <;> cases ht
  | @snoc tr s l s' os hx hs ih =>
    have hsnoc := Verif.snocInduction (P := fun post => (∃ post' o, post = post' ++ [o]) ∨ post = []) (.inr rfl) (fun l a _ => .inl ⟨l, a, rfl⟩) post
    have hshape : os = [] ∨ ∃ o, os = [o] := by
      rcases step_chan hs with ⟨got', r', room', he, -⟩ | ⟨_, he, -⟩ | ⟨-, -, -, -, hl⟩
      · exact .inr ⟨_, he⟩
      · exact .inr ⟨_, he⟩
      · match os, hl with
        | [], _ => exact .inl rfl
        | [o], _ => exact .inr ⟨o, rfl⟩
    rcases hshape with rfl | ⟨o, rfl⟩
    · rw [List.append_nil] at ht; exact ih ht
    · rcases hsnoc with ⟨post', o', rfl⟩ | rfl
      · have : tr ++ [o] = (pre ++ .attempted got r room :: post') ++ [o'] := by rw [ht]; simp
        exact ih (List.append_inj_left' this rfl)
      · obtain ⟨rfl, ho⟩ := List.append_inj' ht rfl
        obtain rfl := (List.cons.inj ho).1
        rcases step_chan hs with ⟨got', r', room', he, hr, hroom, -⟩ | ⟨_, he, -⟩ | ⟨he, -⟩
        · cases he
          refine ⟨hr, ?_⟩
          have := in_order hx
          rw [hroom, decide_eq_true_iff, ← this.1, List.length_append]
          omega
        · cases he
        · cases he

/-- The latest run of the compiler, in the trace. -/
theorem last_in {tr : List (Obs B P)} {got : List (Str × Option B)} {r : Option P} {room : Bool} (h : lastAttempt tr = some (got, r, room)) :
    ∃ pre post, tr = pre ++ .attempted got r room :: post ∧ post.filterMap attemptOf = [] := by
  induction tr using Verif.snocInduction with
  | nil => cases h
  | snoc tr o ih =>
    by_cases ho : ∃ got r room, o = .attempted got r room
    · obtain ⟨got', r', room', rfl⟩ := ho
      rw [last_attempted] at h
      cases h
      exact ⟨tr, [], rfl, rfl⟩
    · have ho : ∀ got r room, o ≠ .attempted got r room := fun a b c e => ho ⟨a, b, c, e⟩
      rw [last_other ho] at h
      obtain ⟨pre, post, rfl, hp⟩ := ih h
      refine ⟨pre, post ++ [o], by simp, ?_⟩
      rw [List.filterMap_append, hp]
      cases o with
      | attempted a b c => exact absurd rfl (ho a b c)
      | _ => rfl

theorem pushed_none {post : List (Obs B P)} (h : post.filterMap attemptOf = []) : pushed post = [] := by
  induction post with
  | nil => rfl
  | cons o post ih =>
    cases o with
    | attempted a b c => cases h
    | _ => exact ih h

/-- **C99** If the latest run of the compiler succeeded and found room, its result is the last to be adopted, or has been adopted last. -/
theorem latest_pushed {d : List (FileEnt B)} {tr : List (Obs B P)} {s : LSt B C P} (h : Exec sha compile d tr s) {got : List (Str × Option B)} {p : P}
    (hl : lastAttempt tr = some (got, some p, true)) : (adopted tr ++ s.chan).getLast? = some p := by
  rw [(in_order h).1]
  obtain ⟨pre, post, rfl, hp⟩ := last_in hl
  have e : pushed (pre ++ .attempted got (some p) true :: post) = pushed pre ++ [p] := by
    rw [pushed_append]
    change pushed pre ++ (p :: pushed post) = _
    rw [pushed_none hp]
  rw [e, List.getLast?_concat]

/-! ### Up to date -/

theorem join_sha (hsha : ∀ b b', sha b = sha b' → b = b') {x y : Option (Option B)} (hx : x ≠ some none) (hy : y ≠ some none) (h : x.join.map sha = y.join.map sha) : x = y := by
  match x, y, hx, hy with
  | none, none, _, _ => rfl
  | some none, _, hx, _ => exact absurd rfl hx
  | _, some none, _, hy => exact absurd rfl hy
  | none, some (some b), _, _ => cases h
  | some (some b), none, _, _ => cases h
  | some (some b), some (some b'), _, _ => rw [hsha b b' (Option.some.inj h)]

/-- **C99** In the `select`, told of a change before and with no change waiting: the latest run of the compiler read the directory as it is. -/
theorem up_to_date {d : List (FileEnt B)} {tr : List (Obs B P)} {s : LSt B C P} (h : Exec sha compile d tr s) (hd : Plain d) (hreg : Regular age tr) (inj : ∀ p x y, age p x = age p y → x = y)
    (hsha : ∀ b b', sha b = sha b' → b = b') (hp : s.phase = .idle) (hl : Obs.listed ∈ tr) (hc : Calm s.queue) (hu : Usable s.dir) :
    ∃ got room, lastAttempt tr = some (got, compile got, room) ∧ ReadFrom s.dir got := by
  have hi := (inv_exec inj hd h hreg).phase
  rw [hp] at hi
  classical
  obtain ⟨ha, hq⟩ := hi
  rcases hq hl hc with hq | hq
  · exact absurd hu hq
  rcases ha with ha | ⟨rc, hk, p, hy, hlt⟩ | ⟨rc, gc, got, r, room, hk, hla, hg⟩
  · obtain ⟨⟨p, b, hy, hb⟩, -⟩ := hu
    have := hq p hy
    rw [ha, hb] at this
    cases this
  · have e : rc p = look s.dir p := join_sha hsha (hk p hy).1 (hu.2 p hy) ((hk p hy).2.symm.trans (hq p hy))
    rw [e] at hlt
    exact absurd hlt (Nat.lt_irrefl _)
  · have e : ∀ p, Yaml p → rc p = look s.dir p := fun p hy => join_sha hsha (hk p hy).1 (hu.2 p hy) ((hk p hy).2.symm.trans (hq p hy))
    have hg' := fun p hy => hg.done p hy (by simp)
    have eg : ∀ p, Yaml p → gc p = look s.dir p := fun p hy => inj p _ _ (Nat.le_antisymm (hg' p hy).2.1 (by rw [← e p hy]; exact (hg' p hy).1))
    obtain ⟨pre, post, ht, -⟩ := last_in hla
    have hr := (attempts_faithful h ht).1
    rw [hr] at hla
    refine ⟨got, room, hla, hg.nodup, ?_, ?_⟩
    · intro p v hm
      have hy := hg.yaml _ hm
      obtain ⟨h1, x, hx, hx1, hx2⟩ := (hg' p hy).2.2.1 v (lookup_of_mem hg.nodup hm)
      rw [e p hy] at hx1
      rw [eg p hy] at hx2 h1
      have ex : x = look s.dir p := inj p _ _ (Nat.le_antisymm hx2 hx1)
      rw [ex] at hx
      obtain ⟨w, hw⟩ := Option.ne_none_iff_exists'.1 hx
      rw [hw] at h1
      have h1 : v = w := h1
      refine ⟨hy, by rw [hw, h1], ?_⟩
      intro hv
      exact hu.2 p hy (by rw [hw, ← h1, hv])
    · intro p b hy hb
      have hne : got.lookup p ≠ none := by
        intro hn
        have := (hg' p hy).2.2.2 hn
        rw [eg p hy, hb] at this
        cases this
      obtain ⟨v, hv⟩ := Option.ne_none_iff_exists'.1 hne
      have := ((hg' p hy).2.2.1 v hv).1
      rw [eg p hy, hb] at this
      have hv' : v = some b := this
      rw [hv'] at hv
      exact mem_of_lookup hv

/-! ### Rounds -/

/-- A round: it opened with an event, then came so many polls, and neither listing nor compiler. -/
def Round (tr : List (Obs B P)) (n : Nat) : Prop :=
  ∃ a e b, tr = a ++ .received e :: b ∧ b.countP isPolled = n ∧ ∀ o ∈ b, isListed o = false ∧ isAttempted o = false

theorem round_snoc {tr : List (Obs B P)} {n : Nat} (h : Round tr n) {o : Obs B P} (h1 : isListed o = false) (h2 : isAttempted o = false) : Round (tr ++ [o]) (if isPolled o then n + 1 else n) := by
  obtain ⟨a, e, b, rfl, hn, hb⟩ := h
  refine ⟨a, e, b ++ [o], by simp, ?_, ?_⟩
  · rw [List.countP_append, hn]
    cases h : isPolled o <;> simp [h]
  · intro o' ho'
    rcases List.mem_append.1 ho' with ho' | ho'
    · exact hb o' ho'
    · rw [List.mem_singleton.1 ho']; exact ⟨h1, h2⟩

/-- Counts of a trace: attempts, listings, polls, and whether something was told. -/
structure Tally where
  a : Nat
  l : Nat
  p : Nat

def tally (tr : List (Obs B P)) : Tally := ⟨tr.countP isAttempted, tr.countP isListed, tr.countP isPolled⟩

/-- Counts and phases. -/
def Flow (t : Tally) (told : Prop) (round : Nat → Prop) : Phase B C → Prop
  | .draining i y => t.a ≤ t.l ∧ pollLimit * t.l + i ≤ t.p ∧ i < pollLimit ∧ (told → 0 < t.l ∨ 0 < y) ∧ round i
  | .listing => t.a ≤ t.l ∧ pollLimit * (t.l + 1) ≤ t.p ∧ round pollLimit
  | .summing _ _ _ => t.a + 1 ≤ t.l ∧ pollLimit * t.l ≤ t.p
  | .asking => t.a + 1 ≤ t.l ∧ pollLimit * t.l ≤ t.p
  | .opening => t.a + 1 ≤ t.l ∧ pollLimit * t.l ≤ t.p
  | .reading _ _ => t.a + 1 ≤ t.l ∧ pollLimit * t.l ≤ t.p
  | _ => t.a ≤ t.l ∧ pollLimit * t.l ≤ t.p ∧ (told → 0 < t.l)

theorem tally_append (tr os : List (Obs B P)) : tally (tr ++ os) = ⟨(tally tr).a + os.countP isAttempted, (tally tr).l + os.countP isListed, (tally tr).p + os.countP isPolled⟩ := by
  unfold tally
  simp only [List.countP_append]

theorem told_other {tr : List (Obs B P)} {o : Obs B P} (ho : ∀ e, o = .received e → hasModifiedYaml e = false) (h : Told (tr ++ [o])) : Told tr := by
  obtain ⟨e, he, hy, hop⟩ := h
  rcases List.mem_append.1 he with he | he
  · exact ⟨e, he, hy, hop⟩
  · have := ho e (List.mem_singleton.1 he).symm
    rw [relevant hy hop] at this
    cases this

theorem flow_neutral {tr : List (Obs B P)} {o : Obs B P} {ph : Phase B C} (h : Flow (tally tr) (Told tr) (Round tr) ph) (h1 : isListed o = false) (h2 : isAttempted o = false) (h3 : isPolled o = false)
    (ho : ∀ e, o = .received e → hasModifiedYaml e = false) : Flow (tally (tr ++ [o])) (Told (tr ++ [o])) (Round (tr ++ [o])) ph := by
  have et : tally (tr ++ [o]) = tally tr := by
    rw [tally_append]
    simp [h1, h2, h3]
  have hr : ∀ n, Round tr n → Round (tr ++ [o]) n := by
    intro n hn
    have := round_snoc hn h1 h2
    rw [h3] at this
    exact this
  rw [et]
  cases ph with
  | draining i y => exact ⟨h.1, h.2.1, h.2.2.1, fun t => h.2.2.2.1 (told_other ho t), hr _ h.2.2.2.2⟩
  | listing => exact ⟨h.1, h.2.1, hr _ h.2.2⟩
  | off => exact ⟨h.1, h.2.1, fun t => h.2.2 (told_other ho t)⟩
  | idle => exact ⟨h.1, h.2.1, fun t => h.2.2 (told_other ho t)⟩
  | ended => exact ⟨h.1, h.2.1, fun t => h.2.2 (told_other ho t)⟩
  | _ => exact h

theorem count_le (e : FsEvent) (y : Nat) : y ≤ count e y ∧ (hasModifiedYaml e = true → 0 < count e y) := by
  unfold count
  split
  · exact ⟨Nat.le_succ _, fun _ => Nat.succ_pos _⟩
  · rename_i h; exact ⟨Nat.le_refl _, fun h' => absurd h' h⟩

theorem told_recv {tr : List (Obs B P)} {e : FsEvent} (h : Told (tr ++ [.received e])) : Told tr ∨ hasModifiedYaml e = true := by
  cases he : hasModifiedYaml e with
  | true => exact .inr rfl
  | false => exact .inl (told_other (fun e' h' => by cases h'; exact he) h)

theorem flow {d : List (FileEnt B)} {tr : List (Obs B P)} {s : LSt B C P} (h : Exec sha compile d tr s) : Flow (tally tr) (Told tr) (Round tr) s.phase := by
  induction h with
  | nil => exact ⟨Nat.le_refl _, Nat.le_refl _, fun ⟨e, he, _⟩ => by cases he⟩
  | @snoc tr s l s' os hx hs ih =>
    unfold step at hs
    cases l with
    | change d es => cases hs; exact flow_neutral ih rfl rfl rfl (fun e h => by cases h)
    | start =>
      dsimp only at hs; split at hs <;> cases hs
      rename_i hp
      rw [hp] at ih; rw [List.append_nil]; exact ih
    | add =>
      dsimp only at hs; split at hs <;> cases hs
      rw [List.append_nil]; exact ih
    | recv =>
      dsimp only at hs; split at hs <;> cases hs
      rename_i e q hp hq
      rw [hp] at ih
      obtain ⟨h1, h2, h3⟩ := ih
      have et : tally (tr ++ [Obs.received e]) = tally tr := by rw [tally_append]; rfl
      rw [et]
      refine ⟨h1, h2, by decide, ?_, tr, e, [], rfl, rfl, fun o ho => by cases ho⟩
      intro t
      rcases told_recv t with t | t
      · exact .inl (h3 t)
      · exact .inr ((count_le e 0).2 t)
    | drain =>
      dsimp only at hs; split at hs <;> cases hs
      rename_i i y e q hp hq
      rw [hp] at ih
      obtain ⟨h1, h2, h3, h4, h5⟩ := ih
      have et : tally (tr ++ [Obs.received e]) = tally tr := by rw [tally_append]; rfl
      rw [et]
      refine ⟨h1, h2, h3, ?_, round_snoc h5 rfl rfl⟩
      intro t
      rcases told_recv t with t | t
      · exact (h4 t).imp_right (fun h => Nat.lt_of_lt_of_le h (count_le e y).1)
      · exact .inr ((count_le e y).2 t)
    | poll =>
      dsimp only at hs; split at hs <;> cases hs
      rename_i i y hp
      rw [hp] at ih
      obtain ⟨h1, h2, h3, h4, h5⟩ := ih
      have et : tally (tr ++ [Obs.polled]) = ⟨(tally tr).a, (tally tr).l, (tally tr).p + 1⟩ := by rw [tally_append]; rfl
      have h5 : Round (tr ++ [Obs.polled]) (i + 1) := round_snoc h5 rfl rfl
      have h4 : Told (tr ++ [Obs.polled]) → 0 < (tally tr).l ∨ 0 < y := fun t => h4 (told_other (fun e h => by cases h) t)
      rw [et]
      dsimp only
      split
      · rename_i hlt
        exact ⟨h1, Nat.succ_le_succ h2, hlt, h4, h5⟩
      · rename_i hlt
        have hi : i + 1 = pollLimit := by omega
        split
        · refine ⟨h1, ?_, by rw [← hi]; exact h5⟩
          dsimp only
          rw [Nat.mul_succ]
          omega
        · rename_i hy
          exact ⟨h1, Nat.le_trans (Nat.le_trans (Nat.le_add_right _ _) h2) (Nat.le_succ _), fun t => (h4 t).resolve_right hy⟩
    | list =>
      dsimp only at hs
      split at hs
      · rename_i hp
        rw [hp] at ih
        obtain ⟨h1, h2, -⟩ := ih
        have et : tally (tr ++ [Obs.listed]) = ⟨(tally tr).a, (tally tr).l + 1, (tally tr).p⟩ := by rw [tally_append]; rfl
        split at hs <;> cases hs <;> rw [et]
        · exact ⟨Nat.le_succ_of_le h1, h2, fun _ => Nat.succ_pos _⟩
        · exact ⟨Nat.succ_le_succ h1, h2⟩
      · cases hs
    | sum =>
      dsimp only at hs
      split at hs
      · rename_i hp
        rw [hp] at ih; cases hs; rw [List.append_nil]
        dsimp only
        split
        · exact ih
        · exact ⟨Nat.le_of_succ_le ih.1, ih.2, fun _ => Nat.lt_of_lt_of_le (Nat.succ_pos _) ih.1⟩
      · rename_i hp
        rw [hp] at ih
        split at hs <;> cases hs <;> rw [List.append_nil] <;> exact ih
      · cases hs
    | ask =>
      dsimp only at hs; split at hs <;> cases hs
      rename_i hp
      rw [hp] at ih; rw [List.append_nil]
      dsimp only
      split
      · exact ⟨Nat.le_of_succ_le ih.1, ih.2, fun _ => Nat.lt_of_lt_of_le (Nat.succ_pos _) ih.1⟩
      · exact ih
    | opens =>
      dsimp only at hs
      split at hs
      · rename_i hp
        rw [hp] at ih
        split at hs <;> cases hs <;> rw [List.append_nil]
        · exact ⟨Nat.le_of_succ_le ih.1, ih.2, fun _ => Nat.lt_of_lt_of_le (Nat.succ_pos _) ih.1⟩
        · exact ih
      · cases hs
    | read =>
      dsimp only at hs
      split at hs
      · rename_i got hp
        rw [hp] at ih
        have key : ∀ r room, Flow (C := C) (tally (tr ++ [Obs.attempted got r room])) (Told (tr ++ [Obs.attempted got r room])) (Round (tr ++ [Obs.attempted got r room])) (.idle : Phase B C) := by
          intro r room
          have et : tally (tr ++ [Obs.attempted got r room]) = ⟨(tally tr).a + 1, (tally tr).l, (tally tr).p⟩ := by rw [tally_append]; rfl
          rw [et]
          exact ⟨ih.1, ih.2, fun _ => Nat.lt_of_lt_of_le (Nat.succ_pos _) ih.1⟩
        split at hs
        · cases hs; exact key _ _
        · split at hs <;> cases hs <;> exact key _ _
      · rename_i hp
        rw [hp] at ih; cases hs; rw [List.append_nil]; exact ih
      · cases hs
    | take =>
      dsimp only at hs
      split at hs <;> cases hs
      exact flow_neutral ih rfl rfl rfl (fun e h => by cases h)
    | stop =>
      dsimp only at hs; split at hs <;> cases hs
      rename_i hp
      rw [hp] at ih
      exact flow_neutral (ph := .ended) ih rfl rfl rfl (fun e h => by cases h)

theorem listed_of_pos {tr : List (Obs B P)} (h : 0 < tr.countP isListed) : Obs.listed ∈ tr := by
  obtain ⟨o, ho, hl⟩ := List.countP_pos_iff.1 h
  cases o with
  | listed => exact ho
  | _ => cases hl

/-- **C99** The compiler runs at most once per listing, and a listing takes at least one thousand polls, that is ten seconds: however fast files change, policies are compiled at most every ten seconds. -/
theorem at_most_every_ten_seconds {d : List (FileEnt B)} {tr : List (Obs B P)} {s : LSt B C P} (h : Exec sha compile d tr s) :
    tr.countP isAttempted ≤ tr.countP isListed ∧ 1000 * tr.countP isListed ≤ tr.countP isPolled := by
  have := flow h
  cases hp : s.phase with
  | draining i y => rw [hp] at this; exact ⟨this.1, Nat.le_trans (Nat.le_add_right _ _) this.2.1⟩
  | listing => rw [hp] at this; exact ⟨this.1, Nat.le_trans (Nat.mul_le_mul_left _ (Nat.le_succ _)) this.2.1⟩
  | summing a b c => rw [hp] at this; exact ⟨Nat.le_of_succ_le this.1, this.2⟩
  | asking => rw [hp] at this; exact ⟨Nat.le_of_succ_le this.1, this.2⟩
  | opening => rw [hp] at this; exact ⟨Nat.le_of_succ_le this.1, this.2⟩
  | reading a b => rw [hp] at this; exact ⟨Nat.le_of_succ_le this.1, this.2⟩
  | off => rw [hp] at this; exact ⟨this.1, this.2.1⟩
  | idle => rw [hp] at this; exact ⟨this.1, this.2.1⟩
  | ended => rw [hp] at this; exact ⟨this.1, this.2.1⟩

/-- The step of an observation. -/
theorem at_obs {d : List (FileEnt B)} {tr : List (Obs B P)} {s : LSt B C P} (h : Exec sha compile d tr s) {pre post : List (Obs B P)} {o : Obs B P} (ht : tr = pre ++ o :: post) :
    ∃ s1 l s2, Exec sha compile d pre s1 ∧ step sha compile s1 l = some (s2, [o]) := by
  induction h generalizing post with
  | nil => cases pre <;> cases ht
  | @snoc tr s l s' os hx hs ih =>
    have hsnoc := Verif.snocInduction (P := fun post => (∃ post' o, post = post' ++ [o]) ∨ post = []) (.inr rfl) (fun l a _ => .inl ⟨l, a, rfl⟩) post
    have hshape : os = [] ∨ ∃ o, os = [o] := by
      rcases step_chan hs with ⟨got', r', room', he, -⟩ | ⟨_, he, -⟩ | ⟨-, -, -, -, hl⟩
      · exact .inr ⟨_, he⟩
      · exact .inr ⟨_, he⟩
      · match os, hl with
        | [], _ => exact .inl rfl
        | [o], _ => exact .inr ⟨o, rfl⟩
    rcases hshape with rfl | ⟨o1, rfl⟩
    · rw [List.append_nil] at ht; exact ih ht
    · rcases hsnoc with ⟨post', o', rfl⟩ | rfl
      · have : tr ++ [o1] = (pre ++ o :: post') ++ [o'] := by rw [ht]; simp
        exact ih (List.append_inj_left' this rfl)
      · obtain ⟨rfl, ho⟩ := List.append_inj' ht rfl
        obtain rfl := (List.cons.inj ho).1
        exact ⟨s, l, s', hx, hs⟩

/-- **C99** The files are listed exactly one thousand polls (ten seconds) after the event that opened the round, whatever was received meanwhile; nothing was listed or compiled in between. -/
theorem ten_seconds_after_first_event {d : List (FileEnt B)} {tr : List (Obs B P)} {s : LSt B C P} (h : Exec sha compile d tr s) {pre post : List (Obs B P)} (ht : tr = pre ++ .listed :: post) :
    ∃ a e b, pre = a ++ .received e :: b ∧ b.countP isPolled = 1000 ∧ ∀ o ∈ b, isListed o = false ∧ isAttempted o = false := by
  obtain ⟨s1, l, s2, hx, hs⟩ := at_obs h ht
  have hf := flow hx
  have hp : s1.phase = .listing := by
    unfold step at hs
    cases l with
    | list =>
      dsimp only at hs
      split at hs
      · rename_i hp; exact hp
      · cases hs
    | change d es => cases hs
    | sum =>
      dsimp only at hs
      split at hs
      · cases hs
      · split at hs <;> cases hs
      · cases hs
    | opens =>
      dsimp only at hs
      split at hs
      · split at hs <;> cases hs
      · cases hs
    | read =>
      dsimp only at hs
      split at hs
      · split at hs
        · cases hs
        · split at hs <;> cases hs
      · cases hs
      · cases hs
    | _ => dsimp only at hs; split at hs <;> cases hs
  rw [hp] at hf
  exact hf.2.2

/-! ### Settling -/

/-- Steps one event can cause at most, with so many files. -/
def perEvent (n : Nat) : Nat := 2 * n + 1010

/-- Steps left of a round. -/
def rest (n : Nat) : Phase B C → Nat
  | .draining i _ => (pollLimit - i) + 2 * n + 8
  | .listing => 2 * n + 7
  | .summing todo _ _ => todo.length + n + 6
  | .asking => n + 5
  | .opening => n + 4
  | .reading todo _ => todo.length + 3
  | _ => 0

def fuel (s : LSt B C P) : Nat := s.queue.length * perEvent s.dir.length + rest s.dir.length s.phase

theorem list_short (d : List (FileEnt B)) : ((listFilePaths d).map (·.path)).length ≤ d.length := by rw [List.length_map]; exact List.length_filter_le _ _

theorem listRec_short (d : List (FileEnt B)) : ((listRecursiveFilePaths d).map (·.path)).length ≤ d.length := by rw [List.length_map]; exact List.length_filter_le _ _

theorem fuel_step {s s' : LSt B C P} {l : Label B} {os : List (Obs B P)} (hl : Mine l) (hs : step sha compile s l = some (s', os)) : fuel s' < fuel s ∧ s'.dir = s.dir ∧ (s'.phase ≠ .off ∧ s'.phase ≠ .ended) := by
  unfold step at hs
  unfold fuel
  cases l with
  | recv =>
    dsimp only at hs; split at hs <;> cases hs
    rename_i e q hp hq
    rw [hp, hq]
    refine ⟨?_, rfl, (fun h => by cases h), (fun h => by cases h)⟩
    change q.length * perEvent s.dir.length + ((1000 - 0) + 2 * s.dir.length + 8) < (q.length + 1) * perEvent s.dir.length + 0
    rw [Nat.add_mul]; unfold perEvent; omega
  | drain =>
    dsimp only at hs; split at hs <;> cases hs
    rename_i i y e q hp hq
    rw [hp, hq]
    refine ⟨?_, rfl, (fun h => by cases h), (fun h => by cases h)⟩
    change q.length * perEvent s.dir.length + rest s.dir.length (.draining i y : Phase B C) < (q.length + 1) * perEvent s.dir.length + rest s.dir.length (.draining i y : Phase B C)
    rw [Nat.add_mul]; unfold perEvent; omega
  | poll =>
    dsimp only at hs; split at hs <;> cases hs
    rename_i i y hp
    rw [hp]
    dsimp only
    split
    · refine ⟨?_, rfl, (fun h => by cases h), (fun h => by cases h)⟩
      unfold rest; dsimp only; omega
    · split
      · refine ⟨?_, rfl, (fun h => by cases h), (fun h => by cases h)⟩
        unfold rest; dsimp only; omega
      · refine ⟨?_, rfl, (fun h => by cases h), (fun h => by cases h)⟩
        unfold rest; dsimp only; omega
  | list =>
    dsimp only at hs
    split at hs
    · rename_i hp
      have hlen := list_short s.dir
      rw [hp]
      split at hs <;> cases hs
      · refine ⟨?_, rfl, (fun h => by cases h), (fun h => by cases h)⟩
        unfold rest; dsimp only; omega
      · rename_i hll
        rw [hll] at hlen
        refine ⟨?_, rfl, (fun h => by cases h), (fun h => by cases h)⟩
        unfold rest; dsimp only; omega
    · cases hs
  | sum =>
    dsimp only at hs
    split at hs
    · rename_i hp
      cases hs; rw [hp]
      dsimp only
      split
      · refine ⟨?_, rfl, (fun h => by cases h), (fun h => by cases h)⟩
        unfold rest; dsimp only; omega
      · refine ⟨?_, rfl, (fun h => by cases h), (fun h => by cases h)⟩
        unfold rest; dsimp only; omega
    · rename_i hp
      rw [hp]
      split at hs <;> cases hs
      · refine ⟨?_, rfl, (fun h => by cases h), (fun h => by cases h)⟩
        unfold rest; dsimp only; omega
      · refine ⟨?_, rfl, (fun h => by cases h), (fun h => by cases h)⟩
        unfold rest; dsimp only [List.length_cons]; omega
    · cases hs
  | ask =>
    dsimp only at hs; split at hs <;> cases hs
    rename_i hp
    rw [hp]
    dsimp only
    split
    · refine ⟨?_, rfl, (fun h => by cases h), (fun h => by cases h)⟩
      unfold rest; dsimp only; omega
    · refine ⟨?_, rfl, (fun h => by cases h), (fun h => by cases h)⟩
      unfold rest; dsimp only; omega
  | opens =>
    dsimp only at hs
    split at hs
    · rename_i hp
      have hlen := listRec_short s.dir
      rw [hp]
      split at hs <;> cases hs
      · refine ⟨?_, rfl, (fun h => by cases h), (fun h => by cases h)⟩
        unfold rest; dsimp only; omega
      · rename_i hll
        rw [hll] at hlen
        refine ⟨?_, rfl, (fun h => by cases h), (fun h => by cases h)⟩
        unfold rest; dsimp only; omega
    · cases hs
  | read =>
    dsimp only at hs
    split at hs
    · rename_i hp
      rw [hp]
      split at hs
      · cases hs
        refine ⟨?_, rfl, (fun h => by cases h), (fun h => by cases h)⟩
        unfold rest; dsimp only; omega
      · split at hs <;> cases hs
        · refine ⟨?_, rfl, (fun h => by cases h), (fun h => by cases h)⟩
          unfold rest; dsimp only; omega
        · refine ⟨?_, rfl, (fun h => by cases h), (fun h => by cases h)⟩
          unfold rest; dsimp only; omega
    · rename_i hp
      rw [hp]; cases hs
      refine ⟨?_, rfl, (fun h => by cases h), (fun h => by cases h)⟩
      unfold rest; dsimp only [List.length_cons]; omega
    · cases hs
  | _ => exact absurd hl (fun h => h)

theorem take_step {s s' : LSt B C P} {os : List (Obs B P)} (hs : step sha compile s .take = some (s', os)) : fuel s' = fuel s ∧ s'.dir = s.dir ∧ s'.phase = s.phase := by
  unfold step at hs
  dsimp only at hs
  split at hs <;> cases hs
  exact ⟨rfl, rfl, rfl⟩

theorem inner_changes {s s' : LSt B C P} {l : Label B} {os : List (Obs B P)} (hl : Inner l) (hs : step sha compile s l = some (s', os)) (d d' : List (FileEnt B)) (es : List FsEvent) :
    Obs.changed d d' es ∉ os := by
  intro hm
  unfold step at hs
  cases l with
  | change => rcases hl with h | h <;> cases h
  | start => rcases hl with h | h <;> cases h
  | add => rcases hl with h | h <;> cases h
  | stop => rcases hl with h | h <;> cases h
  | list =>
    dsimp only at hs
    split at hs
    · split at hs <;> cases hs <;> simp at hm
    · cases hs
  | sum =>
    dsimp only at hs
    split at hs
    · cases hs; cases hm
    · split at hs <;> cases hs <;> cases hm
    · cases hs
  | opens =>
    dsimp only at hs
    split at hs
    · split at hs <;> cases hs <;> cases hm
    · cases hs
  | read =>
    dsimp only at hs
    split at hs
    · split at hs
      · cases hs; simp at hm
      · split at hs <;> cases hs <;> simp at hm
    · cases hs; cases hm
    · cases hs
  | _ => dsimp only at hs; split at hs <;> cases hs <;> simp at hm

theorem run_fuel {s s' : LSt B C P} {ls : List (Label B)} {os : List (Obs B P)} (hl : ∀ l ∈ ls, Inner l) (hrun : Running s) (hr : Machine.run (step sha compile) s ls = some (s', os)) :
    ls.countP (fun l => !isTake l) + fuel s' ≤ fuel s ∧ s'.dir = s.dir ∧ Running s' ∧ ∀ d d' es, Obs.changed d d' es ∉ os := by
  induction ls generalizing s os with
  | nil =>
    cases hr
    exact ⟨by simp, rfl, hrun, fun _ _ _ h => by cases h⟩
  | cons l ls ih =>
    unfold Machine.run at hr
    split at hr
    · cases hr
    · rename_i s1 os1 hs1
      split at hr
      · cases hr
      · rename_i s2 os2 hr2
        cases hr
        have hin := hl l List.mem_cons_self
        have hch := inner_changes hin hs1
        rw [List.countP_cons]
        rcases hin with hm | rfl
        · obtain ⟨h1, h2, h3⟩ := fuel_step hm hs1
          obtain ⟨i1, i2, i3, i4⟩ := ih (fun l h => hl l (List.mem_cons_of_mem _ h)) h3 hr2
          refine ⟨?_, i2.trans h2, i3, fun d d' es h => (List.mem_append.1 h).elim (hch d d' es) (i4 d d' es)⟩
          split <;> omega
        · obtain ⟨h1, h2, h3⟩ := take_step hs1
          obtain ⟨i1, i2, i3, i4⟩ := ih (fun l h => hl l (List.mem_cons_of_mem _ h)) (by unfold Running; rw [h3]; exact hrun) hr2
          refine ⟨?_, i2.trans h2, i3, fun d d' es h => (List.mem_append.1 h).elim (hch d d' es) (i4 d d' es)⟩
          rw [if_neg (by simp [isTake])]
          omega

/-- **C99** A running monitor that can do nothing is in its `select`, with no event waiting: then and only then. -/
theorem settled_iff {s : LSt B C P} (hr : Running s) : Settled sha compile s ↔ s.phase = .idle ∧ s.queue = [] := by
  constructor
  · intro h
    cases hp : s.phase with
    | off => exact absurd hp hr.1
    | ended => exact absurd hp hr.2
    | idle =>
      refine ⟨rfl, ?_⟩
      cases hq : s.queue with
      | nil => rfl
      | cons e q => have := h .recv trivial; unfold step at this; rw [hp, hq] at this; cases this
    | draining i y => have := h .poll trivial; unfold step at this; rw [hp] at this; cases this
    | listing =>
      have := h .list trivial; unfold step at this; rw [hp] at this
      dsimp only at this
      split at this <;> cases this
    | summing todo ch new =>
      have := h .sum trivial; unfold step at this; rw [hp] at this
      cases todo with
      | nil => cases this
      | cons p ps => dsimp only at this; split at this <;> cases this
    | asking => have := h .ask trivial; unfold step at this; rw [hp] at this; cases this
    | opening =>
      have := h .opens trivial; unfold step at this; rw [hp] at this
      dsimp only at this
      split at this <;> cases this
    | reading todo got =>
      have := h .read trivial; unfold step at this; rw [hp] at this
      cases todo with
      | nil =>
        dsimp only at this
        split at this
        · cases this
        · split at this <;> cases this
      | cons p ps => cases this
  · rintro ⟨hp, hq⟩ l hl
    unfold step
    cases l with
    | recv => rw [hp, hq]
    | drain => rw [hp, hq]
    | _ => first | exact absurd hl (fun h => h) | (rw [hp])

/-- **C99** Once the directory stops changing, the monitor settles: it takes at most so many steps (1010 and two per file, for each event waiting, plus those of the round under way), and when it can take no more, the policies compiled last are those of the directory, if they can be read
and the monitor has been told of a change of one; if they compile and there is room in the channel, the policy engine adopts them last. -/
theorem settles {d : List (FileEnt B)} {tr : List (Obs B P)} {s : LSt B C P} (h : Exec sha compile d tr s) (hd : Plain d) (hreg : Regular age tr) (inj : ∀ p x y, age p x = age p y → x = y)
    (hsha : ∀ b b', sha b = sha b' → b = b') (hrun : Running s) {ls : List (Label B)} (hin : ∀ l ∈ ls, Inner l) {s' : LSt B C P} {os : List (Obs B P)}
    (hr : Machine.run (step sha compile) s ls = some (s', os)) :
    s'.dir = s.dir ∧
    ls.countP (fun l => !isTake l) ≤ (s.queue.length + 1) * (2 * s.dir.length + 1010) + unread s ∧
    (Settled sha compile s' → Usable s.dir → Told (tr ++ os) →
      ∃ got room, lastAttempt (tr ++ os) = some (got, compile got, room) ∧ ReadFrom s.dir got ∧
        ∀ p, compile got = some p → room = true → (adopted (tr ++ os) ++ s'.chan).getLast? = some p) := by
  obtain ⟨h1, h2, h3, h4⟩ := run_fuel hin hrun hr
  refine ⟨h2, ?_, ?_⟩
  · have hrest : rest s.dir.length s.phase ≤ perEvent s.dir.length + unread s := by
      unfold rest perEvent unread
      cases s.phase <;> dsimp only [pollLimit] <;> omega
    refine Nat.le_trans (Nat.le_trans (Nat.le_add_right _ _) h1) ?_
    unfold fuel
    change _ ≤ (s.queue.length + 1) * perEvent s.dir.length + _
    rw [Nat.add_mul]
    omega
  · intro hset hu ht
    have hx : Exec sha compile d (tr ++ os) s' := h.append (Machine.exec_of_run hr)
    obtain ⟨hp, hq⟩ := (settled_iff h3).1 hset
    have hf := flow hx
    rw [hp] at hf
    have hreg' : Regular age (tr ++ os) := by
      intro d d' es hm
      rcases List.mem_append.1 hm with hm | hm
      · exact hreg d d' es hm
      · exact absurd hm (h4 d d' es)
    obtain ⟨got, room, hla, hrf⟩ := up_to_date hx hd hreg' inj hsha hp (listed_of_pos (hf.2.2 ht)) (by rw [hq]; exact fun e he => by cases he) (by rw [h2]; exact hu)
    refine ⟨got, room, hla, by rw [← h2]; exact hrf, ?_⟩
    intro p hc hroom
    rw [hc, hroom] at hla
    exact latest_pushed hx hla

/-- **C99** `Cleanup` of the policy engine can stop the monitor exactly when the monitor is in its `select`. -/
theorem stop_iff (s : LSt B C P) : (step sha compile s .stop).isSome = true ↔ s.phase = .idle := by
  unfold step
  dsimp only
  split
  · rename_i h; simp [h]
  · rename_i h
    constructor
    · intro h'; cases h'
    · intro h'; exact absurd h' h

end Verif.Monitor.Live
