import Verif.Pipeline.DriverProps
import Verif.Base.Snoc
/-
C80: stop requests: what an interrupt signal does to the program, and when the socket driver ends after one.
Sources: /repo/driver/main.go:37-57, 136-137; /repo/driver/pipeline/pipeline.go:207-245; /repo/driver/sysflow/streamingdriver.go:80-166.
-/
namespace Verif.Pipeline.Stop

/-! ### Model: signals and the running flag -/

/-- Events of a run of the program that bear on stopping it: the handler goroutine has come to wait for a signal (main.go:43); SIGINT or SIGTERM arrives; the
pipeline object is created (main.go:137); `Init` sets the running flag before it starts a driver (pipeline.go:219). -/
inductive Ev where
  | listening
  | signal
  | created
  | start
deriving DecidableEq, Repr

/-- What they act on: whether the handler waits for a signal, whether there is a pipeline, the running flag. -/
structure SigSt where
  waiting : Bool
  handled : Bool
  created : Bool
  running : Bool
deriving DecidableEq, Repr

/-- Initially. -/
def SigSt.init : SigSt := ⟨false, false, false, false⟩

/-- One event (main.go:39-49, 137; pipeline.go:219, 238-240). The channel for signals has no buffer: a signal that finds nobody waiting is dropped (package os/signal). The handler
receives one signal only. -/
def sigStep (s : SigSt) : Ev → SigSt
  | .listening => if s.handled = true then s else { s with waiting := true }
  | .signal =>
    if s.waiting = true then
      if s.created = true then { s with waiting := false, handled := true, running := false }
      else { s with waiting := false, handled := true }
    else s
  | .created => { s with created := true }
  | .start => { s with running := true }

/-- A history. -/
def sigRun (h : List Ev) : SigSt := h.foldl sigStep SigSt.init

/-! ### Specification -/

/-- The signal after `pre` is the one the handler receives: the handler waits, and no earlier signal found it waiting. -/
def Received (pre : List Ev) : Prop := .listening ∈ pre ∧ ∀ a b, pre = a ++ .signal :: b → .listening ∉ a

/-- In history `h` some signal is a stop request that takes effect for good: it is received, after the pipeline was created, and no driver is started later. -/
def StoppedForGood (h : List Ev) : Prop :=
  ∃ pre post, h = pre ++ .signal :: post ∧ Received pre ∧ .created ∈ pre ∧ .start ∉ post

/-! ### Proofs -/

theorem sigRun_snoc (h : List Ev) (e : Ev) : sigRun (h ++ [e]) = sigStep (sigRun h) e := by simp [sigRun, List.foldl_append]

/-- What the state says about the history. -/
theorem sig_inv (h : List Ev) :
    ((sigRun h).created = true ↔ .created ∈ h) ∧
    ((sigRun h).waiting = true ↔ Received h) ∧
    ((sigRun h).handled = true ↔ ∃ pre post, h = pre ++ .signal :: post ∧ .listening ∈ pre) := by
  induction h using Verif.snocInduction with
  | nil =>
    refine ⟨by simp [sigRun, SigSt.init], ?_, ?_⟩
    · constructor
      · intro h; cases h
      · rintro ⟨h, -⟩; cases h
    · constructor
      · intro h; cases h
      · rintro ⟨pre, post, h, -⟩; simp at h
  | snoc h e ih =>
    obtain ⟨i1, i2, i3⟩ := ih
    rw [sigRun_snoc]
    have hand : ∀ e : Ev, e ≠ .signal → ((∃ pre post, h ++ [e] = pre ++ .signal :: post ∧ .listening ∈ pre) ↔ ∃ pre post, h = pre ++ .signal :: post ∧ .listening ∈ pre) := by
      intro e he
      constructor
      · rintro ⟨pre, post, h1, h2⟩
        rcases List.eq_nil_or_concat post with rfl | ⟨post, x, rfl⟩
        · have := (List.append_inj' h1 rfl).2
          rw [List.cons.injEq] at this
          exact absurd this.1 he
        · rw [List.concat_eq_append, ← List.cons_append, ← List.append_assoc] at h1
          exact ⟨pre, post, (List.append_inj' h1 rfl).1, h2⟩
      · rintro ⟨pre, post, rfl, h2⟩
        exact ⟨pre, post ++ [e], by simp, h2⟩
    have rec1 : ∀ e : Ev, e ≠ .signal → e ≠ .listening → (Received (h ++ [e]) ↔ Received h) := by
      intro e he hl
      constructor
      · rintro ⟨h1, h2⟩
        refine ⟨?_, fun a b hab => h2 a (b ++ [e]) (by rw [hab]; simp)⟩
        rcases List.mem_append.1 h1 with h1 | h1
        · exact h1
        · exact absurd (List.mem_singleton.1 h1).symm hl
      · rintro ⟨h1, h2⟩
        refine ⟨List.mem_append_left _ h1, fun a b hab => ?_⟩
        rcases List.eq_nil_or_concat b with rfl | ⟨b, x, rfl⟩
        · have := (List.append_inj' hab rfl).2
          rw [List.cons.injEq] at this
          exact absurd this.1 he
        · rw [List.concat_eq_append, ← List.cons_append, ← List.append_assoc] at hab
          exact h2 a b (List.append_inj' hab rfl).1
    have hw : (sigRun h).handled = true → ¬ Received h := by
      intro hh hr
      obtain ⟨pre, post, e1, e2⟩ := i3.1 hh
      exact hr.2 pre post e1 e2
    cases e with
    | listening =>
      rw [hand _ (by decide)]
      refine ⟨?_, ?_, ?_⟩
      · unfold sigStep; dsimp only; split <;> (rw [i1]; simp)
      · unfold sigStep
        dsimp only
        have key : Received (h ++ [.listening]) ↔ (sigRun h).handled = false := by
          constructor
          · rintro ⟨-, h2⟩
            cases hh : (sigRun h).handled with
            | false => rfl
            | true =>
              obtain ⟨pre, post, e1, e2⟩ := i3.1 hh
              exact absurd e2 (h2 pre (post ++ [.listening]) (by rw [e1]; simp))
          · intro hh
            refine ⟨by simp, fun a b hab hm => ?_⟩
            rcases List.eq_nil_or_concat b with rfl | ⟨b, x, rfl⟩
            · have := (List.append_inj' hab rfl).2
              rw [List.cons.injEq] at this
              cases this.1
            · rw [List.concat_eq_append, ← List.cons_append, ← List.append_assoc] at hab
              rw [i3.2 ⟨a, b, (List.append_inj' hab rfl).1, hm⟩] at hh
              cases hh
        cases hh : (sigRun h).handled with
        | true =>
          rw [if_pos rfl, key, hh]
          constructor
          · intro hwt; exact absurd (i2.1 hwt) (hw hh)
          · intro hx; cases hx
        | false =>
          rw [if_neg (by decide), key, hh]
          simp
      · unfold sigStep; dsimp only; split <;> exact i3
    | signal =>
      refine ⟨?_, ?_, ?_⟩
      · unfold sigStep
        dsimp only
        split
        · split <;> simp [i1]
        · simp [i1]
      · have h1 : ¬ Received (h ++ [.signal]) ∨ (sigRun h).waiting = false ∧ .listening ∉ h := by
          by_cases hm : Ev.listening ∈ h
          · exact .inl (fun hr => hr.2 h [] rfl hm)
          · refine .inr ⟨?_, hm⟩
            cases hwt : (sigRun h).waiting with
            | false => rfl
            | true => exact absurd (i2.1 hwt).1 hm
        have h2 : (sigStep (sigRun h) .signal).waiting = false := by
          unfold sigStep
          dsimp only
          split
          · split <;> rfl
          · simpa using ‹¬ (sigRun h).waiting = true›
        rw [h2]
        constructor
        · intro h; cases h
        · intro hr
          rcases h1 with h1 | ⟨-, h1⟩
          · exact absurd hr h1
          · rcases List.mem_append.1 hr.1 with hm | hm
            · exact absurd hm h1
            · cases List.mem_singleton.1 hm
      · have h2 : (sigStep (sigRun h) .signal).handled = true ↔ (sigRun h).waiting = true ∨ (sigRun h).handled = true := by
          unfold sigStep
          dsimp only
          split
          · rename_i hwt
            split <;> simp [hwt]
          · rename_i hwt
            simp [hwt]
        rw [h2, i2, i3]
        constructor
        · rintro (hr | ⟨pre, post, rfl, hm⟩)
          · exact ⟨h, [], rfl, hr.1⟩
          · exact ⟨pre, post ++ [.signal], by simp, hm⟩
        · rintro ⟨pre, post, hab, hm⟩
          rcases List.eq_nil_or_concat post with rfl | ⟨post, x, rfl⟩
          · have := (List.append_inj' hab rfl).1
            subst this
            by_cases hr : Received h
            · exact .inl hr
            · right
              refine Classical.byContradiction fun hno => hr ⟨hm, fun a b hab hma => hno ⟨a, b, hab, hma⟩⟩
          · rw [List.concat_eq_append, ← List.cons_append, ← List.append_assoc] at hab
            exact .inr ⟨pre, post, (List.append_inj' hab rfl).1, hm⟩
    | created =>
      refine ⟨by simp [sigStep], ?_, ?_⟩
      · rw [rec1 _ (by decide) (by decide)]; exact i2
      · rw [hand _ (by decide)]; exact i3
    | start =>
      refine ⟨by simp [sigStep, i1], ?_, ?_⟩
      · rw [rec1 _ (by decide) (by decide)]; exact i2
      · rw [hand _ (by decide)]; exact i3

/-- **C80** The running flag is set exactly if a driver has been started and there has been no stop request that takes effect for good. -/
theorem running_iff (h : List Ev) : (sigRun h).running = true ↔ .start ∈ h ∧ ¬ StoppedForGood h := by
  induction h using Verif.snocInduction with
  | nil =>
    constructor
    · intro h; cases h
    · rintro ⟨h, -⟩; cases h
  | snoc h e ih =>
    rw [sigRun_snoc]
    obtain ⟨i1, i2, i3⟩ := sig_inv h
    have stop : ∀ e : Ev, e ≠ .signal → e ≠ .start → (StoppedForGood (h ++ [e]) ↔ StoppedForGood h) := by
      intro e he hs
      constructor
      · rintro ⟨pre, post, hab, h1, h2, h3⟩
        rcases List.eq_nil_or_concat post with rfl | ⟨post, x, rfl⟩
        · have := (List.append_inj' hab rfl).2
          rw [List.cons.injEq] at this
          exact absurd this.1 he
        · rw [List.concat_eq_append, ← List.cons_append, ← List.append_assoc] at hab
          refine ⟨pre, post, (List.append_inj' hab rfl).1, h1, h2, fun hm => h3 ?_⟩
          rw [List.concat_eq_append]
          exact List.mem_append_left _ hm
      · rintro ⟨pre, post, rfl, h1, h2, h3⟩
        refine ⟨pre, post ++ [e], by simp, h1, h2, fun hm => ?_⟩
        rcases List.mem_append.1 hm with hm | hm
        · exact h3 hm
        · exact hs (List.mem_singleton.1 hm).symm
    cases e with
    | listening =>
      rw [stop _ (by decide) (by decide)]
      have : (sigStep (sigRun h) .listening).running = (sigRun h).running := by unfold sigStep; dsimp only; split <;> rfl
      rw [this, ih]
      simp
    | created =>
      rw [stop _ (by decide) (by decide)]
      show (sigRun h).running = true ↔ _
      rw [ih]
      simp
    | start =>
      show true = true ↔ _
      refine ⟨fun _ => ⟨by simp, ?_⟩, fun _ => rfl⟩
      rintro ⟨pre, post, hab, -, -, h3⟩
      rcases List.eq_nil_or_concat post with rfl | ⟨post, x, rfl⟩
      · have := (List.append_inj' hab rfl).2
        rw [List.cons.injEq] at this
        cases this.1
      · rw [List.concat_eq_append, ← List.cons_append, ← List.append_assoc] at hab
        have := (List.append_inj' hab rfl).2
        rw [List.cons.injEq] at this
        exact h3 (by rw [← this.1]; simp)
    | signal =>
      have back : StoppedForGood (h ++ [.signal]) ↔ StoppedForGood h ∨ (Received h ∧ .created ∈ h) := by
        constructor
        · rintro ⟨pre, post, hab, h1, h2, h3⟩
          rcases List.eq_nil_or_concat post with rfl | ⟨post, x, rfl⟩
          · have := (List.append_inj' hab rfl).1
            subst this
            exact .inr ⟨h1, h2⟩
          · rw [List.concat_eq_append, ← List.cons_append, ← List.append_assoc] at hab
            refine .inl ⟨pre, post, (List.append_inj' hab rfl).1, h1, h2, fun hm => h3 ?_⟩
            rw [List.concat_eq_append]
            exact List.mem_append_left _ hm
        · rintro (⟨pre, post, rfl, h1, h2, h3⟩ | ⟨h1, h2⟩)
          · exact ⟨pre, post ++ [.signal], by simp, h1, h2, by simpa using h3⟩
          · exact ⟨h, [], rfl, h1, h2, by simp⟩
      rw [back]
      unfold sigStep
      dsimp only
      by_cases hwt : (sigRun h).waiting = true
      · rw [if_pos hwt]
        by_cases hc : (sigRun h).created = true
        · rw [if_pos hc]
          constructor
          · intro h; cases h
          · rintro ⟨-, hno⟩
            exact absurd (.inr ⟨i2.1 hwt, i1.1 hc⟩) hno
        · rw [if_neg hc]
          show (sigRun h).running = true ↔ _
          rw [ih]
          constructor
          · rintro ⟨h1, h2⟩
            exact ⟨List.mem_append_left _ h1, fun h => h.elim h2 (fun h => hc (i1.2 h.2))⟩
          · rintro ⟨h1, h2⟩
            exact ⟨by simpa using h1, fun h => h2 (.inl h)⟩
      · rw [if_neg hwt, ih]
        constructor
        · rintro ⟨h1, h2⟩
          exact ⟨List.mem_append_left _ h1, fun h => h.elim h2 (fun h => hwt (i2.2 h.1))⟩
        · rintro ⟨h1, h2⟩
          exact ⟨by simpa using h1, fun h => h2 (.inl h)⟩

/-- **C80** Once the last driver has been started a cleared flag stays cleared: what the driver sees when it looks at the flag again and again
meets `StaysStopped`, on which C54, C65 and C78 rest. `post` is what happens from then on, `at_ k` how much of it has happened at the `k`-th look. -/
theorem flag_stays_stopped (pre post : List Ev) (hpost : .start ∉ post) (at_ : Nat → Nat) (hmono : ∀ k, at_ k ≤ at_ (k + 1)) :
    StaysStopped (fun k => (sigRun (pre ++ .start :: post.take (at_ k))).running) := by
  intro k hk
  dsimp only at hk ⊢
  have hstart : ∀ n, Ev.start ∈ pre ++ .start :: post.take n := fun n => by simp
  have h1 : StoppedForGood (pre ++ .start :: post.take (at_ k)) := by
    refine Classical.byContradiction fun hno => ?_
    rw [(running_iff _).2 ⟨hstart _, hno⟩] at hk
    cases hk
  have h2 : StoppedForGood (pre ++ .start :: post.take (at_ (k + 1))) := by
    obtain ⟨a, b, e, r1, r2, r3⟩ := h1
    obtain ⟨c, hc⟩ : ∃ c, post.take (at_ (k + 1)) = post.take (at_ k) ++ c := by
      obtain ⟨c, hc⟩ := List.take_prefix_take_left (l := post) (hmono k)
      exact ⟨c, hc.symm⟩
    refine ⟨a, b ++ c, by rw [hc, ← List.cons_append, ← List.append_assoc, e]; simp, r1, r2, fun hm => ?_⟩
    rcases List.mem_append.1 hm with hm | hm
    · exact r3 hm
    · exact hpost (List.mem_of_mem_take (by rw [hc]; exact List.mem_append_right _ hm))
  cases hr : (sigRun (pre ++ .start :: post.take (at_ (k + 1)))).running with
  | false => rfl
  | true => exact absurd h2 ((running_iff _).1 hr).2

/-- **C80**, limit: a signal received while the program is still starting is lost for good, and no later signal can stop the program. -/
theorem early_signal_lost (pre post : List Ev) (hr : Received pre) (h2 : .created ∉ pre ∨ .start ∈ post) (h3 : .start ∈ pre ++ .signal :: post) : (sigRun (pre ++ .signal :: post)).running = true := by
  rw [running_iff]
  refine ⟨h3, ?_⟩
  rintro ⟨a, b, e, r1, r2, r3⟩
  -- the received signal is unique
  rcases List.append_eq_append_iff.1 e with ⟨c, rfl, hc⟩ | ⟨c, rfl, hc⟩
  · cases c with
    | nil =>
      simp only [List.nil_append, List.cons.injEq, true_and] at hc
      subst hc
      rw [List.append_nil] at r2
      rcases h2 with h2 | h2
      · exact h2 r2
      · exact r3 h2
    | cons x c =>
      rw [List.cons_append, List.cons.injEq] at hc
      obtain ⟨rfl, hc⟩ := hc
      exact r1.2 pre c rfl hr.1
  · cases c with
    | nil =>
      simp only [List.nil_append, List.cons.injEq, true_and] at hc
      subst hc
      rw [List.append_nil] at h2
      rcases h2 with h2 | h2
      · exact h2 r2
      · exact r3 h2
    | cons x c =>
      rw [List.cons_append, List.cons.injEq] at hc
      obtain ⟨rfl, hc⟩ := hc
      exact hr.2 a c rfl r1.1

/-- A signal between the creation of the pipeline and the start of the driver: the flag is set, and the second signal does nothing. -/
example : (sigRun [.listening, .created, .signal, .start, .signal, .signal]).running = true ∧ Received [.listening, .created] := by
  refine ⟨by decide, by decide, ?_⟩
  intro a b h
  rcases a with _ | ⟨x, _ | ⟨y, _ | ⟨z, a⟩⟩⟩ <;> simp at h

/-- A signal while the driver runs stops it. -/
example : (sigRun [.listening, .created, .start, .signal]).running = false := by decide

/-! ### Model: the socket driver and `Shutdown` -/

/-- Where the socket driver is (streamingdriver.go:121-157): at the test of the outer loop, in `AcceptUnix`, at the test of the inner loop, in `readMsgUnix`,
sending the record, or past the loop. -/
inductive Loc where
  | outer
  | accepting
  | inner
  | reading
  | sending
  | past
deriving DecidableEq, Repr

/-- State: the running flag; where the driver is; whether the connection in `s.conn` is open; connections waiting to be accepted; messages waiting on the
connection; whether the peer has hung up; records sent. -/
structure Sock where
  running : Bool
  loc : Loc
  isOpen : Bool
  waiting : Nat
  msgs : Nat
  hungUp : Bool
  sent : Nat
deriving DecidableEq, Repr

/-- Steps: somebody connects, sends a message, hangs up; `Shutdown` clears the flag (pipeline.go:240), and then closes the connection (pipeline.go:241-243,
streamingdriver.go:161-166); the driver goes on. -/
inductive SockL where
  | connect
  | message
  | hangUp
  | clearFlag
  | closeConn
  | go
deriving DecidableEq, Repr

/-- Steps of the driver (streamingdriver.go:121-157); `none`: it is blocked. The listening socket is not closed by `Shutdown`. A read from a closed connection fails; otherwise messages are read before the
end of the stream. Sending is taken not to block for ever (C78). -/
def sockGo (s : Sock) : Option Sock :=
  match s.loc with
  | .outer => some (if s.running = true then { s with loc := .accepting } else { s with loc := .past })
  | .accepting => if 0 < s.waiting then some { s with loc := .inner, isOpen := true, waiting := s.waiting - 1, msgs := 0, hungUp := false } else none
  | .inner => some (if s.running = true then { s with loc := .reading } else { s with loc := .outer, isOpen := false })
  | .reading =>
    if s.isOpen = false then some { s with loc := .outer }
    else if 0 < s.msgs then some { s with loc := .sending, msgs := s.msgs - 1 }
    else if s.hungUp = true then some { s with loc := .outer, isOpen := false }
    else none
  | .sending => some { s with loc := .inner, sent := s.sent + 1 }
  | .past => none

/-- One step. -/
def sockStep (s : Sock) : SockL → Option Sock
  | .connect => some { s with waiting := s.waiting + 1 }
  | .message => some { s with msgs := s.msgs + 1 }
  | .hangUp => some { s with hungUp := true }
  | .clearFlag => some { s with running := false }
  | .closeConn => some { s with isOpen := false }
  | .go => sockGo s

/-- A sequence of steps; a step of a blocked driver is no step. -/
def sockRun (s : Sock) : List SockL → Sock
  | [] => s
  | l :: ls => sockRun ((sockStep s l).getD s) ls

/-- Number of steps the driver has made in a sequence (attempts while blocked do not count). -/
def moves (s : Sock) : List SockL → Nat
  | [] => 0
  | l :: ls => (if l = .go ∧ sockGo s ≠ none then 1 else 0) + moves ((sockStep s l).getD s) ls

/-! ### Proofs -/

/-- How many steps the driver can still make once the flag is cleared. -/
def Loc.rank : Loc → Nat
  | .past => 0
  | .outer => 1
  | .inner => 2
  | .accepting => 3
  | .sending => 3
  | .reading => 4

theorem go_rank (s t : Sock) (h : sockGo s = some t) (hr : s.running = false) :
    t.loc.rank < s.loc.rank ∧ t.running = false ∧ (t.sent = s.sent ∨ s.loc = .sending ∧ t.sent = s.sent + 1) := by
  obtain ⟨running, loc, isOpen, waiting, msgs, hungUp, sent⟩ := s
  change running = false at hr
  subst hr
  unfold sockGo at h
  cases loc <;> dsimp only at h
  · cases h; exact ⟨Nat.lt_succ_self _, rfl, .inl rfl⟩
  · split at h
    · cases h; exact ⟨Nat.lt_succ_self _, rfl, .inl rfl⟩
    · cases h
  · cases h; exact ⟨Nat.lt_succ_self _, rfl, .inl rfl⟩
  · split at h
    · cases h; exact ⟨show 1 < 4 by decide, rfl, .inl rfl⟩
    · split at h
      · cases h; exact ⟨show 3 < 4 by decide, rfl, .inl rfl⟩
      · split at h
        · cases h; exact ⟨show 1 < 4 by decide, rfl, .inl rfl⟩
        · cases h
  · cases h; exact ⟨show 2 < 3 by decide, rfl, .inr ⟨rfl, rfl⟩⟩
  · cases h

theorem env_loc (s : Sock) (l : SockL) (hl : l ≠ .go) : ∃ t, sockStep s l = some t ∧ t.loc = s.loc ∧ t.sent = s.sent ∧ (s.running = false → t.running = false) := by
  cases l
  case go => exact absurd rfl hl
  all_goals exact ⟨_, rfl, rfl, rfl, fun h => by first | exact h | rfl⟩

/-- **C80** Once the running flag has been cleared, the socket driver makes at most four more steps and sends at most one more record, whatever
happens around it. -/
theorem few_steps_after_stop (ls : List SockL) : ∀ s : Sock, s.running = false → moves s ls ≤ s.loc.rank ∧ s.loc.rank ≤ 4 ∧ (sockRun s ls).sent ≤ s.sent + 1 := by
  have key : ∀ (ls : List SockL) (s : Sock), s.running = false → moves s ls ≤ s.loc.rank ∧
      (sockRun s ls).sent ≤ s.sent + (if 3 ≤ s.loc.rank then 1 else 0) := by
    intro ls
    induction ls with
    | nil => intro s _; exact ⟨Nat.zero_le _, Nat.le_add_right _ _⟩
    | cons l ls ih =>
      intro s hr
      unfold moves sockRun
      by_cases hl : l = .go
      · subst hl
        show (if _ ∧ _ then 1 else 0) + moves ((sockGo s).getD s) ls ≤ _ ∧ (sockRun ((sockGo s).getD s) ls).sent ≤ _
        cases hg : sockGo s with
        | none =>
          obtain ⟨i1, i2⟩ := ih s hr
          simp only [ne_eq, not_true_eq_false, and_false, if_false, Option.getD_none]
          exact ⟨by omega, i2⟩
        | some t =>
          obtain ⟨h1, h2, h3⟩ := go_rank s t hg hr
          obtain ⟨i1, i2⟩ := ih t h2
          simp only [Option.getD_some]
          refine ⟨by split <;> omega, ?_⟩
          rcases h3 with h3 | ⟨h3, h4⟩
          · rw [h3] at i2
            refine Nat.le_trans i2 (Nat.add_le_add_left ?_ _)
            split <;> split <;> omega
          · have : t.loc = .inner := by
              unfold sockGo at hg
              rw [h3] at hg
              cases hg
              rfl
            rw [this, h4] at i2
            rw [h3]
            simpa [Loc.rank] using i2
      · obtain ⟨t, e1, e2, e3, e4⟩ := env_loc s l hl
        rw [e1, if_neg (fun h => hl h.1), Option.getD_some]
        obtain ⟨i1, i2⟩ := ih t (e4 hr)
        rw [e2] at i1
        rw [e2, e3] at i2
        exact ⟨by omega, i2⟩
  intro s hr
  obtain ⟨h1, h2⟩ := key ls s hr
  refine ⟨h1, by cases s.loc <;> decide, Nat.le_trans h2 (Nat.add_le_add_left ?_ _)⟩
  split <;> omega

/-- A driver that is not blocked in `AcceptUnix` and whose connection `Shutdown` has closed. -/
def Free (s : Sock) : Prop := s.running = false ∧ (s.loc = .reading → s.isOpen = false) ∧ (s.loc = .accepting → 0 < s.waiting)

/-- **C80** After `Shutdown` (flag cleared, connection closed) the driver can always go on until it is past its loop, unless it is waiting for a
connection and there is none; so four of its steps are enough. -/
theorem stop_ends (s : Sock) (h : Free s) : (s.loc ≠ .past → sockGo s ≠ none) ∧ (∀ l, Free ((sockStep s l).getD s)) := by
  obtain ⟨h1, h2, h3⟩ := h
  constructor
  · intro hp hn
    unfold sockGo at hn
    cases hl : s.loc <;> rw [hl] at hn <;> dsimp only at hn
    · cases hn
    · rw [if_pos (h3 hl)] at hn; cases hn
    · cases hn
    · rw [if_pos (h2 hl)] at hn; cases hn
    · cases hn
    · exact hp hl
  · intro l
    cases l with
    | connect => exact ⟨h1, h2, fun h => Nat.succ_pos _⟩
    | message => exact ⟨h1, h2, h3⟩
    | hangUp => exact ⟨h1, h2, h3⟩
    | clearFlag => exact ⟨rfl, h2, h3⟩
    | closeConn => exact ⟨h1, fun _ => rfl, h3⟩
    | go =>
      show Free ((sockGo s).getD s)
      cases hg : sockGo s with
      | none => exact ⟨h1, h2, h3⟩
      | some t =>
        obtain ⟨_, ht, _⟩ := go_rank s t hg h1
        refine ⟨ht, ?_, ?_⟩
        · intro hl
          exfalso
          unfold sockGo at hg
          cases hs : s.loc <;> rw [hs] at hg <;> dsimp only at hg <;> (try rw [h1] at hg) <;> (repeat' split at hg) <;> cases hg <;> first | contradiction | cases hl
        · intro hl
          exfalso
          unfold sockGo at hg
          cases hs : s.loc <;> rw [hs] at hg <;> dsimp only at hg <;> (try rw [h1] at hg) <;> (repeat' split at hg) <;> cases hg <;> first | contradiction | cases hl

/-- **C80** So if the driver gets its turn four times after `Shutdown`, it is past its loop (and then closes the channel, waits and returns: C65, C78). -/
theorem stop_ends_after_four (ls : List SockL) (s : Sock) (h : Free s) (h4 : 4 ≤ ls.count .go) : (sockRun s ls).loc = .past := by
  have key : ∀ (ls : List SockL) (s : Sock), Free s → s.loc.rank ≤ ls.count .go → (sockRun s ls).loc = .past := by
    intro ls
    induction ls with
    | nil =>
      intro s _ hr
      show s.loc = .past
      cases hl : s.loc <;> rw [hl] at hr <;> first | rfl | (exact absurd hr (by decide))
    | cons l ls ih =>
      intro s hf hr
      obtain ⟨f1, f2⟩ := stop_ends s hf
      unfold sockRun
      refine ih _ (f2 l) ?_
      by_cases hl : l = .go
      · subst hl
        rw [List.count_cons_self] at hr
        show ((sockGo s).getD s).loc.rank ≤ _
        cases hg : sockGo s with
        | none =>
          have : s.loc = .past := Classical.byContradiction fun hp => f1 hp hg
          rw [Option.getD_none, this]
          exact Nat.zero_le _
        | some t =>
          have := (go_rank s t hg hf.1).1
          rw [Option.getD_some]
          omega
      · obtain ⟨t, e1, e2, _⟩ := env_loc s l hl
        rw [e1, Option.getD_some, e2]
        rwa [List.count_cons_of_ne hl] at hr
  exact key ls s h (Nat.le_trans (by cases s.loc <;> decide) h4)

/-- **C80**, limit: a driver that waits for a connection does not end on `Shutdown`: as long as nobody connects it stays there whatever else happens. -/
theorem waiting_driver_not_stopped (ls : List SockL) (hn : .connect ∉ ls) : ∀ s : Sock, s.loc = .accepting → s.waiting = 0 →
    (sockRun s ls).loc = .accepting := by
  induction ls with
  | nil => intro s h _; exact h
  | cons l ls ih =>
    intro s h hw
    have hn' : SockL.connect ∉ ls := fun h => hn (List.mem_cons_of_mem _ h)
    cases l with
    | connect => exact absurd List.mem_cons_self hn
    | message => exact ih hn' _ h hw
    | hangUp => exact ih hn' _ h hw
    | clearFlag => exact ih hn' _ h hw
    | closeConn => exact ih hn' _ h hw
    | go =>
      have : sockGo s = none := by unfold sockGo; rw [h]; dsimp only; rw [if_neg (by omega)]
      show (sockRun ((sockGo s).getD s) ls).loc = _
      rw [this]
      exact ih hn' s h hw

/-- The driver at its start. -/
def Sock.start : Sock := ⟨true, .outer, false, 0, 0, false, 0⟩

/-- After one connection with one message, the peer hangs up, the driver waits for the next connection; a stop request does not end it, but the next connection does. -/
example : (sockRun Sock.start [.connect, .go, .go, .message, .go, .go, .go, .hangUp, .go, .go, .go, .clearFlag, .closeConn, .go, .go]).loc = .accepting ∧
    (sockRun Sock.start [.connect, .go, .go, .message, .go, .go, .go, .hangUp, .go, .go, .go, .clearFlag, .closeConn, .connect, .go, .go, .go]).loc = .past := by decide

/-- A stop request while reading: `Shutdown` frees the driver. -/
example : Free (sockRun Sock.start [.connect, .go, .go, .go, .clearFlag, .closeConn]) ∧
    (sockRun Sock.start [.connect, .go, .go, .go, .clearFlag, .closeConn]).loc = .reading := by
  refine ⟨⟨by decide, by decide, by decide⟩, by decide⟩

end Verif.Pipeline.Stop
