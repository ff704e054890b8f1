import Verif.Base.AMap
/-
C77: the exit status of the program and what it starts.
Sources: /repo/driver/main.go:51-183, /repo/driver/pipeline/pipeline.go:207-235.
-/
namespace Verif.Pipeline.Main

/-! ### Model -/

/-- What the program does that matters here. -/
inductive MEv where
  | usage
  | printVersion
  | load
  | init (i : Nat)
  | run (i : Nat)
  | spawn (i : Nat)
deriving DecidableEq, Repr

/-- A profile asked for on the command line: not asked for, started or written, or impossible to create or start (main.go:104-133, 168-181). -/
inductive Prof where
  | off
  | done
  | failed
deriving DecidableEq, Repr

/-- A driver of the loaded pipeline: whether its `Init` and its `Run` succeed. -/
structure Drv where
  initOk : Bool
  runOk : Bool
deriving DecidableEq, Repr

/-- `Pipeline.Init` (pipeline.go:207-235) from driver `i` on: what is done, and whether it succeeds. Every driver but the last runs in the background and its
result is dropped. -/
def initDrivers : Nat → List Drv → List MEv × Bool
  | _, [] => ([], true)
  | i, [d] => if d.initOk = false then ([.init i], false) else ([.init i, .run i], d.runOk)
  | i, d :: ds =>
    if d.initOk = false then ([.init i], false)
    else (.init i :: .spawn i :: (initDrivers (i + 1) ds).1, (initDrivers (i + 1) ds).2)

/-- The command line, as far as it matters: flags `-version`, `-test`, and the number of positional arguments. -/
structure Args where
  version : Bool
  test : Bool
  nargs : Nat

/-- `run` (main.go:53-183) and `os.Exit` of its result: what is done and the exit status. `loaded = none`: `Load` failed. -/
def mainRun (a : Args) (cpu trace : Prof) (loaded : Option (List Drv)) (mem : Prof) : List MEv × Nat :=
  if a.version = false ∧ a.test = false ∧ a.nargs < 1 then ([.usage], 1)
  else if a.version = true then ([.printVersion], 0)
  else if cpu = .failed then ([], 1)
  else if trace = .failed then ([], 1)
  else
    match loaded with
    | none => ([.load], 1)
    | some ds =>
      if a.test = true then ([.load], 0)
      else if (initDrivers 0 ds).2 = false then (.load :: (initDrivers 0 ds).1, 1)
      else if mem = .failed then (.load :: (initDrivers 0 ds).1, 1)
      else (.load :: (initDrivers 0 ds).1, 0)

/-! ### Specification -/

/-- All drivers can be initialised and the last one, which runs in the foreground, succeeds. -/
def DriversOk (ds : List Drv) : Prop := (∀ d ∈ ds, d.initOk = true) ∧ ∀ d, ds.getLast? = some d → d.runOk = true

/-- The event concerns a driver. -/
def MEv.ofDriver : MEv → Option Nat
  | .init i => some i
  | .run i => some i
  | .spawn i => some i
  | _ => none

theorem initDrivers_ok (ds : List Drv) : ∀ i, (initDrivers i ds).2 = true ↔ DriversOk ds := by
  induction ds with
  | nil => intro i; simp [initDrivers, DriversOk]
  | cons d ds ih =>
    intro i
    cases ds with
    | nil =>
      unfold initDrivers DriversOk
      cases h : d.initOk <;> simp [h]
    | cons d' ds =>
      unfold initDrivers
      cases h : d.initOk with
      | false => simp [DriversOk, h]
      | true =>
        simp only [Bool.true_eq_false, if_false]
        rw [ih]
        simp [DriversOk, h]

/-- **C77** The exit status is 0 or 1; it is 0 exactly if the version was asked for, or the profiles could be started, the pipeline loads, and it was only to
be tested or there is a path argument, all drivers can be initialised, the last driver succeeds, and the memory profile can be written. -/
theorem exit_zero_iff (a : Args) (cpu trace : Prof) (loaded : Option (List Drv)) (mem : Prof) :
    ((mainRun a cpu trace loaded mem).2 = 0 ∨ (mainRun a cpu trace loaded mem).2 = 1) ∧
    ((mainRun a cpu trace loaded mem).2 = 0 ↔
      a.version = true ∨
      (cpu ≠ .failed ∧ trace ≠ .failed ∧ ∃ ds, loaded = some ds ∧
        (a.test = true ∨ (0 < a.nargs ∧ DriversOk ds ∧ mem ≠ .failed)))) := by
  unfold mainRun
  by_cases h0 : a.version = false ∧ a.test = false ∧ a.nargs < 1
  · rw [if_pos h0]
    refine ⟨.inr rfl, ⟨fun h => (by cases h), ?_⟩⟩
    rintro (h | ⟨-, -, ds, -, h | ⟨h, -⟩⟩)
    · rw [h0.1] at h; cases h
    · rw [h0.2.1] at h; cases h
    · omega
  rw [if_neg h0]
  by_cases h1 : a.version = true
  · rw [if_pos h1]; exact ⟨.inl rfl, fun _ => .inl h1, fun _ => rfl⟩
  rw [if_neg h1]
  by_cases h2 : cpu = .failed
  · rw [if_pos h2]
    exact ⟨.inr rfl, fun h => (by cases h), fun h => by rcases h with h | h; exact absurd h h1; exact absurd h2 h.1⟩
  rw [if_neg h2]
  by_cases h3 : trace = .failed
  · rw [if_pos h3]
    exact ⟨.inr rfl, fun h => (by cases h), fun h => by rcases h with h | h; exact absurd h h1; exact absurd h3 h.2.1⟩
  rw [if_neg h3]
  cases loaded with
  | none => exact ⟨.inr rfl, fun h => (by cases h), fun h => by rcases h with h | ⟨_, _, ds, h, _⟩; exact absurd h h1; cases h⟩
  | some ds =>
    dsimp only
    by_cases h4 : a.test = true
    · rw [if_pos h4]; exact ⟨.inl rfl, fun _ => .inr ⟨h2, h3, ds, rfl, .inl h4⟩, fun _ => rfl⟩
    rw [if_neg h4]
    have hn : 0 < a.nargs := by
      rcases Nat.lt_or_ge 0 a.nargs with h | h
      · exact h
      · exact absurd ⟨by simpa using h1, by simpa using h4, by omega⟩ h0
    by_cases h5 : (initDrivers 0 ds).2 = false
    · rw [if_pos h5]
      refine ⟨.inr rfl, fun h => (by cases h), fun h => ?_⟩
      rcases h with h | ⟨_, _, ds', h, h' | ⟨_, h', _⟩⟩
      · exact absurd h h1
      · exact absurd h' h4
      · cases h
        rw [(initDrivers_ok ds 0).2 h'] at h5
        cases h5
    rw [if_neg h5]
    have hd : DriversOk ds := (initDrivers_ok ds 0).1 (by simpa using h5)
    by_cases h6 : mem = .failed
    · rw [if_pos h6]
      refine ⟨.inr rfl, fun h => (by cases h), fun h => ?_⟩
      rcases h with h | ⟨_, _, ds', h, h' | ⟨_, _, h'⟩⟩
      · exact absurd h h1
      · exact absurd h' h4
      · exact absurd h6 h'
    rw [if_neg h6]
    exact ⟨.inl rfl, fun _ => .inr ⟨h2, h3, ds, rfl, .inr ⟨hn, hd, h6⟩⟩, fun _ => rfl⟩

/-- **C77** Asking for the version, testing the configuration, or giving no argument never touches a driver, whatever the configuration. -/
theorem no_driver_started (a : Args) (cpu trace : Prof) (loaded : Option (List Drv)) (mem : Prof) (h : a.version = true ∨ a.test = true ∨ a.nargs = 0) :
    ∀ e ∈ (mainRun a cpu trace loaded mem).1, e.ofDriver = none := by
  unfold mainRun
  split
  · simp [MEv.ofDriver]
  rename_i h0
  split
  · simp [MEv.ofDriver]
  rename_i h1
  split
  · simp
  split
  · simp
  split
  · simp [MEv.ofDriver]
  · split
    · simp [MEv.ofDriver]
    · rename_i h4
      exfalso
      rcases h with h | h | h
      · exact h1 h
      · exact h4 h
      · exact h0 ⟨by simpa using h1, by simpa using h4, by omega⟩

/-- What starting drivers should look like from driver `i` on, if the first `n` can be initialised: each is initialised and started before
the next; the last one of all in the foreground. -/
def started (total : Nat) : Nat → Nat → List MEv
  | _, 0 => []
  | i, n + 1 => .init i :: (if i + 1 = total then .run i else .spawn i) :: started total (i + 1) n

/-- The attempt to initialise driver `i`, the first of those that are left. -/
def failedInit (i : Nat) : List Drv → List MEv
  | [] => []
  | _ :: _ => [.init i]

theorem initDrivers_events (pre : List Drv) : ∀ (i total : Nat) (rest : List Drv), (∀ d ∈ pre, d.initOk = true) → total = i + pre.length + rest.length →
    (∀ d, rest.head? = some d → d.initOk = false) →
    (initDrivers i (pre ++ rest)).1 = started total i pre.length ++ failedInit (i + pre.length) rest := by
  induction pre with
  | nil =>
    intro i total rest _ ht hr
    cases rest with
    | nil => rfl
    | cons d rest =>
      have := hr d rfl
      cases rest with
      | nil => simp [initDrivers, this, started, failedInit]
      | cons d' rest => simp [initDrivers, this, started, failedInit]
  | cons d pre ih =>
    intro i total rest hp ht hr
    have hd := hp d List.mem_cons_self
    have hih := ih (i + 1) total rest (fun x hx => hp x (List.mem_cons_of_mem _ hx)) (by rw [ht]; simp; omega) hr
    by_cases hlast : pre ++ rest = []
    · obtain ⟨rfl, rfl⟩ := List.append_eq_nil_iff.1 hlast
      simp only [List.length_cons, List.length_nil] at ht
      simp [initDrivers, hd, started, failedInit, show i + 1 = total by omega]
    · obtain ⟨x, xs, hx⟩ := List.exists_cons_of_ne_nil hlast
      rw [List.cons_append, hx]
      unfold initDrivers
      rw [hd, if_neg (by decide), ← hx]
      dsimp only
      rw [hih]
      have hlen : 0 < (pre ++ rest).length := by rw [hx]; simp
      rw [List.length_append] at hlen
      simp only [List.length_cons] at ht ⊢
      rw [started, if_neg (by omega), show i + 1 + pre.length = i + (pre.length + 1) by omega]
      rfl

/-- **C77** If a pipeline is run, the drivers are initialised and started one after the other, up to the first that cannot be initialised; the last of
all in the foreground, the others in the background. -/
theorem drivers_started (a : Args) (cpu trace : Prof) (mem : Prof) (pre rest : List Drv) (hv : a.version = false) (ht : a.test = false) (hn : 0 < a.nargs)
    (hc : cpu ≠ .failed) (hr : trace ≠ .failed) (hp : ∀ d ∈ pre, d.initOk = true) (hf : ∀ d, rest.head? = some d → d.initOk = false) :
    (mainRun a cpu trace (some (pre ++ rest)) mem).1 =
      .load :: started (pre ++ rest).length 0 pre.length ++ failedInit pre.length rest := by
  have hev := initDrivers_events pre 0 (pre ++ rest).length rest hp (by simp) hf
  rw [Nat.zero_add] at hev
  unfold mainRun
  rw [if_neg (by omega), if_neg (by simp [hv]), if_neg hc, if_neg hr]
  dsimp only
  rw [if_neg (by simp [ht]), hev]
  split
  · rfl
  · split <;> rfl

/-- **C77**, limit: a driver that fails in the background does not show in the exit status. -/
theorem background_failure_ignored (a : Args) (cpu trace mem : Prof) (d d' : Drv) (ds : List Drv) (hne : ds ≠ []) (h : d.initOk = d'.initOk) :
    (mainRun a cpu trace (some (d :: ds)) mem).2 = (mainRun a cpu trace (some (d' :: ds)) mem).2 := by
  obtain ⟨x, xs, rfl⟩ := List.exists_cons_of_ne_nil hne
  have : (initDrivers 0 (d :: x :: xs)).2 = (initDrivers 0 (d' :: x :: xs)).2 := by
    unfold initDrivers
    rw [h]
  unfold mainRun
  dsimp only
  rw [this]
  repeat' split
  all_goals rfl

/-- Two drivers, the first of which fails in the background. -/
example : mainRun ⟨false, false, 1⟩ .off .done (some [⟨true, false⟩, ⟨true, true⟩]) .off = ([.load, .init 0, .spawn 0, .init 1, .run 1], 0) := by decide

/-- `drivers_started` of four drivers, the third of which cannot be initialised: two are started in the background, the fourth is never looked at. -/
example : (mainRun ⟨false, false, 1⟩ .off .done (some ([⟨true, false⟩, ⟨true, true⟩] ++ [⟨false, true⟩, ⟨true, true⟩])) .off).1 =
    [.load, .init 0, .spawn 0, .init 1, .spawn 1, .init 2] :=
  drivers_started ⟨false, false, 1⟩ .off .done .off [⟨true, false⟩, ⟨true, true⟩] [⟨false, true⟩, ⟨true, true⟩] rfl rfl (by decide) (by decide) (by decide) (by decide)
    (fun d h => by cases h; rfl)

/-- `no_driver_started`, of `-test`: the pipeline is loaded and nothing else; `exit_zero_iff` fails of the four drivers above. -/
example : (mainRun ⟨false, true, 1⟩ .off .off (some [⟨true, true⟩]) .off) = ([.load], 0) := by decide
example : (mainRun ⟨false, false, 1⟩ .off .done (some [⟨true, false⟩, ⟨true, true⟩, ⟨false, true⟩, ⟨true, true⟩]) .off).2 = 1 := by decide
/-- `background_failure_ignored`: whether the first of two drivers fails when it runs is not seen. -/
example : (mainRun ⟨false, false, 1⟩ .off .off (some [⟨true, false⟩, ⟨true, true⟩]) .off).2 = (mainRun ⟨false, false, 1⟩ .off .off (some [⟨true, true⟩, ⟨true, true⟩]) .off).2 :=
  background_failure_ignored ⟨false, false, 1⟩ .off .off .off ⟨true, false⟩ ⟨true, true⟩ [⟨true, true⟩] (by decide) rfl

end Verif.Pipeline.Main
