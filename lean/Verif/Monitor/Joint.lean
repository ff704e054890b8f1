import Verif.Engine.SwapProps
import Verif.Monitor.LiveProps
/-
C100: the policy monitor and the policy engine, joined by the channel of interpreters.
Source: /repo/core/policyengine/policyengine.go:101-167, 221-234, /repo/core/policyengine/monitor/localpolicymonitor.go:157-231
-/
namespace Verif.Monitor.Joint
open Verif.Monitor Verif.Engine

variable {B C P R : Type}

/-! ### Model -/

/-- The monitor (C99) and the policy engine (C08). The channel of interpreters between them (localpolicymonitor.go:42, policyengine.go:146) is `mon.chan` and `eng.pending`: one thing, seen from both ends. -/
structure JSt (B C P R : Type) where
  mon : Live.LSt B C P
  eng : Swap.St P R

/-- Observations of either. -/
inductive Obs (B P R : Type) where
  | mon (o : Live.Obs B P)
  | eng (o : Swap.Obs P R)

/-- Steps: of the directory or the monitor; of the policy engine, its workers, its input; `StopMonitor` at the end of `Cleanup`. -/
inductive Label (B P R : Type) where
  | mon (l : Live.Label B)
  | eng (l : Swap.Label P R)
  | stop

/-- Steps of the monitor that are the policy engine's to take. -/
def shared : Live.Label B → Bool
  | .take => true
  | .stop => true
  | _ => false

/-- The step of the policy engine that is the monitor's to take. -/
def pushing : Swap.Label P R → Bool
  | .push _ => true
  | _ => false

/-- One step. What the monitor pushes (localpolicymonitor.go:224) the engine has pending; what the engine takes (policyengine.go:146) leaves the monitor's channel; `Cleanup` stops the monitor last (policyengine.go:231-233). -/
def step [DecidableEq C] (sha : B → C) (compile : List (Str × Option B) → Option P) (cfg : Swap.Cfg P R) (s : JSt B C P R) : Label B P R → Option (JSt B C P R × List (Obs B P R))
  | .mon l =>
    if shared l then none
    else
      match Live.step sha compile s.mon l with
      | none => none
      | some (m, os) =>
        match Live.pushed os with
        | [] => some (⟨m, s.eng⟩, os.map .mon)
        | p :: _ =>
          match Swap.step cfg s.eng (.push p) with
          | none => none
          | some (e, os') => some (⟨m, e⟩, os.map .mon ++ os'.map .eng)
  | .eng l =>
    if pushing l then none
    else
      match Swap.step cfg s.eng l with
      | none => none
      | some (e, os) =>
        if e.pending.length = s.eng.pending.length then some (⟨s.mon, e⟩, os.map .eng)
        else
          match Live.step sha compile s.mon .take with
          | none => none
          | some (m, os') => some (⟨m, e⟩, os'.map .mon ++ os.map .eng)
  | .stop =>
    match s.eng.phase with
    | .finished =>
      match Live.step sha compile s.mon .stop with
      | none => none
      | some (m, os) => some (⟨m, s.eng⟩, os.map .mon)
    | _ => none

/-- After `Init` with a monitor (policyengine.go:101-114): the first policies `p` in force, nothing pending. -/
def init (cfg : Swap.Cfg P R) (d : List (FileEnt B)) (p : P) (start : Int) : JSt B C P R := ⟨Live.init d, Swap.init cfg p start []⟩

abbrev Exec [DecidableEq C] (sha : B → C) (compile : List (Str × Option B) → Option P) (cfg : Swap.Cfg P R) (d : List (FileEnt B)) (p : P) (start : Int) :=
  Machine.Exec (step sha compile cfg) (init cfg d p start)

/-! ### Specification -/

/-- What the monitor did. -/
def monOf (tr : List (Obs B P R)) : List (Live.Obs B P) := tr.filterMap (fun o => match o with | .mon o => some o | _ => none)

/-- What the policy engine did. -/
def engOf (tr : List (Obs B P R)) : List (Swap.Obs P R) := tr.filterMap (fun o => match o with | .eng o => some o | _ => none)

/-- A step of the policy engine. -/
def OfEngine : Label B P R → Prop
  | .eng _ => True
  | _ => False

/-- The worker pool of policies `p` took record `r` in. -/
def Accepts (p : P) (r : R) (o : Obs B P R) : Prop := o = .eng (.pool p (.accepted r))

/-! ### Both see a run of their own -/

theorem monOf_append (a b : List (Obs B P R)) : monOf (a ++ b) = monOf a ++ monOf b := List.filterMap_append
theorem engOf_append (a b : List (Obs B P R)) : engOf (a ++ b) = engOf a ++ engOf b := List.filterMap_append

theorem monOf_mon (os : List (Live.Obs B P)) : monOf (os.map (Obs.mon : _ → Obs B P R)) = os := by
  induction os with
  | nil => rfl
  | cons o os ih => exact congrArg (o :: ·) ih

theorem monOf_eng (os : List (Swap.Obs P R)) : monOf (os.map (Obs.eng : _ → Obs B P R)) = [] := by
  induction os with
  | nil => rfl
  | cons o os ih => exact ih

theorem engOf_eng (os : List (Swap.Obs P R)) : engOf (os.map (Obs.eng : _ → Obs B P R)) = os := by
  induction os with
  | nil => rfl
  | cons o os ih => exact congrArg (o :: ·) ih

theorem engOf_mon (os : List (Live.Obs B P)) : engOf (os.map (Obs.mon : _ → Obs B P R)) = [] := by
  induction os with
  | nil => rfl
  | cons o os ih => exact ih

/-- What a step of the engine does to what is pending. -/
theorem swap_pending {cfg : Swap.Cfg P R} {s s' : Swap.St P R} {l : Swap.Label P R} {os : List (Swap.Obs P R)} (hl : pushing l = false) (h : Swap.step cfg s l = some (s', os)) :
    Swap.queued os = [] ∧ (s'.pending = s.pending ∧ (s.pending = [] ∨ Swap.checks os = []) ∨ ∃ p, s.pending = p :: s'.pending ∧ (Swap.checks os).length = 1) := by
  unfold Swap.step at h
  cases l with
  | push p => cases hl
  | input r => dsimp only at h; split at h <;> cases h; exact ⟨rfl, .inl ⟨rfl, .inr rfl⟩⟩
  | close => dsimp only at h; split at h <;> cases h; exact ⟨rfl, .inl ⟨rfl, .inr rfl⟩⟩
  | clock t =>
    dsimp only at h
    split at h
    · split at h
      · split at h
        · split at h
          · rename_i p ps hp; cases h; exact ⟨rfl, .inr ⟨p, hp, rfl⟩⟩
          · rename_i hp; cases h; exact ⟨rfl, .inl ⟨rfl, .inl hp⟩⟩
        · cases h; exact ⟨rfl, .inl ⟨rfl, .inr rfl⟩⟩
      · cases h; exact ⟨rfl, .inl ⟨rfl, .inr rfl⟩⟩
    · cases h
  | stopReturn =>
    dsimp only at h
    split at h
    · split at h <;> cases h
      exact ⟨rfl, .inl ⟨rfl, .inr rfl⟩⟩
    · cases h
  | submit =>
    dsimp only at h
    split at h
    · split at h <;> cases h
      have := Swap.pool_map_proj (R := R) s.pol
      exact ⟨(this _).2.2.1, .inl ⟨rfl, .inr (this _).2.2.2.1⟩⟩
    · cases h
  | worker l =>
    dsimp only at h
    split at h
    · cases h
    · cases h
    · split at h <;> cases h
      have := Swap.pool_map_proj (R := R) s.pol
      exact ⟨(this _).2.2.1, .inl ⟨rfl, .inr (this _).2.2.2.1⟩⟩
  | cleanup => dsimp only at h; split at h <;> cases h; exact ⟨rfl, .inl ⟨rfl, .inr rfl⟩⟩
  | cleanupReturn =>
    dsimp only at h
    split at h
    · split at h <;> cases h
      exact ⟨rfl, .inl ⟨rfl, .inr rfl⟩⟩
    · cases h

theorem live_pushed [DecidableEq C] {sha : B → C} {compile : List (Str × Option B) → Option P} {s s' : Live.LSt B C P} {l : Live.Label B} {os : List (Live.Obs B P)} (hl : shared l = false)
    (h : Live.step sha compile s l = some (s', os)) : s'.chan = s.chan ++ Live.pushed os ∧ (Live.pushed os = [] ∨ s.chan.length < 10 ∧ ∃ p, Live.pushed os = [p]) := by
  rcases Live.step_chan h with ⟨got, r, room, rfl, -, hroom, hc⟩ | ⟨r, rfl, hc⟩ | ⟨-, h1, -, h2, -⟩
  · refine ⟨hc, ?_⟩
    cases r with
    | none => exact .inl rfl
    | some r =>
      cases room with
      | false => exact .inl rfl
      | true => exact .inr ⟨of_decide_eq_true hroom.symm, r, rfl⟩
  · exfalso
    unfold Live.step at h
    cases l with
    | take => cases hl
    | stop => cases hl
    | change => cases h
    | list =>
      dsimp only at h
      split at h
      · split at h <;> cases h
      · cases h
    | sum =>
      dsimp only at h
      split at h
      · cases h
      · split at h <;> cases h
      · cases h
    | opens =>
      dsimp only at h
      split at h
      · split at h <;> cases h
      · cases h
    | read =>
      dsimp only at h
      split at h
      · split at h
        · cases h
        · split at h <;> cases h
      · cases h
      · cases h
    | _ => dsimp only at h; split at h <;> cases h
  · rw [h1, List.append_nil]; exact ⟨h2, .inl rfl⟩

variable [DecidableEq C] {sha : B → C} {compile : List (Str × Option B) → Option P} {cfg : Swap.Cfg P R} {age : Str → Option (Option B) → Nat}

/-- **C100** The monitor sees a run of its own (C99), the policy engine sees a run of its own (C08), and both see the same channel; what is queued for the engine is what the monitor pushed. -/
theorem both_run {d : List (FileEnt B)} {p0 : P} {start : Int} {tr : List (Obs B P R)} {s : JSt B C P R} (h : Exec sha compile cfg d p0 start tr s) :
    Live.Exec sha compile d (monOf tr) s.mon ∧ Swap.Exec cfg p0 start [] (engOf tr) s.eng ∧ s.mon.chan = s.eng.pending ∧ Swap.queued (engOf tr) = Live.pushed (monOf tr) := by
  induction h with
  | nil => exact ⟨.nil, .nil, rfl, rfl⟩
  | @snoc tr s l s' os hx hs ih =>
    obtain ⟨i1, i2, i3, i4⟩ := ih
    rw [monOf_append, engOf_append, Swap.queued_append, Live.pushed_append, i4]
    unfold step at hs
    cases l with
    | mon l =>
      dsimp only at hs
      cases hsh : shared l with
      | true => rw [hsh] at hs; cases hs
      | false =>
        rw [hsh, if_neg (by simp)] at hs
        split at hs
        · cases hs
        · rename_i m os1 hm
          obtain ⟨c1, c2⟩ := live_pushed hsh hm
          split at hs
          · rename_i hp
            cases hs
            rw [monOf_mon, engOf_mon, List.append_nil, hp]
            rw [hp, List.append_nil] at c1
            exact ⟨.snoc i1 hm, i2, c1.trans i3, rfl⟩
          · rename_i p ps hp
            rcases c2 with c2 | ⟨-, q, c2⟩
            · rw [c2] at hp; cases hp
            · rw [c2] at hp; cases hp
              split at hs
              · cases hs
              · rename_i e os2 he
                cases hs
                rw [monOf_append, engOf_append, monOf_mon, engOf_mon, monOf_eng, engOf_eng, List.append_nil, List.nil_append, c2]
                refine ⟨.snoc i1 hm, .snoc i2 he, ?_⟩
                unfold Swap.step at he
                dsimp only at he
                split at he <;> cases he
                rw [c2, i3] at c1
                exact ⟨c1, rfl⟩
    | eng l =>
      dsimp only at hs
      cases hsh : pushing l with
      | true => rw [hsh] at hs; cases hs
      | false =>
        rw [hsh, if_neg (by simp)] at hs
        split at hs
        · cases hs
        · rename_i e os1 he
          obtain ⟨hq, hpd⟩ := swap_pending hsh he
          split at hs
          · rename_i hlen
            cases hs
            rw [monOf_eng, engOf_eng, List.append_nil, hq]
            refine ⟨i1, .snoc i2 he, ?_, rfl⟩
            rcases hpd with ⟨hpd, -⟩ | ⟨p, hpd, -⟩
            · exact i3.trans hpd.symm
            · rw [hpd] at hlen; simp at hlen
          · rename_i hlen
            split at hs
            · cases hs
            · rename_i m os2 hm
              cases hs
              rw [monOf_append, engOf_append, monOf_mon, engOf_mon, monOf_eng, engOf_eng, List.append_nil, List.nil_append, hq]
              refine ⟨.snoc i1 hm, .snoc i2 he, ?_⟩
              rcases hpd with ⟨hpd, -⟩ | ⟨p, hpd, -⟩
              · rw [hpd] at hlen; exact absurd rfl hlen
              · unfold Live.step at hm
                dsimp only at hm
                split at hm <;> cases hm
                rename_i r rs hc
                rw [hc, hpd] at i3
                exact ⟨(List.cons.inj i3).2, rfl⟩
    | stop =>
      dsimp only at hs
      split at hs
      · split at hs
        · cases hs
        · rename_i m os1 hm
          cases hs
          rw [monOf_mon, engOf_mon, List.append_nil]
          refine ⟨.snoc i1 hm, i2, ?_⟩
          unfold Live.step at hm
          dsimp only at hm
          split at hm <;> cases hm
          exact ⟨i3, rfl⟩
      · cases hs

/-- **C100** Joining them takes nothing from either: a step one of them can take alone, it can take here. -/
theorem none_held_back {d : List (FileEnt B)} {p0 : P} {start : Int} {tr : List (Obs B P R)} {s : JSt B C P R} (h : Exec sha compile cfg d p0 start tr s) :
    (∀ l m os, shared l = false → Live.step sha compile s.mon l = some (m, os) → ∃ s' os', step sha compile cfg s (.mon l) = some (s', os') ∧ s'.mon = m) ∧
    (∀ l e os, pushing l = false → Swap.step cfg s.eng l = some (e, os) → ∃ s' os', step sha compile cfg s (.eng l) = some (s', os') ∧ s'.eng = e) := by
  obtain ⟨-, -, hc, -⟩ := both_run h
  constructor
  · intro l m os hl hm
    obtain ⟨c1, c2⟩ := live_pushed hl hm
    unfold step
    dsimp only
    rw [hl, if_neg (by simp), hm]
    dsimp only
    rcases c2 with c2 | ⟨hlt, p, c2⟩
    · rw [c2]; exact ⟨_, _, rfl, rfl⟩
    · rw [c2]
      dsimp only
      have : Swap.step cfg s.eng (.push p) = some ({ s.eng with pending := s.eng.pending ++ [p] }, [.queued p]) := by
        unfold Swap.step
        dsimp only
        rw [if_pos (by rw [← hc]; exact hlt)]
      rw [this]
      exact ⟨_, _, rfl, rfl⟩
  · intro l e os hl he
    obtain ⟨-, hp⟩ := swap_pending hl he
    unfold step
    dsimp only
    rw [hl, if_neg (by simp), he]
    dsimp only
    rcases hp with ⟨hp, -⟩ | ⟨p, hp, -⟩
    · rw [hp, if_pos rfl]; exact ⟨_, _, rfl, rfl⟩
    · have : Live.step sha compile s.mon .take = some ({ s.mon with chan := e.pending }, [.taken p]) := by
        unfold Live.step
        dsimp only
        rw [hc, hp]
      rw [this, if_neg (by rw [hp]; simp)]
      exact ⟨_, _, rfl, rfl⟩

/-! ### The policies in force -/

/-- The policies in force are those adopted last. -/
theorem pol_last {p0 : P} {start : Int} {pend : List P} {tr : List (Swap.Obs P R)} {e : Swap.St P R} (h : Swap.Exec cfg p0 start pend tr e) : (p0 :: Swap.adoptions tr).getLast? = some e.pol := by
  obtain ⟨⟨old, cur, -, -, ha, -, -⟩, -⟩ := Swap.inv_exec h
  rw [← ha, List.getLast?_concat]

/-- With nothing pending or being adopted, the last interpreter pushed is in force. -/
theorem pol_pushed {d : List (FileEnt B)} {p0 : P} {start : Int} {tr : List (Obs B P R)} {s : JSt B C P R} (h : Exec sha compile cfg d p0 start tr s) (hp : s.eng.pending = []) (ht : Swap.taken s.eng.phase = [])
    {p : P} (hl : (Live.pushed (monOf tr)).getLast? = some p) : s.eng.pol = p := by
  obtain ⟨-, h2, -, h4⟩ := both_run h
  have hpend := (Swap.inv_exec h2).pend
  rw [hp, ht, List.append_nil, List.append_nil, List.nil_append, h4] at hpend
  have hpol := pol_last h2
  rw [hpend, List.getLast?_cons, hl] at hpol
  exact (Option.some.inj hpol).symm

/-- The records the engine's pools take in, and its checks, step by step. -/
theorem eng_accepts {s s' : Swap.St P R} {l : Swap.Label P R} {os : List (Swap.Obs P R)} (h : Swap.step cfg s l = some (s', os)) {q : P} {r : R} (hm : Swap.Obs.pool q (.accepted r) ∈ os) :
    q = s.pol ∧ Swap.taken s.phase = [] ∧ Swap.checks os = [] := by
  unfold Swap.step at h
  cases l with
  | push p => dsimp only at h; split at h <;> cases h; simp at hm
  | input r => dsimp only at h; split at h <;> cases h; simp at hm
  | close => dsimp only at h; split at h <;> cases h; cases hm
  | clock t =>
    dsimp only at h
    split at h
    · split at h
      · split at h
        · split at h <;> cases h <;> simp at hm
        · cases h; cases hm
      · cases h; cases hm
    · cases h
  | stopReturn =>
    dsimp only at h
    split at h
    · split at h <;> cases h
      simp at hm
    · cases h
  | submit =>
    dsimp only at h
    split at h
    · rename_i hp
      split at h <;> cases h
      obtain ⟨o, -, ho⟩ := List.mem_map.1 hm
      cases ho
      rw [hp]
      exact ⟨rfl, rfl, (Swap.pool_map_proj (R := R) s.pol _).2.2.2.1⟩
    · cases h
  | worker pl =>
    exfalso
    cases pl with
    | submit r => cases h
    | close => cases h
    | recv i =>
      dsimp only at h
      split at h <;> cases h
      rename_i hps
      obtain ⟨o, ho1, ho⟩ := List.mem_map.1 hm
      cases ho
      unfold Pool.step at hps; dsimp only at hps
      split at hps <;> cases hps
      cases ho1
    | eval i =>
      dsimp only at h
      split at h <;> cases h
      rename_i hps
      obtain ⟨o, ho1, ho⟩ := List.mem_map.1 hm
      cases ho
      unfold Pool.step at hps; dsimp only at hps
      repeat' split at hps
      all_goals first | (cases hps; done) | (cases hps; simp at ho1)
    | send i =>
      dsimp only at h
      split at h <;> cases h
      rename_i hps
      obtain ⟨o, ho1, ho⟩ := List.mem_map.1 hm
      cases ho
      unfold Pool.step at hps; dsimp only at hps
      repeat' split at hps
      all_goals first | (cases hps; done) | (cases hps; simp at ho1)
    | exit i =>
      dsimp only at h
      split at h <;> cases h
      rename_i hps
      obtain ⟨o, ho1, ho⟩ := List.mem_map.1 hm
      cases ho
      unfold Pool.step at hps; dsimp only at hps
      repeat' split at hps
      all_goals first | (cases hps; done) | (cases hps; cases ho1)
  | cleanup => dsimp only at h; split at h <;> cases h; simp at hm
  | cleanupReturn =>
    dsimp only at h
    split at h
    · split at h <;> cases h
      simp at hm
    · cases h

/-- A step of the engine changes nothing of the monitor but its channel. -/
theorem eng_step {s s' : JSt B C P R} {l : Label B P R} {os : List (Obs B P R)} (hl : OfEngine l) (h : step sha compile cfg s l = some (s', os)) :
    (∃ l' os', Swap.step cfg s.eng l' = some (s'.eng, os') ∧ pushing l' = false ∧ engOf os = os') ∧ Live.pushed (monOf os) = [] := by
  unfold step at h
  cases l with
  | mon l => exact absurd hl (fun h => h)
  | stop => exact absurd hl (fun h => h)
  | eng l =>
    dsimp only at h
    cases hsh : pushing l with
    | true => rw [hsh] at h; cases h
    | false =>
      rw [hsh, if_neg (by simp)] at h
      split at h
      · cases h
      · rename_i e os1 he
        split at h
        · cases h
          exact ⟨⟨l, os1, he, hsh, engOf_eng os1⟩, by rw [monOf_eng]; rfl⟩
        · split at h
          · cases h
          · rename_i m os2 hm
            cases h
            refine ⟨⟨l, os1, he, hsh, by rw [engOf_append, engOf_mon, engOf_eng, List.nil_append]⟩, ?_⟩
            rw [monOf_append, monOf_mon, monOf_eng, List.append_nil]
            unfold Live.step at hm
            dsimp only at hm
            split at hm <;> cases hm
            rfl

theorem eng_run {d : List (FileEnt B)} {p0 : P} {start : Int} {tr : List (Obs B P R)} {s : JSt B C P R} (h : Exec sha compile cfg d p0 start tr s) {p : P} (hl : (Live.pushed (monOf tr)).getLast? = some p)
    {ls : List (Label B P R)} (hin : ∀ l ∈ ls, OfEngine l) {s' : JSt B C P R} {os : List (Obs B P R)} (hr : Machine.run (step sha compile cfg) s ls = some (s', os)) {os1 os2 : List (Obs B P R)}
    (ho : os = os1 ++ os2) (hk : s.eng.pending.length ≤ (Swap.checks (engOf os1)).length) : ∀ q r o, o ∈ os2 → Accepts q r o → q = p := by
  induction ls generalizing tr s os os1 os2 with
  | nil =>
    cases hr
    obtain ⟨-, rfl⟩ := List.append_eq_nil_iff.1 ho.symm
    intro q r o h; cases h
  | cons l ls ih =>
    unfold Machine.run at hr
    split at hr
    · cases hr
    · rename_i s1 osa hs1
      split at hr
      · cases hr
      · rename_i s2 osb hr2
        cases hr
        obtain ⟨⟨l', os', he, hpu, heng⟩, hpm⟩ := eng_step (hin l List.mem_cons_self) hs1
        have hx : Exec sha compile cfg d p0 start (tr ++ osa) s1 := .snoc h hs1
        have hl' : (Live.pushed (monOf (tr ++ osa))).getLast? = some p := by
          rw [monOf_append, Live.pushed_append, hpm, List.append_nil]; exact hl
        have hpd := (swap_pending hpu he).2
        have hx2 : ∀ x y, osb = x ++ y → s1.eng.pending.length ≤ (Swap.checks (engOf x)).length → ∀ q r o, o ∈ y → Accepts q r o → q = p :=
          fun x y hxy hk => ih hx hl' (fun l h => hin l (List.mem_cons_of_mem _ h)) hr2 hxy hk
        rcases List.append_eq_append_iff.1 ho with ⟨c, hc1, hc2⟩ | ⟨c, hc1, hc2⟩
        · refine hx2 _ _ hc2 ?_
          rw [hc1, engOf_append, heng, Swap.checks_append, List.length_append] at hk
          rcases hpd with ⟨h1, h2 | h2⟩ | ⟨p', h1, h2⟩
          · rw [h1, h2]; exact Nat.zero_le _
          · rw [h2] at hk; rw [h1]; simpa using hk
          · rw [h1, h2, List.length_cons] at hk; omega
        · have hle : s.eng.pending.length ≤ (Swap.checks os').length := by
            refine Nat.le_trans hk ?_
            rw [← heng, hc1, engOf_append, Swap.checks_append, List.length_append]
            exact Nat.le_add_right _ _
          intro q r o hm ha
          rw [hc2] at hm
          rcases List.mem_append.1 hm with hm | hm
          · have hm : Swap.Obs.pool q (.accepted r) ∈ os' := by
              rw [← heng]
              refine List.mem_filterMap.2 ⟨o, by rw [hc1]; exact List.mem_append_right _ hm, ?_⟩
              rw [ha]
            obtain ⟨e1, e2, e3⟩ := eng_accepts he hm
            rw [e3] at hle
            rw [e1]
            exact pol_pushed h (List.eq_nil_of_length_eq_zero (Nat.le_zero.1 hle)) e2 hl
          · refine hx2 [] _ rfl ?_ q r o hm ha
            change _ ≤ 0
            rcases hpd with ⟨h1, h2 | h2⟩ | ⟨p', h1, h2⟩
            · rw [h1, h2]; exact Nat.le_refl _
            · rw [h2] at hle; rw [h1]; exact hle
            · rw [h1, h2, List.length_cons] at hle; omega

/-- **C100** From the directory to the alerts. Suppose the directory has stopped changing and the monitor has come to rest, having been told of a change, with every change reported and readable files that never went
back to an earlier content. Then the latest run of the compiler read the directory as it is; and if it succeeded and found room in the channel, then from as many checks on as there were interpreters pending (at
most ten), the policy engine hands every record to the policies of the directory. -/
theorem directory_in_force {d : List (FileEnt B)} {p0 : P} {start : Int} {tr : List (Obs B P R)} {s : JSt B C P R} (h : Exec sha compile cfg d p0 start tr s) (hd : Live.Plain d)
    (hreg : Live.Regular age (monOf tr)) (inj : ∀ p x y, age p x = age p y → x = y) (hsha : ∀ b b', sha b = sha b' → b = b') (hrun : Live.Running s.mon) (hset : Live.Settled sha compile s.mon)
    (hu : Live.Usable s.mon.dir) (ht : Live.Told (monOf tr)) :
    s.eng.pending.length ≤ 10 ∧
    ∃ got room, Live.lastAttempt (monOf tr) = some (got, compile got, room) ∧ Live.ReadFrom s.mon.dir got ∧
      ∀ p, compile got = some p → room = true →
        ∀ ls : List (Label B P R), (∀ l ∈ ls, OfEngine l) → ∀ s' os1 os2, Machine.run (step sha compile cfg) s ls = some (s', os1 ++ os2) →
          s.eng.pending.length ≤ (Swap.checks (engOf os1)).length → ∀ q r, Obs.eng (.pool q (.accepted r)) ∈ os2 → q = p := by
  obtain ⟨h1, h2, h3, h4⟩ := both_run h
  refine ⟨by rw [← h3]; exact (Live.in_order h1).2, ?_⟩
  have := Live.settles h1 hd hreg inj hsha hrun (ls := []) (fun l h => by cases h) rfl
  rw [List.append_nil] at this
  obtain ⟨got, room, hla, hrf, -⟩ := this.2.2 hset hu ht
  refine ⟨got, room, hla, hrf, ?_⟩
  intro p hc hroom ls hin s' os1 os2 hr hk q r hm
  rw [hc, hroom] at hla
  have hlast : (Live.pushed (monOf tr)).getLast? = some p := by
    rw [← (Live.in_order h1).1]
    exact Live.latest_pushed h1 hla
  exact eng_run h hlast hin hr rfl hk q r _ hm rfl

/-- **C100** At any moment, whatever the directory does: with nothing pending and no adoption under way, the policies in force are those the monitor pushed last, and the first ones if it pushed none. -/
theorem last_push_in_force {d : List (FileEnt B)} {p0 : P} {start : Int} {tr : List (Obs B P R)} {s : JSt B C P R} (h : Exec sha compile cfg d p0 start tr s) (hp : s.eng.pending = [])
    (ht : Swap.taken s.eng.phase = []) : s.eng.pol = ((Live.pushed (monOf tr)).getLast?).getD p0 := by
  obtain ⟨-, h2, -, h4⟩ := both_run h
  have hpend := (Swap.inv_exec h2).pend
  rw [hp, ht, List.append_nil, List.append_nil, List.nil_append, h4] at hpend
  have hpol := pol_last h2
  rw [hpend, List.getLast?_cons] at hpol
  exact (Option.some.inj hpol).symm

/-- **C100** A set of policies that does not compile never gets in force: whatever is in force was the first set, or is what the compiler made of files it read. -/
theorem in_force_was_compiled {d : List (FileEnt B)} {p0 : P} {start : Int} {tr : List (Obs B P R)} {s : JSt B C P R} (h : Exec sha compile cfg d p0 start tr s) :
    s.eng.pol = p0 ∨ ∃ got, Live.Obs.attempted got (some s.eng.pol) true ∈ monOf tr ∧ compile got = some s.eng.pol := by
  obtain ⟨h1, h2, -, h4⟩ := both_run h
  have hpend := (Swap.inv_exec h2).pend
  have hpol := List.mem_of_getLast? (pol_last h2)
  rcases List.mem_cons.1 hpol with hpol | hpol
  · exact .inl hpol
  · right
    have : s.eng.pol ∈ Live.pushed (monOf tr) := by
      rw [← h4, ← List.nil_append (Swap.queued _), ← hpend, List.append_assoc]
      exact List.mem_append_left _ hpol
    obtain ⟨o, ho, hv⟩ := List.mem_filterMap.1 this
    cases o with
    | attempted got r room =>
      cases r with
      | none => cases hv
      | some r =>
        cases room with
        | false => cases hv
        | true =>
          cases hv
          obtain ⟨pre, post, hpp⟩ := List.append_of_mem ho
          exact ⟨got, ho, ((Live.attempts_faithful h1 hpp).1).symm⟩
    | _ => cases hv

end Verif.Monitor.Joint
