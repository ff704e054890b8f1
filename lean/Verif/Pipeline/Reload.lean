import Verif.Pipeline.EndToEnd
import Verif.Monitor.Joint
/-
C103: a running pipeline whose policy engine has a policy monitor beside it, and a policy directory that changes at any time.
Sources: /repo/driver/pipeline/pipeline.go:199-200, 286-294, /repo/core/policyengine/policyengine.go:101-167, 221-234, /repo/core/policyengine/monitor/localpolicymonitor.go:157-231
-/
namespace Verif.Pipeline.Reload
open Verif.Pipeline.Drain
open Verif.Monitor (Str FileEnt)
open Verif.Monitor.Joint (shared pushing monOf engOf JSt)
open Verif.Engine

variable {B C P R : Type}

/-! ### Model -/

/-- The policy engine as a stage of a pipeline: which stage it is, and its states and steps as those of the engine's machine (`Verif.Pipeline.Drain.engine`; policyengine.go:119-234). -/
structure EngineIn (N : Net R) (cfg : Swap.Cfg P R) (p0 : P) (start : Int) where
  i : Nat
  st : (N.comp i).S → Swap.St P R
  lab : (N.comp i).L → Swap.Label P R
  push : P → (N.comp i).L
  init : st (N.comp i).init = Swap.init cfg p0 start []
  step : ∀ s l t a, (N.comp i).step s l = some (t, a) → engineStep cfg (st s) (lab l) = some (st t, a)
  pushes : ∀ p, lab (push p) = .push p
  owns : ∀ l, (N.comp i).env l = false → pushing (lab l) = false
  stage : i < N.n
  accepts : ∀ s p, (st s).pending.length < 10 → ∃ t, (N.comp i).step s (push p) = some (t, .tau) ∧ st t = { st s with pending := (st s).pending ++ [p] }

/-- One step of the pipeline and the monitor together. What the monitor pushes (localpolicymonitor.go:224) the engine has pending; what the engine takes (policyengine.go:146) leaves the monitor's
channel; `Cleanup` stops the monitor last (policyengine.go:231-233). Everything else is interleaved in any way. -/
inductive Step [DecidableEq C] {N : Net R} {cfg : Swap.Cfg P R} {p0 : P} {start : Int} (V : EngineIn N cfg p0 start) (sha : B → C) (compile : List (Str × Option B) → Option P) :
    Drain.St N × Monitor.Live.LSt B C P → List (Drain.Obs R) → List (Monitor.Live.Obs B P) → Drain.St N × Monitor.Live.LSt B C P → Prop where
  | net {s l o s' m} : Drain.Step N s l o s' → (∀ k, l = .stage V.i k → pushing (V.lab k) = false) → (V.st (s'.st V.i)).pending.length = (V.st (s.st V.i)).pending.length →
      Step V sha compile (s, m) [o] [] (s', m)
  | take {s l o s' m m' os} : Drain.Step N s l o s' → (∀ k, l = .stage V.i k → pushing (V.lab k) = false) → (V.st (s'.st V.i)).pending.length ≠ (V.st (s.st V.i)).pending.length →
      Monitor.Live.step sha compile m .take = some (m', os) → Step V sha compile (s, m) [o] os (s', m')
  | mon {s m l m' os} : shared l = false → Monitor.Live.step sha compile m l = some (m', os) → Monitor.Live.pushed os = [] → Step V sha compile (s, m) [] os (s, m')
  | push {s m l m' os p ps o s'} : shared l = false → Monitor.Live.step sha compile m l = some (m', os) → Monitor.Live.pushed os = p :: ps →
      Drain.Step N s (.stage V.i (V.push p)) o s' → Step V sha compile (s, m) [o] os (s', m')
  | stop {s m m' os} : (V.st (s.st V.i)).phase = .finished → Monitor.Live.step sha compile m .stop = some (m', os) → Step V sha compile (s, m) [] os (s, m')

/-- Executions: what happened in the pipeline, what the directory and the monitor did. -/
inductive Exec [DecidableEq C] {N : Net R} {cfg : Swap.Cfg P R} {p0 : P} {start : Int} (V : EngineIn N cfg p0 start) (sha : B → C) (compile : List (Str × Option B) → Option P)
    (d : List (FileEnt B)) : List (Drain.Obs R) → List (Monitor.Live.Obs B P) → Drain.St N × Monitor.Live.LSt B C P → Prop where
  | nil : Exec V sha compile d [] [] (St.start N, Monitor.Live.init d)
  | snoc {tr mo x os ms y} : Exec V sha compile d tr mo x → Step V sha compile x os ms y → Exec V sha compile d (tr ++ os) (mo ++ ms) y

/-! ### Specification -/

/-- The contents a directory has had: at first, and after each change. -/
def dirsOf (d : List (FileEnt B)) (mo : List (Monitor.Live.Obs B P)) : List (List (FileEnt B)) :=
  d :: mo.filterMap (fun o => match o with | .changed _ d' _ => some d' | _ => none)

/-- A name that makes a file a policy file. -/
def PolicyName (f : Str) : Prop := ".yaml".toList <:+ f ∨ ".yml".toList <:+ f

/-! ### Proofs -/

/-- What a step of the pipeline means for one of its stages. -/
theorem step_at {N : Net R} {s s' : Drain.St N} {l : Drain.Label N} {o : Drain.Obs R} (h : Drain.Step N s l o s') (i : Nat) :
    (s'.st i = s.st i ∧ takes (acts i [o]) = [] ∧ ∀ k, sends k (acts i [o]) = []) ∨
    ∃ k a, l = .stage i k ∧ (N.comp i).step (s.st i) k = some (s'.st i, a) ∧ acts i [o] = [a] := by
  have other : ∀ (j : Nat) (t : (N.comp j).S) (a : Act R), j ≠ i → (Function.update s.st j t i = s.st i ∧ takes (acts i [.stage j a]) = [] ∧ ∀ k, sends k (acts i [.stage j a]) = []) := by
    intro j t a hj
    refine ⟨Function.update_of_ne (Ne.symm hj) t s.st, ?_, fun k => ?_⟩ <;> rw [acts_other hj] <;> rfl
  have quiet : ∀ (j : Nat), (takes (acts i [Obs.stage (R := R) j .tau]) = [] ∧ ∀ k, sends k (acts i [Obs.stage (R := R) j .tau]) = []) := by
    intro j
    by_cases hj : j = i
    · subst hj; rw [acts_self]; exact ⟨rfl, fun _ => rfl⟩
    · rw [acts_other hj]; exact ⟨rfl, fun _ => rfl⟩
  cases h with
  | drive => exact .inl ⟨rfl, rfl, fun _ => rfl⟩
  | closeRoot => exact .inl ⟨rfl, rfl, fun _ => rfl⟩
  | tau j l t _ _ h =>
    by_cases hj : j = i
    · subst hj
      exact .inr ⟨l, _, rfl, by dsimp only; rw [show (Function.update s.st j t) j = t from Function.update_self ..]; exact h, acts_self ..⟩
    · exact .inl (other j t _ hj)
  | take j l t r q _ _ h =>
    by_cases hj : j = i
    · subst hj
      exact .inr ⟨l, _, rfl, by dsimp only; rw [show (Function.update s.st j t) j = t from Function.update_self ..]; exact h, acts_self ..⟩
    · exact .inl (other j t _ hj)
  | eof j l t _ _ h =>
    by_cases hj : j = i
    · subst hj
      exact .inr ⟨l, _, rfl, by dsimp only; rw [show (Function.update s.st j t) j = t from Function.update_self ..]; exact h, acts_self ..⟩
    · exact .inl (other j t _ hj)
  | send j l t k r _ _ h =>
    by_cases hj : j = i
    · subst hj
      exact .inr ⟨l, _, rfl, by dsimp only; rw [show (Function.update s.st j t) j = t from Function.update_self ..]; exact h, acts_self ..⟩
    · exact .inl (other j t _ hj)
  | sendPanic j => exact .inl ⟨rfl, quiet j⟩
  | close j l t c _ _ h =>
    by_cases hj : j = i
    · subst hj
      exact .inr ⟨l, _, rfl, by dsimp only; rw [show (Function.update s.st j t) j = t from Function.update_self ..]; exact h, acts_self ..⟩
    · exact .inl (other j t _ hj)
  | closePanic j => exact .inl ⟨rfl, quiet j⟩

theorem step_push {N : Net R} {cfg : Swap.Cfg P R} {p0 : P} {start : Int} {V : EngineIn N cfg p0 start} {s s' : Drain.St N} {p : P} {o : Drain.Obs R}
    (h : Drain.Step N s (.stage V.i (V.push p)) o s') : (N.comp V.i).step (s.st V.i) (V.push p) = some (s'.st V.i, .tau) ∧ acts V.i [o] = [.tau] := by
  have key : ∀ t a, (N.comp V.i).step (s.st V.i) (V.push p) = some (t, a) → a = .tau := by
    intro t a h
    obtain ⟨os, -, ha⟩ := engineStep_some (V.step _ _ _ _ h)
    rw [V.pushes] at ha
    exact ha
  generalize hlab : Drain.Label.stage V.i (V.push p) = lab at h
  cases h with
  | drive => cases hlab
  | closeRoot => cases hlab
  | tau j l t _ _ h =>
    cases hlab
    exact ⟨by dsimp only; rw [show (Function.update s.st V.i t) V.i = t from Function.update_self ..]; exact h, acts_self ..⟩
  | take j l t r q _ _ h => cases hlab; cases key _ _ h
  | eof j l t _ _ h => cases hlab; cases key _ _ h
  | send j l t k r _ _ h => cases hlab; cases key _ _ h
  | sendPanic j l t k r _ _ h => cases hlab; cases key _ _ h
  | close j l t c _ _ h => cases hlab; cases key _ _ h
  | closePanic j l t _ _ h => cases hlab; cases key _ _ h

section
variable [DecidableEq C] {N : Net R} {cfg : Swap.Cfg P R} {p0 : P} {start : Int} {V : EngineIn N cfg p0 start} {sha : B → C} {compile : List (Str × Option B) → Option P}

theorem run_net {d : List (FileEnt B)} {tr : List (Drain.Obs R)} {mo : List (Monitor.Live.Obs B P)} {x : Drain.St N × Monitor.Live.LSt B C P} (h : Exec V sha compile d tr mo x) : Drain.Exec N tr x.1 := by
  induction h with
  | nil => exact .nil
  | snoc _ hs ih =>
    cases hs with
    | net h => exact .snoc ih h
    | take h => exact .snoc ih h
    | mon => rw [List.append_nil]; exact ih
    | push _ _ _ h => exact .snoc ih h
    | stop => rw [List.append_nil]; exact ih

/-- The monitor and the policy engine of the pipeline, by themselves, make a run of C100. -/
theorem run_joint {d : List (FileEnt B)} {tr : List (Drain.Obs R)} {mo : List (Monitor.Live.Obs B P)} {x : Drain.St N × Monitor.Live.LSt B C P} (h : Exec V sha compile d tr mo x) :
    ∃ jt, Monitor.Joint.Exec sha compile cfg d p0 start jt ⟨x.2, V.st (x.1.st V.i)⟩ ∧ monOf jt = mo ∧ Swap.inputs (engOf jt) = takes (acts V.i tr) ∧
      ∀ k, Swap.delivered k (engOf jt) = sends k (acts V.i tr) := by
  induction h with
  | nil => exact ⟨[], by rw [show V.st ((St.start N).st V.i) = _ from V.init]; exact .nil, rfl, rfl, fun _ => rfl⟩
  | @snoc tr mo x os ms y _ hs ih =>
    obtain ⟨jt, hx, hm, hi, hd⟩ := ih
    cases hs with
    | @net s l o s' m h hp hl =>
      rcases step_at h V.i with ⟨h1, h2, h3⟩ | ⟨k, a, h1, h2, h3⟩
      · refine ⟨jt, ?_, by rw [hm, List.append_nil], by rw [acts_append, takes_append, h2, List.append_nil, hi], fun k => by rw [acts_append, sends_append, h3, List.append_nil, hd]⟩
        rw [show s'.st V.i = _ from h1]; exact hx
      · obtain ⟨os, hst, ha⟩ := engineStep_some (V.step _ _ _ _ h2)
        obtain ⟨o1, o2⟩ := engine_obs hst
        refine ⟨jt ++ os.map .eng, .snoc hx (l := .eng (V.lab k)) ?_, ?_, ?_, fun j => ?_⟩
        · unfold Monitor.Joint.step
          dsimp only
          rw [if_neg (by rw [hp k h1]; decide), hst]
          dsimp only
          rw [if_pos hl]
        · rw [Monitor.Joint.monOf_append, Monitor.Joint.monOf_eng, hm]
        · rw [Monitor.Joint.engOf_append, Monitor.Joint.engOf_eng, inputs_append, hi, o1, acts_append, takes_append, h3, ha]
        · rw [Monitor.Joint.engOf_append, Monitor.Joint.engOf_eng, delivered_append, hd, o2, acts_append, sends_append, h3, ha]
    | @take s l o s' m m' os h hp hl hm' =>
      rcases step_at h V.i with ⟨h1, h2, h3⟩ | ⟨k, a, h1, h2, h3⟩
      · rw [h1] at hl; exact absurd rfl hl
      · obtain ⟨os', hst, ha⟩ := engineStep_some (V.step _ _ _ _ h2)
        obtain ⟨o1, o2⟩ := engine_obs hst
        refine ⟨jt ++ (ms.map .mon ++ os'.map .eng), .snoc hx (l := .eng (V.lab k)) ?_, ?_, ?_, fun j => ?_⟩
        · unfold Monitor.Joint.step
          dsimp only
          rw [if_neg (by rw [hp k h1]; decide), hst]
          dsimp only
          rw [if_neg hl, hm']
        · rw [Monitor.Joint.monOf_append, Monitor.Joint.monOf_append, Monitor.Joint.monOf_eng, Monitor.Joint.monOf_mon, hm, List.append_nil]
        · rw [Monitor.Joint.engOf_append, Monitor.Joint.engOf_append, Monitor.Joint.engOf_eng, Monitor.Joint.engOf_mon, List.nil_append, inputs_append, hi, o1, acts_append, takes_append, h3, ha]
        · rw [Monitor.Joint.engOf_append, Monitor.Joint.engOf_append, Monitor.Joint.engOf_eng, Monitor.Joint.engOf_mon, List.nil_append, delivered_append, hd, o2, acts_append, sends_append, h3, ha]
    | @mon s m l m' os hl hm' hp =>
      refine ⟨jt ++ ms.map .mon, .snoc hx (l := .mon l) ?_, ?_, ?_, fun j => ?_⟩
      · unfold Monitor.Joint.step
        dsimp only
        rw [if_neg (by rw [hl]; decide), hm']
        dsimp only
        rw [hp]
      · rw [Monitor.Joint.monOf_append, Monitor.Joint.monOf_mon, hm]
      · rw [Monitor.Joint.engOf_append, Monitor.Joint.engOf_mon, List.append_nil, List.append_nil, hi]
      · rw [Monitor.Joint.engOf_append, Monitor.Joint.engOf_mon, List.append_nil, List.append_nil, hd]
    | @push s m l m' os p ps o s' hl hm' hp h =>
      obtain ⟨h2, h3⟩ := step_push h
      obtain ⟨os', hst, ha⟩ := engineStep_some (V.step _ _ _ _ h2)
      rw [V.pushes] at hst
      obtain ⟨o1, o2⟩ := engine_obs hst
      refine ⟨jt ++ (ms.map .mon ++ os'.map .eng), .snoc hx (l := .mon l) ?_, ?_, ?_, fun j => ?_⟩
      · unfold Monitor.Joint.step
        dsimp only
        rw [if_neg (by rw [hl]; decide), hm']
        dsimp only
        rw [hp]
        dsimp only
        rw [hst]
      · rw [Monitor.Joint.monOf_append, Monitor.Joint.monOf_append, Monitor.Joint.monOf_eng, Monitor.Joint.monOf_mon, hm, List.append_nil]
      · rw [Monitor.Joint.engOf_append, Monitor.Joint.engOf_append, Monitor.Joint.engOf_eng, Monitor.Joint.engOf_mon, List.nil_append, inputs_append, hi, o1, acts_append, takes_append, h3]
        rfl
      · rw [Monitor.Joint.engOf_append, Monitor.Joint.engOf_append, Monitor.Joint.engOf_eng, Monitor.Joint.engOf_mon, List.nil_append, delivered_append, hd, o2, acts_append, sends_append, h3]
        rfl
    | @stop s m m' os hf hm' =>
      refine ⟨jt ++ ms.map .mon, .snoc hx (l := .stop) ?_, ?_, ?_, fun j => ?_⟩
      · unfold Monitor.Joint.step
        rw [show (V.st (s.st V.i)).phase = _ from hf]
        dsimp only
        rw [hm']
      · rw [Monitor.Joint.monOf_append, Monitor.Joint.monOf_mon, hm]
      · rw [Monitor.Joint.engOf_append, Monitor.Joint.engOf_mon, List.append_nil, List.append_nil, hi]
      · rw [Monitor.Joint.engOf_append, Monitor.Joint.engOf_mon, List.append_nil, List.append_nil, hd]

/-- A file read for the compiler had its content in the directory at some time. -/
theorem reads {d : List (FileEnt B)} {mo : List (Monitor.Live.Obs B P)} {s : Monitor.Live.LSt B C P} (h : Monitor.Live.Exec sha compile d mo s) :
    s.dir ∈ dirsOf d mo ∧
    (∀ todo got, s.phase = .reading todo got → (∀ f ∈ todo, PolicyName f) ∧ ∀ f v, (f, v) ∈ got → PolicyName f ∧ ∃ e ∈ dirsOf d mo, v = (Monitor.Live.look e f).join) ∧
    ∀ got r room, Monitor.Live.Obs.attempted got r room ∈ mo → ∀ f v, (f, v) ∈ got → PolicyName f ∧ ∃ e ∈ dirsOf d mo, v = (Monitor.Live.look e f).join := by
  have more : ∀ (mo os : List (Monitor.Live.Obs B P)) e, e ∈ dirsOf d mo → e ∈ dirsOf d (mo ++ os) := by
    intro mo os e he
    unfold dirsOf at he ⊢
    rw [List.filterMap_append]
    rcases List.mem_cons.1 he with he | he
    · exact List.mem_cons.2 (.inl he)
    · exact List.mem_cons.2 (.inr (List.mem_append_left _ he))
  induction h with
  | nil => exact ⟨List.mem_cons_self, (fun todo got h => by cases h), (fun got r room h => by cases h)⟩
  | @snoc mo s l s' os hx hs ih =>
    obtain ⟨i1, i2, i3⟩ := ih
    have keep : ∀ os', (∀ got r room, Monitor.Live.Obs.attempted got r room ∉ os') → ∀ got r room, Monitor.Live.Obs.attempted got r room ∈ mo ++ os' →
        ∀ f v, (f, v) ∈ got → PolicyName f ∧ ∃ e ∈ dirsOf d (mo ++ os'), v = (Monitor.Live.look e f).join := by
      intro os' hno got r room hm f v hf
      rcases List.mem_append.1 hm with hm | hm
      · obtain ⟨n, e, e1, e2⟩ := i3 got r room hm f v hf
        exact ⟨n, e, more _ _ _ e1, e2⟩
      · exact absurd hm (hno _ _ _)
    have keep2 : ∀ os' todo got, s.phase = .reading todo got → (∀ f ∈ todo, PolicyName f) ∧ ∀ f v, (f, v) ∈ got → PolicyName f ∧ ∃ e ∈ dirsOf d (mo ++ os'), v = (Monitor.Live.look e f).join := by
      intro os' todo got hp
      refine ⟨(i2 todo got hp).1, fun f v hf => ?_⟩
      obtain ⟨n, e, e1, e2⟩ := (i2 todo got hp).2 f v hf
      exact ⟨n, e, more _ _ _ e1, e2⟩
    unfold Monitor.Live.step at hs
    cases l with
    | change d' es =>
      cases hs
      refine ⟨?_, fun todo got h => keep2 _ todo got h, keep _ (fun got r room h => by cases List.mem_singleton.1 h)⟩
      unfold dirsOf
      rw [List.filterMap_append]
      exact List.mem_cons.2 (.inr (List.mem_append_right _ (List.mem_singleton.2 rfl)))
    | start =>
      dsimp only at hs
      split at hs
      · cases hs; exact ⟨more _ _ _ i1, (fun todo got h => by cases h), keep _ (fun got r room h => by cases h)⟩
      · cases hs
    | add =>
      dsimp only at hs
      split at hs
      · cases hs; exact ⟨more _ _ _ i1, fun todo got h => keep2 _ todo got h, keep _ (fun got r room h => by cases h)⟩
      · cases hs
    | recv =>
      dsimp only at hs
      split at hs
      · cases hs; exact ⟨more _ _ _ i1, (fun todo got h => by cases h), keep _ (fun got r room h => by cases List.mem_singleton.1 h)⟩
      · cases hs
    | drain =>
      dsimp only at hs
      split at hs
      · cases hs; exact ⟨more _ _ _ i1, (fun todo got h => by cases h), keep _ (fun got r room h => by cases List.mem_singleton.1 h)⟩
      · cases hs
    | poll =>
      dsimp only at hs
      split at hs
      · cases hs
        refine ⟨more _ _ _ i1, fun todo got h => ?_, keep _ (fun got r room h => by cases List.mem_singleton.1 h)⟩
        dsimp only at h
        split at h
        · cases h
        · split at h <;> cases h
      · cases hs
    | list =>
      dsimp only at hs
      split at hs
      · split at hs <;> cases hs <;> exact ⟨more _ _ _ i1, (fun todo got h => by cases h), keep _ (fun got r room h => by cases List.mem_singleton.1 h)⟩
      · cases hs
    | sum =>
      dsimp only at hs
      split at hs
      · cases hs
        refine ⟨more _ _ _ i1, fun todo got h => ?_, keep _ (fun got r room h => by cases h)⟩
        dsimp only at h
        split at h <;> cases h
      · split at hs <;> cases hs <;> exact ⟨more _ _ _ i1, (fun todo got h => by cases h), keep _ (fun got r room h => by cases h)⟩
      · cases hs
    | ask =>
      dsimp only at hs
      split at hs
      · cases hs
        refine ⟨more _ _ _ i1, fun todo got h => ?_, keep _ (fun got r room h => by cases h)⟩
        dsimp only at h
        split at h <;> cases h
      · cases hs
    | opens =>
      dsimp only at hs
      split at hs
      · split at hs <;> cases hs
        · exact ⟨more _ _ _ i1, (fun todo got h => by cases h), keep _ (fun got r room h => by cases h)⟩
        · rename_i q qs hq
          refine ⟨more _ _ _ i1, fun todo got h => ?_, keep _ (fun got r room h => by cases h)⟩
          cases h
          refine ⟨?_, fun f v hf => by cases hf⟩
          intro f hf
          rw [← hq] at hf
          obtain ⟨g, g1, rfl⟩ := List.mem_map.1 hf
          unfold Monitor.listRecursiveFilePaths Monitor.hasSuffix at g1
          rw [List.mem_filter, Bool.or_eq_true, List.isSuffixOf_iff_suffix, List.isSuffixOf_iff_suffix] at g1
          exact g1.2
      · cases hs
    | read =>
      dsimp only at hs
      split at hs
      · rename_i got hp
        have fin : ∀ r' room', ∀ got' r room, Monitor.Live.Obs.attempted got' r room ∈ mo ++ [Monitor.Live.Obs.attempted got r' room'] →
            ∀ f v, (f, v) ∈ got' → PolicyName f ∧ ∃ e ∈ dirsOf d (mo ++ [Monitor.Live.Obs.attempted got r' room']), v = (Monitor.Live.look e f).join := by
          intro r' room' got' r room hm f v hf
          rcases List.mem_append.1 hm with hm | hm
          · obtain ⟨n, e, e1, e2⟩ := i3 got' r room hm f v hf
            exact ⟨n, e, more _ _ _ e1, e2⟩
          · cases List.mem_singleton.1 hm
            exact (keep2 _ [] got hp).2 f v hf
        split at hs
        · cases hs; exact ⟨more _ _ _ i1, (fun todo got h => by cases h), fin _ _⟩
        · split at hs <;> cases hs <;> exact ⟨more _ _ _ i1, (fun todo got h => by cases h), fin _ _⟩
      · rename_i f0 fs got hp
        cases hs
        refine ⟨more _ _ _ i1, ?_, keep _ (fun got r room h => by cases h)⟩
        intro todo got' h
        cases h
        refine ⟨fun f hf => (i2 _ _ hp).1 f (List.mem_cons_of_mem _ hf), fun f v hf => ?_⟩
        rcases List.mem_append.1 hf with hf | hf
        · exact (keep2 _ _ _ hp).2 f v hf
        · cases List.mem_singleton.1 hf
          exact ⟨(i2 _ _ hp).1 _ List.mem_cons_self, s.dir, more _ _ _ i1, rfl⟩
      · cases hs
    | take =>
      dsimp only at hs
      split at hs
      · cases hs; exact ⟨more _ _ _ i1, fun todo got h => keep2 _ todo got h, keep _ (fun got r room h => by cases List.mem_singleton.1 h)⟩
      · cases hs
    | stop =>
      dsimp only at hs
      split at hs
      · cases hs; exact ⟨more _ _ _ i1, (fun todo got h => by cases h), keep _ (fun got r room h => by cases List.mem_singleton.1 h)⟩
      · cases hs

/-- The policy engine of the pipeline: what it adopted, what it is about to adopt and what is waiting is what the monitor pushed, in that order. -/
theorem run_engine {d : List (FileEnt B)} {tr : List (Drain.Obs R)} {mo : List (Monitor.Live.Obs B P)} {x : Drain.St N × Monitor.Live.LSt B C P} (h : Exec V sha compile d tr mo x) :
    Monitor.Live.Exec sha compile d mo x.2 ∧ x.2.chan = (V.st (x.1.st V.i)).pending ∧
    ∃ tr1, Swap.Exec cfg p0 start [] tr1 (V.st (x.1.st V.i)) ∧ Swap.inputs tr1 = takes (acts V.i tr) ∧ (∀ k, Swap.delivered k tr1 = sends k (acts V.i tr)) ∧
      Swap.adoptions tr1 ++ Swap.taken (V.st (x.1.st V.i)).phase ++ (V.st (x.1.st V.i)).pending = Monitor.Live.pushed mo := by
  obtain ⟨jt, h1, h2, h3, h4⟩ := run_joint h
  obtain ⟨k1, k2, k3, k4⟩ := Monitor.Joint.both_run h1
  rw [h2] at k1 k4
  refine ⟨k1, k3, engOf jt, k2, h3, h4, ?_⟩
  rw [(Swap.inv_exec k2).pend, k4, List.nil_append]

/-- What the monitor pushes is what the compiler makes of files with contents they had in the directory at some time. -/
theorem pushed_compiled {d : List (FileEnt B)} {mo : List (Monitor.Live.Obs B P)} {s : Monitor.Live.LSt B C P} (h : Monitor.Live.Exec sha compile d mo s) {p : P} (hp : p ∈ Monitor.Live.pushed mo) :
    ∃ got, Monitor.Live.Obs.attempted got (some p) true ∈ mo ∧ compile got = some p ∧ ∀ f v, (f, v) ∈ got → PolicyName f ∧ ∃ e ∈ dirsOf d mo, v = (Monitor.Live.look e f).join := by
  obtain ⟨o, ho, hv⟩ := List.mem_filterMap.1 hp
  cases o with
  | attempted got r room =>
    cases r with
    | none => cases hv
    | some r =>
      cases room with
      | false => cases hv
      | true =>
        cases hv
        obtain ⟨pre, post, hpp⟩ := List.append_of_mem ho
        exact ⟨got, ho, ((Monitor.Live.attempts_faithful h hpp).1).symm, (reads h).2.2 _ _ _ ho⟩
  | _ => cases hv

/-- A step of the pipeline that is not the monitor's can be made beside the monitor. -/
theorem lift {d : List (FileEnt B)} {tr : List (Drain.Obs R)} {mo : List (Monitor.Live.Obs B P)} {x : Drain.St N × Monitor.Live.LSt B C P} (h : Exec V sha compile d tr mo x)
    {l : Drain.Label N} {o : Drain.Obs R} {s' : Drain.St N} (hs : Drain.Step N x.1 l o s') (hl : ∀ k, l = .stage V.i k → pushing (V.lab k) = false) :
    ∃ ms m', Exec V sha compile d (tr ++ [o]) (mo ++ ms) (s', m') ∧ m'.dir = x.2.dir ∧ Monitor.Live.pushed ms = [] := by
  by_cases hp : (V.st (s'.st V.i)).pending.length = (V.st (x.1.st V.i)).pending.length
  · exact ⟨[], x.2, .snoc h (.net hs hl hp), rfl, rfl⟩
  · obtain ⟨-, hc, -⟩ := run_engine h
    have : ∃ r rs, x.2.chan = r :: rs := by
      rw [hc]
      rcases step_at hs V.i with ⟨h1, -, -⟩ | ⟨k, a, h1, h2, -⟩
      · rw [h1] at hp; exact absurd rfl hp
      · obtain ⟨os, hst, -⟩ := engineStep_some (V.step _ _ _ _ h2)
        cases hq : (V.st (x.1.st V.i)).pending with
        | cons r rs => exact ⟨r, rs, rfl⟩
        | nil =>
          exfalso
          obtain ⟨-, hz⟩ := Monitor.Joint.swap_pending (hl k h1) hst
          rcases hz with hz | ⟨q, hz⟩
          · exact hp (congrArg List.length hz.1)
          · rw [hq] at hz; cases hz.1
    obtain ⟨r, rs, hc⟩ := this
    refine ⟨[.taken r], { x.2 with chan := rs }, .snoc h (.take hs hl hp ?_), rfl, rfl⟩
    unfold Monitor.Live.step
    dsimp only
    rw [hc]

/-- The monitor is never held up by the pipeline: what it can do by itself it can do beside it, and the pipeline sees no more of it than the interpreter pushed. -/
theorem lift_mon {d : List (FileEnt B)} {tr : List (Drain.Obs R)} {mo : List (Monitor.Live.Obs B P)} {x : Drain.St N × Monitor.Live.LSt B C P} (h : Exec V sha compile d tr mo x) (hnp : x.1.panicked = false)
    {l : Monitor.Live.Label B} {m' : Monitor.Live.LSt B C P} {os : List (Monitor.Live.Obs B P)} (hl : shared l = false) (hs : Monitor.Live.step sha compile x.2 l = some (m', os)) :
    ∃ tr' s', Exec V sha compile d (tr ++ tr') (mo ++ os) (s', m') ∧ s'.panicked = false ∧ s'.buf = x.1.buf ∧ s'.closed = x.1.closed ∧ driven tr' = [] ∧ (∀ j, j ≠ V.i → s'.st j = x.1.st j) ∧
      V.st (s'.st V.i) = { V.st (x.1.st V.i) with pending := m'.chan } := by
  obtain ⟨-, hc, -⟩ := run_engine h
  obtain ⟨c1, c2⟩ := Monitor.Joint.live_pushed hl hs
  rcases c2 with c2 | ⟨hlt, p, c2⟩
  · refine ⟨[], x.1, .snoc h (.mon hl hs c2), hnp, rfl, rfl, rfl, fun _ _ => rfl, ?_⟩
    rw [c2, List.append_nil] at c1
    rw [c1, hc]
  · obtain ⟨t, ht1, ht2⟩ := V.accepts (x.1.st V.i) p (by rw [← hc]; exact hlt)
    refine ⟨_, _, .snoc h (.push hl hs c2 (.tau x.1 V.i (V.push p) t hnp V.stage ht1)), hnp, rfl, rfl, rfl, fun j hj => Function.update_of_ne hj t x.1.st, ?_⟩
    change V.st (Function.update x.1.st V.i t V.i) = _
    rw [Function.update_self, ht2, c1, c2, hc]

/-- The same for many steps. -/
theorem lift_run {d : List (FileEnt B)} {tr : List (Drain.Obs R)} {mo : List (Monitor.Live.Obs B P)} {x : Drain.St N × Monitor.Live.LSt B C P} (h : Exec V sha compile d tr mo x) (hnp : x.1.panicked = false)
    {ls : List (Monitor.Live.Label B)} {m' : Monitor.Live.LSt B C P} {os : List (Monitor.Live.Obs B P)} (hl : ∀ l ∈ ls, shared l = false) (hs : Machine.run (Monitor.Live.step sha compile) x.2 ls = some (m', os)) :
    ∃ tr' s', Exec V sha compile d (tr ++ tr') (mo ++ os) (s', m') ∧ s'.panicked = false ∧ s'.buf = x.1.buf ∧ s'.closed = x.1.closed ∧ driven tr' = [] ∧ (∀ j, j ≠ V.i → s'.st j = x.1.st j) ∧
      V.st (s'.st V.i) = { V.st (x.1.st V.i) with pending := m'.chan } := by
  induction ls generalizing tr mo x os with
  | nil =>
    cases hs
    obtain ⟨-, hc, -⟩ := run_engine h
    exact ⟨[], x.1, by rw [List.append_nil, List.append_nil]; exact h, hnp, rfl, rfl, rfl, fun _ _ => rfl, by rw [hc]⟩
  | cons l ls ih =>
    unfold Machine.run at hs
    split at hs
    · cases hs
    · rename_i m1 os1 hs1
      split at hs
      · cases hs
      · rename_i m2 os2 hr
        cases hs
        obtain ⟨t1, s1, g1, g2, g3, g4, g5, g6, g7⟩ := lift_mon h hnp (hl l List.mem_cons_self) hs1
        obtain ⟨t2, s2, k1, k2, k3, k4, k5, k6, k7⟩ := ih g1 g2 (fun l h => hl l (List.mem_cons_of_mem _ h)) hr
        refine ⟨t1 ++ t2, s2, ?_, k2, k3.trans g3, k4.trans g4, by rw [driven_append, g5, k5]; rfl, fun j hj => (k6 j hj).trans (g6 j hj), ?_⟩
        · rw [← List.append_assoc, ← List.append_assoc]; exact k1
        · rw [k7]; dsimp only; rw [g7]

/-- The pipeline can finish beside the monitor, without the monitor or the directory doing anything. -/
theorem can_finish (hT : Tree N) (hC : ∀ i, i < N.n → Contract (N.comp i)) {d : List (FileEnt B)} {tr : List (Drain.Obs R)} {mo : List (Monitor.Live.Obs B P)} {x : Drain.St N × Monitor.Live.LSt B C P}
    (h : Exec V sha compile d tr mo x) (hr : rootClosed tr = true) :
    ∃ tr' ms y, Exec V sha compile d tr' (mo ++ ms) y ∧ Waited y.1 ∧ driven tr' = driven tr ∧ y.2.dir = x.2.dir ∧ Monitor.Live.pushed ms = [] := by
  classical
  obtain ⟨hS, hf⟩ := fair_schedule_exists N x.1
  obtain ⟨k, hw, -⟩ := wait_returns hT hC hS (run_net h) hr hf
  have key : ∀ k, ∃ tr' ms m, Exec V sha compile d tr' (mo ++ ms) (busy N x.1 k, m) ∧ rootClosed tr' = true ∧ driven tr' = driven tr ∧ m.dir = x.2.dir ∧ Monitor.Live.pushed ms = [] := by
    intro k
    induction k with
    | zero => exact ⟨tr, [], x.2, by rw [List.append_nil]; exact h, hr, rfl, rfl, rfl⟩
    | succ k ih =>
      obtain ⟨tr', ms, m, i1, i2, i3, i4, i5⟩ := ih
      cases ho : decide (CanStep N (busy N x.1 k)) with
      | false =>
        rcases hS.no k ho with e | ⟨l, o, hs, hl⟩
        · exact ⟨tr', ms, m, by rw [e]; exact i1, i2, i3, i4, i5⟩
        · have e : busy N x.1 (k + 1) = busy N x.1 k := by
            change next N _ = _
            unfold next
            rw [dif_neg (of_decide_eq_false ho)]
          exact ⟨tr', ms, m, by rw [e]; exact i1, i2, i3, i4, i5⟩
      | true =>
        obtain ⟨l, o, hs, hl⟩ := hS.yes k ho
        have hnp : ∀ j, l = .stage V.i j → pushing (V.lab j) = false := by
          intro j hj
          rw [hj] at hl
          refine V.owns j ?_
          unfold Drain.Label.own at hl
          simpa using hl
        obtain ⟨ms', m', g1, g2, g3⟩ := lift i1 hs hnp
        have hc : (busy N x.1 k).closed 0 = true := (inv_exec hT hC (run_net i1)).closed0.trans i2
        have : driven [o] = [] := by
          clear g1
          generalize busy N x.1 (k + 1) = b1 at hs
          generalize busy N x.1 k = b at hs hc
          cases hs with
          | drive r hp hcl hroom => rw [hc] at hcl; cases hcl
          | closeRoot => rfl
          | tau => rfl
          | take => rfl
          | eof => rfl
          | send => rfl
          | sendPanic => rfl
          | close => rfl
          | closePanic => rfl
        refine ⟨tr' ++ [o], ms ++ ms', m', by rw [← List.append_assoc]; exact g1, by rw [rootClosed_append, i2]; rfl, by rw [driven_append, this, List.append_nil, i3], g2.trans i4, ?_⟩
        rw [Monitor.Live.pushed_append, i5, g3]
        rfl
  obtain ⟨tr', ms, m, i1, i2, i3, i4, i5⟩ := key k
  exact ⟨tr', ms, _, i1, hw, i3, i4, i5⟩
/-- Whatever the monitor does, the driver can send records for which there is room and close the channel. -/
theorem drive_and_close {d : List (FileEnt B)} {tr : List (Drain.Obs R)} {mo : List (Monitor.Live.Obs B P)} {x : Drain.St N × Monitor.Live.LSt B C P} (h : Exec V sha compile d tr mo x)
    (hn : x.1.panicked = false) (hcl : x.1.closed 0 = false) (rs : List R) (hr : (x.1.buf 0).length + rs.length ≤ N.cap) :
    ∃ tr' ms y, Exec V sha compile d tr' (mo ++ ms) y ∧ rootClosed tr' = true ∧ driven tr' = driven tr ++ rs ∧ y.2.dir = x.2.dir := by
  induction rs generalizing tr mo x with
  | nil =>
    obtain ⟨ms, m', e, g, -⟩ := lift h (.closeRoot _ hn hcl) (fun k hk => by cases hk)
    refine ⟨_, ms, _, e, ?_, ?_, g⟩
    · simp only [rootClosed_append, root_root, Bool.or_true]
    · simp only [driven_append, driven_root]
  | cons r rs ih =>
    rw [List.length_cons] at hr
    obtain ⟨ms, m', e, g, -⟩ := lift h (.drive _ r hn hcl (by omega)) (fun k hk => by cases hk)
    obtain ⟨tr', ms', y, e', k1, k2, k3⟩ := ih e hn hcl (by
      dsimp only
      rw [Function.update_self, List.length_append, List.length_singleton]
      omega)
    refine ⟨tr', ms ++ ms', y, by rw [← List.append_assoc]; exact e', k1, ?_, k3.trans g⟩
    rw [k2, driven_append, driven_driven, List.append_assoc]
    rfl

end

end Verif.Pipeline.Reload
