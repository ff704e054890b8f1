import Verif.Pipeline.Wired
import Verif.Pipeline.Process
import Verif.Pipeline.Stages
/-
C96, first part: which type a channel has, and what a stage that refuses its inputs does to the program.
Sources: /repo/driver/pipeline/plugincache.go:196-214, /repo/driver/pipeline/pipeline.go:141-200, 286-294
-/
namespace Verif.Pipeline
open Verif.Decimal (Str)

variable {F : Type}

/-! ### Specification -/

/-- All channel references of a configuration in the order in which `Load` meets them: stage by stage, inputs before outputs. -/
def references (cs : List Conf) : List (Option Str) := cs.flatMap (fun c => declared c kIn ++ declared c kOut)

/-- The type word beside the first mention of a channel name. -/
def firstType : List (Option Str) → Str → Option Str
  | [], _ => none
  | none :: rs, n => firstType rs n
  | some s :: rs, n =>
    match fields s with
    | [m, t] => if m = n then some t else firstType rs n
    | _ => firstType rs n

/-! ### Proofs -/

theorem firstType_append (a b : List (Option Str)) (n : Str) : firstType (a ++ b) n = (firstType a n).or (firstType b n) := by
  induction a with
  | nil => rfl
  | cons o a ih =>
    cases o with
    | none => exact ih
    | some s =>
      rw [List.cons_append]
      generalize firstType b n = x at ih ⊢
      unfold firstType
      split
      · split
        · rfl
        · exact ih
      · exact ih

theorem firstType_one {s n t : Str} (h : fields s = [n, t]) (m : Str) : firstType [some s] m = if n = m then some t else none := by
  unfold firstType
  rw [h]
  rfl

/-- The channel cache after the references `ms`: it holds the names mentioned, each made for its first type. -/
def TInv (fac : Str → F) (ms : List (Option Str)) (cs : Chans F) : Prop :=
  (∀ n c, cs.byName.get n = some c → ∃ t, firstType ms n = some t ∧ c.made = fac t) ∧ (∀ n, cs.byName.get n = none → firstType ms n = none)

/-- The channel types of a registry are made by the factories `fac`. -/
def RegOk (fac : Str → F) (r : Regs F) : Prop := ∀ t f, r.chans.get t = some f → f = fac t

/-- Loading and initialising processors does not change what a channel type means. -/
structure Keeps (fac : Str → F) (E : Env F) (I : Regs F → Prop) : Prop where
  ok : ∀ r, I r → RegOk fac r
  get : ∀ r p r' f, I r → E.getProc r p = (r', .ok f) → I r'
  init : ∀ r r' f c p, I r → E.getProc r p = (r', .ok f) → ∀ r'', E.init f c r' = .ok r'' → I r''

theorem getChan_types {fac : Str → F} {r : Regs F} {cs cs' : Chans F} {s : Str} {c : Chan F} {ms : List (Option Str)} (hr : RegOk fac r) (hT : TInv fac ms cs)
    (h : getChan r cs s = (cs', .ok c)) : TInv fac (ms ++ [some s]) cs' := by
  unfold getChan at h
  split at h
  · rename_i name type rest hf
    by_cases hne : rest ≠ []
    · rw [if_pos hne] at h; simp at h
    rw [if_neg hne] at h
    have hne : rest = [] := Classical.not_not.1 hne
    subst hne
    split at h
    · rename_i c0 hg
      simp only [Prod.mk.injEq, Res.ok.injEq] at h
      obtain ⟨rfl, rfl⟩ := h
      refine ⟨fun n d hd => ?_, fun n hn => ?_⟩
      · obtain ⟨t, h1, h2⟩ := hT.1 n d hd
        exact ⟨t, by rw [firstType_append, h1]; rfl, h2⟩
      · rw [firstType_append, hT.2 n hn, firstType_one hf, if_neg]
        · rfl
        · intro e; subst e; rw [hg] at hn; cases hn
    · rename_i hg
      split at h
      · rename_i f hc
        simp only [Prod.mk.injEq, Res.ok.injEq] at h
        obtain ⟨rfl, rfl⟩ := h
        have hget : ∀ n, AMap.get (cs.byName.set name ⟨cs.next, f⟩) n = if name = n then some ⟨cs.next, f⟩ else cs.byName.get n :=
          fun n => AMap.get_set _ _ _ _
        refine ⟨fun n d hd => ?_, fun n hn => ?_⟩
        · dsimp only at hd
          rw [hget] at hd
          by_cases e : name = n
          · rw [if_pos e] at hd
            cases hd
            refine ⟨type, ?_, hr type f hc⟩
            rw [firstType_append, hT.2 n (e ▸ hg), firstType_one hf, if_pos e]
            rfl
          · rw [if_neg e] at hd
            obtain ⟨t, h1, h2⟩ := hT.1 n d hd
            exact ⟨t, by rw [firstType_append, h1]; rfl, h2⟩
        · dsimp only at hn
          rw [hget] at hn
          by_cases e : name = n
          · rw [if_pos e] at hn; cases hn
          · rw [if_neg e] at hn
            rw [firstType_append, hT.2 n hn, firstType_one hf, if_neg e]
            rfl
      · simp at h
  · simp at h

theorem getChans_types {fac : Str → F} {r : Regs F} {ss : List (Option Str)} {cs cs' : Chans F} {l : List (Chan F)} {ms : List (Option Str)} (hr : RegOk fac r)
    (hT : TInv fac ms cs) (h : getChans r cs ss = (cs', .ok l)) : TInv fac (ms ++ ss) cs' := by
  induction ss generalizing cs l ms with
  | nil =>
    simp only [getChans, Prod.mk.injEq, Res.ok.injEq] at h
    obtain ⟨rfl, rfl⟩ := h
    rw [List.append_nil]; exact hT
  | cons o ss ih =>
    cases o with
    | none => simp [getChans] at h
    | some s =>
      unfold getChans at h
      split at h
      · rename_i cs1 c hc
        split at h
        · rename_i cs2 l2 hl
          simp only [Prod.mk.injEq, Res.ok.injEq] at h
          obtain ⟨rfl, rfl⟩ := h
          have := ih (getChan_types hr hT hc) hl
          rwa [List.append_assoc] at this
        · simp at h
        · simp at h
      · simp at h
      · simp at h

theorem loadStage_types {fac : Str → F} {E : Env F} {I : Regs F → Prop} (hK : Keeps fac E I) {ms : List (Option Str)} {l l' : Load F} {c : Conf} (hI : I l.regs)
    (hT : TInv fac ms l.chans) (h : loadStage E l c = .done l') : I l'.regs ∧ TInv fac (ms ++ (declared c kIn ++ declared c kOut)) l'.chans := by
  unfold loadStage at h
  split at h
  · cases h
  rename_i p hp
  split at h
  · cases h
  · cases h
  rename_i r1 f hg
  split at h
  · cases h
  · cases h
  rename_i r2 hi
  have hr2 : I r2 := hK.init _ _ _ _ _ hI hg _ hi
  split at h
  · cases h
  rename_i vin hin
  split at h
  · cases h
  · cases h
  rename_i cs1 ins h1
  have din : declared c kIn = chanNames vin := by unfold declared; rw [hin]
  have t1 := getChans_types (hK.ok _ hr2) hT h1
  split at h
  · rename_i hout
    have dout : declared c kOut = [] := by unfold declared; rw [hout]
    cases h
    refine ⟨hr2, ?_⟩
    rw [din, dout, List.append_nil]; exact t1
  · rename_i vout hout
    have dout : declared c kOut = chanNames vout := by unfold declared; rw [hout]
    split at h
    · cases h
    · cases h
    rename_i cs2 outs h2
    have t2 := getChans_types (hK.ok _ hr2) t1 h2
    cases h
    refine ⟨hr2, ?_⟩
    rw [din, dout, ← List.append_assoc]; exact t2

theorem loadStages_types {fac : Str → F} {E : Env F} {I : Regs F → Prop} (hK : Keeps fac E I) {pre cs : List Conf} {l l' : Load F} (hI : I l.regs)
    (hT : TInv fac (references pre) l.chans) (h : loadStages E l cs = .done l') : I l'.regs ∧ TInv fac (references (pre ++ cs)) l'.chans := by
  induction cs generalizing pre l with
  | nil => simp only [loadStages, Out.done.injEq] at h; subst h; rw [List.append_nil]; exact ⟨hI, hT⟩
  | cons c cs ih =>
    unfold loadStages at h
    split at h
    · rename_i l1 h1
      obtain ⟨hI1, hT1⟩ := loadStage_types hK hI hT h1
      have := ih (pre := pre ++ [c]) hI1 (by unfold references at hT1 ⊢; simpa using hT1) h
      simpa using this
    · rename_i hne
      exact absurd h (hne l')

theorem loadStages_procs {fac : Str → F} {E : Env F} {I : Regs F → Prop} (hK : Keeps fac E I) {Q : Str → F → Prop}
    (hQ : ∀ r p r' f, I r → E.getProc r p = (r', .ok f) → Q p f) {pre cs : List Conf} {l l' : Load F} (hI : I l.regs) (hT : TInv fac (references pre) l.chans)
    (hlen : l.stages.length = pre.length)
    (hpre : ∀ (i : Nat) c st, pre[i]? = some c → l.stages[i]? = some st → ∃ p, strAt c kProc = some p ∧ Q p st.proc) (h : loadStages E l cs = .done l') :
    ∀ (i : Nat) c st, (pre ++ cs)[i]? = some c → l'.stages[i]? = some st → ∃ p, strAt c kProc = some p ∧ Q p st.proc := by
  induction cs generalizing pre l with
  | nil => simp only [loadStages, Out.done.injEq] at h; subst h; rw [List.append_nil]; exact hpre
  | cons c cs ih =>
    unfold loadStages at h
    split at h
    · rename_i l1 h1
      obtain ⟨hI1, hT1⟩ := loadStage_types hK hI hT h1
      obtain ⟨p, f, r1, r2, k1, k2, -, -, k3, k4⟩ := loaded_stage_valid E l l1 c h1
      obtain ⟨st0, rest, e0⟩ : ∃ st0 rest, l1.stages.drop l.stages.length = st0 :: rest := by
        cases hd : l1.stages.drop l.stages.length with
        | nil => rw [hd] at k4; cases k4
        | cons a b => exact ⟨a, b, rfl⟩
      rw [e0, List.map_cons, List.cons.injEq, List.map_eq_nil_iff] at k4
      rw [e0, k4.2] at k3
      have := ih (pre := pre ++ [c]) hI1 (by unfold references at hT1 ⊢; simpa using hT1) (by rw [k3]; simp [hlen]) ?_ h
      · simpa using this
      intro i c' st' hc' hst'
      rw [k3] at hst'
      by_cases hlt : i < pre.length
      · rw [List.getElem?_append_left hlt] at hc'
        rw [List.getElem?_append_left (by rw [hlen]; exact hlt)] at hst'
        exact hpre i c' st' hc' hst'
      · have hlt' : pre.length ≤ i := by omega
        rw [List.getElem?_append_right hlt'] at hc'
        rw [List.getElem?_append_right (by rw [hlen]; exact hlt'), hlen] at hst'
        have h0 : i - pre.length = 0 := by
          have := (List.getElem?_eq_some_iff.1 hc').1
          simp at this; omega
        rw [h0] at hc' hst'
        simp only [List.getElem?_cons_zero, Option.some.injEq] at hc' hst'
        subst hc' hst'
        exact ⟨p, k1, by rw [k4.1]; exact hQ _ _ _ _ hI k2⟩
    · rename_i hne
      exact absurd h (hne l')

/-! ### C96 -/

/-- Every channel of a loaded pipeline was made for the type written beside the first mention of its name in the configuration; type words at later mentions, right or
wrong, have no effect. -/
theorem type_of_first_mention {fac : Str → F} {E : Env F} {I : Regs F → Prop} (hK : Keeps fac E I) {r : Regs F} (hI : I r) {cs : List Conf} {l : Load F}
    (h : loadStages E { regs := r } cs = .done l) {i : Nat} {c : Conf} {st : Stage F} (hc : cs[i]? = some c) (hs : l.stages[i]? = some st) :
    ∀ p ∈ refs c st, ∃ n t, p.1.bind chanName = some n ∧ firstType (references cs) n = some t ∧ p.2.made = fac t := by
  have hL := loadStages_inv E [] cs _ l (linv_start r) h
  rw [List.nil_append] at hL
  have hT := (loadStages_types hK (pre := []) (l := { regs := r }) hI ⟨fun _ _ h => (by cases h), fun _ _ => rfl⟩ h).2
  rw [List.nil_append] at hT
  intro p hp
  obtain ⟨s, n, t, h1, h2, h3⟩ := (hL.stage i c st hc hs).2.2.2 p hp
  obtain ⟨t', h4, h5⟩ := hT.1 n p.2 h3
  exact ⟨n, t', by rw [h1]; simp [chanName, h2], h4, h5⟩

/-! ### A stage that refuses its inputs -/

namespace Drain

/-- A stage that was given no input or more than one: `Process` returns at once, without `wg.Done` (reader.go:82-85, processor.go:93-96, policyengine.go:120-123,
exporter.go:112-115), and `Cleanup` closes the outputs (pipeline.go:291-294). -/
def refusing (R : Type) (nOut : Nat) : Comp R where
  S := Bool
  L := Unit
  init := false
  step s _ := if s = false then some (true, .close) else none
  nOut := nOut
  env _ := false
  returned _ := false
  cleaned s := s

end Drain

open Process in
/-- A pipeline with such a stage never finishes: whatever the driver does, it does not get past waiting for the stages, so `Run` does not return. -/
theorem refusing_stage_never_finishes {A R : Type} {inj : A → R} {N : Drain.Net R} {prog : List (DAct A)} {i k : Nat} (hi : i < N.n) (hc : N.comp i = Drain.refusing R k)
    {tr : List (Drain.Obs R)} {s : PSt A N} (h : PExec inj N prog tr s) (hw : .wait ∈ prog) : .wait ∈ s.todo := by
  have notWaited : ∀ n : Drain.St N, ¬ Drain.Waited n := by
    intro n hn
    have h1 := hn i hi
    revert h1
    generalize n.st i = x
    revert x
    rw [hc]
    intro x h1
    cases h1
  induction h with
  | nil => exact hw
  | snoc _ hs ih =>
    cases hs with
    | check => exact (List.mem_cons.1 ih).resolve_left (fun e => (by cases e))
    | send => exact (List.mem_cons.1 ih).resolve_left (fun e => (by cases e))
    | close => exact (List.mem_cons.1 ih).resolve_left (fun e => (by cases e))
    | wait _ _ _ hw => exact absurd hw (notWaited _)
    | ret => exact (List.mem_cons.1 ih).resolve_left (fun e => (by cases e))
    | stage => exact ih

open Process in
/-- The same happens to every pipeline when the driver feeds a channel that no stage reads: the stages see neither records nor the end of the input. -/
theorem unread_channel_never_finishes {A R : Type} {inj : A → R} {N : Drain.Net R} (hT : Drain.Tree N) (hC : ∀ i, i < N.n → Drain.Contract (N.comp i)) {prog : List (DAct A)}
    (hprog : ∀ a ∈ prog, a = .wait ∨ a = .ret false) {tr : List (Drain.Obs R)} {s : PSt A N} (h : PExec inj N prog tr s) :
    Drain.takes (Drain.acts 0 tr) = [] ∧ (.wait ∈ prog → .wait ∈ s.todo) := by
  obtain ⟨done, hI⟩ := pinv hT hC h
  have hnone : .close ∉ done := fun hm => by
    rcases hprog _ (by rw [hI.split]; exact List.mem_append_left _ hm) with e | e <;> cases e
  have hroot : Drain.rootClosed tr ≠ true := fun e => hnone (hI.root.1 e)
  refine ⟨?_, fun hw => ?_⟩
  · have h0 := (Drain.inv_exec hT hC hI.net).root
    have hd := hI.sentOk
    have : sent done = [] := by
      unfold sent
      rw [List.filterMap_eq_nil_iff]
      intro a ha
      rcases hprog a (by rw [hI.split]; exact List.mem_append_left _ ha) with rfl | rfl <;> rfl
    rw [this, List.map_nil] at hd
    rw [hd] at h0
    exact (List.append_eq_nil_iff.1 h0).1
  · rw [hI.split] at hw
    rcases List.mem_append.1 hw with hw | hw
    · exact absurd (Drain.drained_when_wait_returns hT hC hI.net (hI.waited hw)).1 hroot
    · exact hw

/-! ### The hypotheses are met -/

namespace Drain

/-- A pipeline whose only stage refuses its inputs. -/
def refusingNet : Net Nat := ⟨1, fun _ => refusing Nat 0, fun _ _ => 1, 2⟩

/-- A pipeline whose only stage takes what it is sent. -/
def takingNet : Net Nat := ⟨1, fun _ => sync (fun h r => (h + r, [])) 0 0, fun _ _ => 1, 2⟩

end Drain

open Process Drain in
/-- The driver sends a record and closes its channel, the stage gives up: the record stays in the channel and the driver waits. -/
example : ∃ (tr : List (Drain.Obs Nat)) (s : PSt Nat refusingNet), PExec id refusingNet [.send 5, .close, .wait, .ret false] tr s ∧ s.todo = [.wait, .ret false] ∧
    s.net.buf 0 = [5] ∧ s.status = none ∧ (DAct.wait : DAct Nat) ∈ ([.send 5, .close, .wait, .ret false] : List (DAct Nat)) := by
  have e0 : PExec (A := Nat) id refusingNet [.send 5, .close, .wait, .ret false] [] (PSt.start refusingNet _) := .nil
  have e1 := PExec.snoc e0 (PStep.send 5 _ _ _ _ (Drain.Step.drive (Drain.St.start refusingNet) 5 rfl rfl (show 0 < 2 by decide)))
  have e2 := PExec.snoc e1 (PStep.stage (N := refusingNet) 0 () (.stage 0 .close) _ _ _ _ (Drain.Step.close (N := refusingNet) _ 0 () true (fun _ => false) rfl (show 0 < 1 by decide) rfl rfl))
  have e3 := PExec.snoc e2 (PStep.close _ _ _ _ (Drain.Step.closeRoot _ rfl rfl))
  exact ⟨_, _, e3, rfl, rfl, rfl, List.mem_cons_of_mem _ (List.mem_cons_of_mem _ (List.mem_cons_self ..))⟩

open Process Drain in
/-- A driver that writes to a channel of its own leaves the root channel alone. -/
example : Drain.Tree takingNet ∧ (∀ i, i < takingNet.n → Drain.Contract (takingNet.comp i)) ∧
    (∀ a ∈ ([.wait, .ret false] : List (DAct Nat)), a = .wait ∨ a = .ret false) ∧ PExec id takingNet [.wait, .ret false] [] (PSt.start takingNet [.wait, .ret false]) := by
  refine ⟨?_, fun i _ => sync_contract _ _ _, fun a ha => ?_, .nil⟩
  · exact ⟨show 0 < 1 by decide, show 0 < 2 by decide, fun i k _ hk => absurd (show k < 0 from hk) (Nat.not_lt_zero _), fun i k j m _ _ hk => absurd (show k < 0 from hk) (Nat.not_lt_zero _),
      fun i h0 h1 => absurd (show i < 1 from h1) (by omega)⟩
  · rcases List.mem_cons.1 ha with rfl | ha
    · exact .inl rfl
    · exact .inr (List.mem_singleton.1 ha)

end Verif.Pipeline
