import Verif.Pipeline.Cache
/-
Registries (C55) and pipeline wiring (C52).
-/
namespace Verif.Pipeline
open Verif.Decimal (Str)

variable {F : Type}

/-! ### C55: registries -/

/-- Which factory a registration provides under a name, by kind. -/
def asDriver (name : Str) : Reg F → Option F
  | .driver n f => if n = name then some f else none
  | _ => none
def asProc (name : Str) : Reg F → Option F
  | .proc n f => if n = name then some f else none
  | _ => none
def asChan (name : Str) : Reg F → Option F
  | .chan n f => if n = name then some f else none
  | _ => none
def asHandler (name : Str) : Reg F → Option F
  | .handler n f => if n = name then some f else none
  | _ => none

/-- `f` is the most recent factory that the history provides in the sense of `sel`. -/
def Newest (sel : Reg F → Option F) (rs : List (Reg F)) (f : F) : Prop :=
  ∃ pre x post, rs = pre ++ x :: post ∧ sel x = some f ∧ ∀ y ∈ post, sel y = none

theorem newest_snoc (sel : Reg F → Option F) (rs : List (Reg F)) (x : Reg F) (f : F) :
    Newest sel (rs ++ [x]) f ↔ sel x = some f ∨ (sel x = none ∧ Newest sel rs f) := by
  constructor
  · rintro ⟨pre, y, post, h1, h2, h3⟩
    rcases List.eq_nil_or_concat post with rfl | ⟨post', q, rfl⟩
    · obtain ⟨_, e⟩ := List.append_inj' h1 (by simp)
      simp only [List.cons.injEq, and_true] at e
      subst e
      exact .inl h2
    · rw [List.concat_eq_append, ← List.cons_append, ← List.append_assoc] at h1
      obtain ⟨e1, e⟩ := List.append_inj' h1 (by simp)
      simp only [List.cons.injEq, and_true] at e
      subst e
      exact .inr ⟨h3 x (by simp), pre, y, post', e1, h2, fun z hz => h3 z (by simp [hz])⟩
  · rintro (h | ⟨h, pre, y, post, rfl, h2, h3⟩)
    · exact ⟨rs, x, [], rfl, h, by simp⟩
    · refine ⟨pre, y, post ++ [x], by simp, h2, ?_⟩
      intro z hz
      rcases List.mem_append.1 hz with hz | hz
      · exact h3 z hz
      · rw [List.mem_singleton.1 hz]; exact h

theorem newest_nil (sel : Reg F → Option F) (f : F) : ¬ Newest sel [] f := by
  rintro ⟨pre, x, post, h, _⟩
  cases pre <;> simp at h

theorem not_newest (sel : Reg F → Option F) (rs : List (Reg F)) (h : ∀ x ∈ rs, sel x = none) (f : F) : ¬ Newest sel rs f := by
  rintro ⟨pre, x, post, rfl, h2, _⟩
  rw [h x (by simp)] at h2
  cases h2

theorem addAll_get (m : Regs F → AMap Str F) (sel : Str → Reg F → Option F)
    (hadd : ∀ r x n, (m (r.add x)).get n = match sel n x with | some f => some f | none => (m r).get n)
    (h0 : m {} = []) (rs : List (Reg F)) (n : Str) (f : F) :
    (m (Regs.addAll {} rs)).get n = some f ↔ Newest (sel n) rs f := by
  have key : ∀ (post pre : List (Reg F)) (r : Regs F), (∀ f, (m r).get n = some f ↔ Newest (sel n) pre f) →
      ((m (r.addAll post)).get n = some f ↔ Newest (sel n) (pre ++ post) f) := by
    intro post
    induction post with
    | nil => intro pre r h; simpa [Regs.addAll] using h f
    | cons x post ih =>
      intro pre r h
      have e : r.addAll (x :: post) = (r.add x).addAll post := rfl
      have e2 : pre ++ x :: post = (pre ++ [x]) ++ post := by simp
      rw [e, e2]
      refine ih _ _ ?_
      intro g
      rw [hadd, newest_snoc]
      cases hs : sel n x with
      | some g' => simp
      | none => simp [h]
  have := key rs [] {} (by intro f; rw [h0]; simp [newest_nil])
  simpa using this

theorem drivers_get (rs : List (Reg F)) (n : Str) (f : F) :
    (Regs.addAll {} rs).drivers.get n = some f ↔ Newest (asDriver n) rs f := by
  refine addAll_get Regs.drivers asDriver ?_ rfl rs n f
  intro r x n
  cases x <;> simp only [Regs.add, asDriver]
  rename_i a g
  rw [AMap.get_set]; by_cases h : a = n <;> simp [h]

theorem procs_get (rs : List (Reg F)) (n : Str) (f : F) :
    (Regs.addAll {} rs).procs.get n = some f ↔ Newest (asProc n) rs f := by
  refine addAll_get Regs.procs asProc ?_ rfl rs n f
  intro r x n
  cases x <;> simp only [Regs.add, asProc]
  rename_i a g
  rw [AMap.get_set]; by_cases h : a = n <;> simp [h]

theorem chans_get (rs : List (Reg F)) (n : Str) (f : F) :
    (Regs.addAll {} rs).chans.get n = some f ↔ Newest (asChan n) rs f := by
  refine addAll_get Regs.chans asChan ?_ rfl rs n f
  intro r x n
  cases x <;> simp only [Regs.add, asChan]
  rename_i a g
  rw [AMap.get_set]; by_cases h : a = n <;> simp [h]

theorem handlers_get (rs : List (Reg F)) (n : Str) (f : F) :
    (Regs.addAll {} rs).handlers.get n = some f ↔ Newest (asHandler n) rs f := by
  refine addAll_get Regs.handlers asHandler ?_ rfl rs n f
  intro r x n
  cases x <;> simp only [Regs.add, asHandler]
  rename_i a g
  rw [AMap.get_set]; by_cases h : a = n <;> simp [h]

theorem addAll_append (r : Regs F) (a b : List (Reg F)) : r.addAll (a ++ b) = (r.addAll a).addAll b := by
  simp [Regs.addAll]

theorem get_none_iff {V : Type} (m : AMap Str V) (n : Str) : m.get n = none ↔ ∀ f, ¬ m.get n = some f := by
  cases h : m.get n <;> simp

/-- **C55** Drivers: after every history of registrations, looking a driver up under a name uses the factory registered
most recently under exactly that name, and is an error if there is none. -/
theorem driver_lookup (rs : List (Reg F)) (n : Str) :
    (∀ f, (Regs.addAll {} rs).getDriver n = .ok f ↔ Newest (asDriver n) rs f) ∧
    ((Regs.addAll {} rs).getDriver n = .err ↔ ∀ f, ¬ Newest (asDriver n) rs f) := by
  have h := drivers_get rs n
  unfold Regs.getDriver
  cases hg : (Regs.addAll {} rs).drivers.get n with
  | none =>
    rw [hg] at h
    exact ⟨fun f => by simpa using (h f), by simpa using h⟩
  | some g =>
    rw [hg] at h
    refine ⟨fun f => by simpa using h f, ?_⟩
    simp only [reduceCtorEq, false_iff, Classical.not_forall, Classical.not_not]
    exact ⟨g, (h g).1 rfl⟩

/-- **C55** Processors: a registered name uses the newest factory without loading anything; an unregistered one is looked
up again after loading the shared object of that name, and is an error if loading fails or provides no such processor. -/
theorem processor_lookup (load : Str → Option (List (Reg F))) (rs : List (Reg F)) (n : Str) :
    (∀ f, Newest (asProc n) rs f → (Regs.addAll {} rs).getProcessor load n = (Regs.addAll {} rs, .ok f)) ∧
    ((∀ f, ¬ Newest (asProc n) rs f) →
      (load n = none → (Regs.addAll {} rs).getProcessor load n = (Regs.addAll {} rs, .err)) ∧
      (∀ rs', load n = some rs' →
        ((Regs.addAll {} rs).getProcessor load n).1 = Regs.addAll {} (rs ++ rs') ∧
        (∀ f, ((Regs.addAll {} rs).getProcessor load n).2 = .ok f ↔ Newest (asProc n) rs' f) ∧
        (((Regs.addAll {} rs).getProcessor load n).2 = .err ↔ ∀ f, ¬ Newest (asProc n) rs' f))) := by
  constructor
  · intro f hf
    unfold Regs.getProcessor
    rw [(procs_get rs n f).2 hf]
  · intro hno
    have h0 : (Regs.addAll {} rs).procs.get n = none := by
      cases hg : (Regs.addAll {} rs).procs.get n with
      | none => rfl
      | some g => exact absurd ((procs_get rs n g).1 hg) (hno g)
    refine ⟨fun hl => by unfold Regs.getProcessor; rw [h0]; simp only [hl], ?_⟩
    intro rs' hl
    have hnew : ∀ f, Newest (asProc n) (rs ++ rs') f ↔ Newest (asProc n) rs' f := by
      intro f
      constructor
      · rintro ⟨pre, x, post, e, h2, h3⟩
        by_cases hlen : pre.length < rs.length
        · exfalso
          obtain ⟨q, hq⟩ : ∃ q, rs = pre ++ x :: q := by
            have hp : pre <+: rs := List.prefix_of_prefix_length_le ⟨x :: post, e.symm⟩ ⟨rs', rfl⟩ (by omega)
            obtain ⟨q, hq⟩ := hp
            rw [← hq, List.append_assoc] at e
            have e := List.append_cancel_left e
            cases q with
            | nil => simp [← hq] at hlen
            | cons y q =>
              simp only [List.cons_append, List.cons.injEq] at e
              exact ⟨q, by rw [← hq, e.1]⟩
          rw [hq, List.append_assoc] at e
          have e := List.append_cancel_left e
          simp only [List.cons_append, List.cons.injEq, true_and] at e
          exact hno f ⟨pre, x, q, hq, h2, fun y hy => h3 y (by rw [← e]; simp [hy])⟩
        · have hp : rs <+: pre := List.prefix_of_prefix_length_le ⟨rs', rfl⟩ ⟨x :: post, e.symm⟩ (by omega)
          obtain ⟨q, hq⟩ := hp
          rw [← hq, List.append_assoc] at e
          exact ⟨q, x, post, List.append_cancel_left e, h2, h3⟩
      · rintro ⟨pre, x, post, rfl, h2, h3⟩
        exact ⟨rs ++ pre, x, post, by simp, h2, h3⟩
    have hget : ∀ f, ((Regs.addAll {} rs).addAll rs').procs.get n = some f ↔ Newest (asProc n) rs' f := by
      intro f; rw [← addAll_append, procs_get, hnew]
    unfold Regs.getProcessor
    rw [h0]
    simp only [hl]
    cases hg : ((Regs.addAll {} rs).addAll rs').procs.get n with
    | none =>
      rw [hg] at hget
      exact ⟨(addAll_append _ _ _).symm, fun f => by simpa using hget f, by simpa using hget⟩
    | some g =>
      rw [hg] at hget
      refine ⟨(addAll_append _ _ _).symm, fun f => by simpa using hget f, ?_⟩
      simp only [reduceCtorEq, false_iff, Classical.not_forall, Classical.not_not]
      exact ⟨g, (hget g).1 rfl⟩

/-- **C55** Handlers: the `handler` attribute names the handler; the newest factory registered under it is used, otherwise
the library given by `handlerlibpath`; an error if neither exists or the attribute is missing. -/
theorem handler_lookup (load : Str → Str → Option (F × List (Reg F))) (rs : List (Reg F)) (conf : Conf) :
    (strAt conf "handler".toList = none → ((Regs.addAll {} rs).getHandler load conf).2 = .err) ∧
    (∀ n, strAt conf "handler".toList = some n →
      (∀ f, Newest (asHandler n) rs f → ((Regs.addAll {} rs).getHandler load conf) = (Regs.addAll {} rs, .ok f)) ∧
      ((∀ f, ¬ Newest (asHandler n) rs f) → strAt conf "handlerlibpath".toList = none →
        ((Regs.addAll {} rs).getHandler load conf).2 = .err)) := by
  refine ⟨fun h => by unfold Regs.getHandler; rw [h], fun n hn => ⟨fun f hf => ?_, fun hno hp => ?_⟩⟩
  · unfold Regs.getHandler
    rw [hn]
    dsimp only
    rw [(handlers_get rs n f).2 hf]
  · have h0 : (Regs.addAll {} rs).handlers.get n = none := by
      cases hg : (Regs.addAll {} rs).handlers.get n with
      | none => rfl
      | some g => exact absurd ((handlers_get rs n g).1 hg) (hno g)
    unfold Regs.getHandler
    rw [hn]
    dsimp only
    rw [h0]
    dsimp only
    rw [hp]

/-! ### `strings.Fields` -/

/-- Specification of `strings.Fields`: the maximal runs of non-space characters, in order. -/
inductive IsFields : Str → List Str → Prop where
  | nil : IsFields [] []
  | space {c s ws} (hc : Strings.isSpace c = true) (h : IsFields s ws) : IsFields (c :: s) ws
  | last {w} (hw : w ≠ []) (hns : ∀ c ∈ w, Strings.isSpace c = false) : IsFields w [w]
  | word {w c s ws} (hw : w ≠ []) (hns : ∀ c ∈ w, Strings.isSpace c = false) (hc : Strings.isSpace c = true)
      (h : IsFields s ws) : IsFields (w ++ c :: s) (w :: ws)

theorem fieldsAux_spec (w s : Str) (hw : ∀ c ∈ w, Strings.isSpace c = false) : IsFields (w ++ s) (fieldsAux w s) := by
  induction s generalizing w with
  | nil =>
    unfold fieldsAux
    by_cases h : w = []
    · rw [if_pos h, h]; exact .nil
    · rw [if_neg h]; simpa using IsFields.last h hw
  | cons c s ih =>
    unfold fieldsAux
    by_cases hc : Strings.isSpace c = true
    · rw [if_pos hc]
      have := ih [] (by simp)
      rw [List.nil_append] at this
      by_cases h : w = []
      · rw [if_pos h, h]; exact .space hc this
      · rw [if_neg h]; exact .word h hw hc this
    · rw [if_neg hc]
      have := ih (w ++ [c]) (by
        intro d hd
        rcases List.mem_append.1 hd with hd | hd
        · exact hw d hd
        · rw [List.mem_singleton.1 hd]; simpa using hc)
      simpa using this

theorem fields_spec (s : Str) : IsFields s (fields s) := fieldsAux_spec [] s (by simp)

/-! ### C52: wiring -/

/-- The channel strings that an attribute of a stage declares. -/
def declared (c : Conf) (key : Str) : List (Option Str) :=
  match c.get key with
  | some v => chanNames v
  | none => []

/-- The name in a channel reference `"<name> <type>"`. -/
def chanName (s : Str) : Option Str := (fields s).head?

/-- The references of a stage with the channels it was given: input references with input channels, output references with
output channels, position by position. -/
def refs (c : Conf) (st : Stage F) : List (Option Str × Chan F) :=
  (declared c kIn).zip st.ins ++ (declared c kOut).zip (st.outs.getD [])

structure CInv (cs : Chans F) : Prop where
  fresh : ∀ n c, cs.byName.get n = some c → c.id < cs.next
  inj : ∀ n n' c c', cs.byName.get n = some c → cs.byName.get n' = some c' → c.id = c'.id → n = n'

/-- Channels already created stay. -/
def Ext (cs cs' : Chans F) : Prop := ∀ n c, cs.byName.get n = some c → cs'.byName.get n = some c

theorem ext_refl (cs : Chans F) : Ext cs cs := fun _ _ h => h
theorem ext_trans {a b c : Chans F} (h : Ext a b) (h' : Ext b c) : Ext a c := fun n x hx => h' n x (h n x hx)

theorem cinv_empty : CInv ({} : Chans F) := ⟨by simp, by simp⟩

theorem getChan_spec (r : Regs F) (cs cs' : Chans F) (s : Str) (c : Chan F) (hI : CInv cs) (h : getChan r cs s = (cs', .ok c)) :
    CInv cs' ∧ Ext cs cs' ∧ ∃ n t, fields s = [n, t] ∧ cs'.byName.get n = some c := by
  unfold getChan at h
  split at h
  · rename_i name type rest hf
    by_cases hr : rest ≠ []
    · rw [if_pos hr] at h; simp at h
    · rw [if_neg hr] at h
      have hr : rest = [] := Classical.not_not.1 hr
      subst hr
      split at h
      · rename_i c0 hg
        simp only [Prod.mk.injEq, Res.ok.injEq] at h
        obtain ⟨rfl, rfl⟩ := h
        exact ⟨hI, ext_refl _, name, type, hf, hg⟩
      · rename_i hg
        split at h
        · rename_i f hc
          simp only [Prod.mk.injEq, Res.ok.injEq] at h
          obtain ⟨rfl, rfl⟩ := h
          have hget : ∀ n, AMap.get (cs.byName.set name ⟨cs.next, f⟩) n = if name = n then some ⟨cs.next, f⟩ else cs.byName.get n :=
            fun n => AMap.get_set _ _ _ _
          refine ⟨⟨?_, ?_⟩, ?_, name, type, hf, ?_⟩
          · intro n c hn
            dsimp only at hn ⊢
            rw [hget] at hn
            by_cases e : name = n
            · rw [if_pos e] at hn; cases hn; exact Nat.lt_succ_self _
            · rw [if_neg e] at hn; exact Nat.lt_succ_of_lt (hI.fresh n c hn)
          · intro n n' c c' hn hn' he
            dsimp only at hn hn'
            rw [hget] at hn hn'
            by_cases e : name = n
            · rw [if_pos e] at hn
              cases hn
              by_cases e' : name = n'
              · rw [← e, ← e']
              · rw [if_neg e'] at hn'
                have := hI.fresh n' c' hn'
                dsimp only at he
                omega
            · rw [if_neg e] at hn
              by_cases e' : name = n'
              · rw [if_pos e'] at hn'
                cases hn'
                have := hI.fresh n c hn
                dsimp only at he
                omega
              · rw [if_neg e'] at hn'
                exact hI.inj n n' c c' hn hn' he
          · intro n c hn
            dsimp only
            rw [hget]
            by_cases e : name = n
            · subst e; rw [hg] at hn; cases hn
            · rw [if_neg e]; exact hn
          · dsimp only
            rw [hget, if_pos rfl]
        · simp at h
  · simp at h

/-- A reference resolved by a channel cache. -/
def Resolved (cs : Chans F) (p : Option Str × Chan F) : Prop :=
  ∃ s n t, p.1 = some s ∧ fields s = [n, t] ∧ cs.byName.get n = some p.2

theorem resolved_ext {cs cs' : Chans F} (h : Ext cs cs') {p : Option Str × Chan F} (hp : Resolved cs p) : Resolved cs' p := by
  obtain ⟨s, n, t, h1, h2, h3⟩ := hp
  exact ⟨s, n, t, h1, h2, h n _ h3⟩

theorem getChans_spec (r : Regs F) (ss : List (Option Str)) (cs cs' : Chans F) (l : List (Chan F)) (hI : CInv cs)
    (h : getChans r cs ss = (cs', .ok l)) :
    CInv cs' ∧ Ext cs cs' ∧ l.length = ss.length ∧ ∀ p ∈ ss.zip l, Resolved cs' p := by
  induction ss generalizing cs l with
  | nil =>
    simp only [getChans, Prod.mk.injEq, Res.ok.injEq] at h
    obtain ⟨rfl, rfl⟩ := h
    exact ⟨hI, ext_refl _, rfl, by simp⟩
  | cons o ss ih =>
    cases o with
    | none => simp [getChans] at h
    | some s =>
      unfold getChans at h
      split at h
      · rename_i cs1 c hc
        split at h
        · rename_i cs2 l2 hl
          simp only [Prod.mk.injEq, Res.ok.injEq] at h
          obtain ⟨rfl, rfl⟩ := h
          obtain ⟨i1, e1, n, t, f1, g1⟩ := getChan_spec r cs cs1 s c hI hc
          obtain ⟨i2, e2, len, z⟩ := ih cs1 l2 i1 hl
          refine ⟨i2, ext_trans e1 e2, by simp [len], ?_⟩
          intro p hp
          rw [List.zip_cons_cons] at hp
          rcases List.mem_cons.1 hp with e | hp
          · subst e; exact ⟨s, n, t, rfl, f1, e2 _ _ g1⟩
          · exact z p hp
        · simp at h
        · simp at h
      · simp at h
      · simp at h

/-- Invariant of the loading loop after the stages `cs`. -/
structure LInv (cs : List Conf) (l : Load F) : Prop where
  chans : CInv l.chans
  len : l.stages.length = cs.length
  stage : ∀ (i : Nat) c st, cs[i]? = some c → l.stages[i]? = some st →
    st.ins.length = (declared c kIn).length ∧ (st.outs.getD []).length = (declared c kOut).length ∧
    (st.outs.isSome ↔ (c.get kOut).isSome) ∧ ∀ p ∈ refs c st, Resolved l.chans p
  all : l.channels = l.stages.flatMap (fun st => st.ins ++ st.outs.getD [])

theorem loadStage_inv (E : Env F) (cs : List Conf) (l l' : Load F) (c : Conf) (hI : LInv cs l) (h : loadStage E l c = .done l') :
    LInv (cs ++ [c]) l' := by
  unfold loadStage at h
  split at h
  · cases h
  rename_i p hp
  split at h
  · cases h
  · cases h
  rename_i r1 f hg
  split at h
  · cases h
  · cases h
  rename_i r2 hi
  split at h
  · cases h
  rename_i vin hin
  split at h
  · cases h
  · cases h
  rename_i cs1 ins h1
  obtain ⟨i1, e1, n1, z1⟩ := getChans_spec _ _ _ _ _ hI.chans h1
  have din : declared c kIn = chanNames vin := by unfold declared; rw [hin]
  have old : ∀ (st0 : Stage F) (csx : Chans F), Ext l.chans csx → CInv csx →
      (st0.ins.length = (declared c kIn).length ∧ (st0.outs.getD []).length = (declared c kOut).length ∧
        (st0.outs.isSome ↔ (c.get kOut).isSome) ∧ ∀ p ∈ refs c st0, Resolved csx p) →
      ∀ l1 : Load F, l1.chans = csx → l1.stages = l.stages ++ [st0] → l1.channels = l.channels ++ (st0.ins ++ st0.outs.getD []) →
      LInv (cs ++ [c]) l1 := by
    intro st0 csx hext hci hst l1 hc hs hch
    refine ⟨hc ▸ hci, by rw [hs]; simp [hI.len], ?_, by rw [hs, hch, hI.all]; simp⟩
    intro i c' st' hc' hst'
    rw [hs] at hst'
    by_cases hlt : i < cs.length
    · rw [List.getElem?_append_left hlt] at hc'
      rw [List.getElem?_append_left (by rw [hI.len]; exact hlt)] at hst'
      obtain ⟨a1, a2, a3, a4⟩ := hI.stage i c' st' hc' hst'
      exact ⟨a1, a2, a3, fun p hp => hc ▸ resolved_ext hext (a4 p hp)⟩
    · have hlt' : cs.length ≤ i := by omega
      rw [List.getElem?_append_right hlt'] at hc'
      rw [List.getElem?_append_right (by rw [hI.len]; exact hlt'), hI.len] at hst'
      have h0 : i - cs.length = 0 := by
        have := (List.getElem?_eq_some_iff.1 hc').1
        simp at this; omega
      rw [h0] at hc' hst'
      simp only [List.getElem?_cons_zero, Option.some.injEq] at hc' hst'
      subst hc' hst'
      rw [hc]
      exact hst
  split at h
  · rename_i hout
    have dout : declared c kOut = [] := by unfold declared; rw [hout]
    cases h
    refine old ⟨f, ins, none⟩ cs1 e1 i1 ⟨by rw [din, n1], by rw [dout]; rfl, by rw [hout]; simp, ?_⟩ _ rfl rfl (by simp)
    intro p hp
    unfold refs at hp
    rw [din, dout] at hp
    simp only [List.zip_nil_left, List.append_nil] at hp
    exact z1 p hp
  · rename_i vout hout
    have dout : declared c kOut = chanNames vout := by unfold declared; rw [hout]
    split at h
    · cases h
    · cases h
    rename_i cs2 outs h2
    obtain ⟨i2, e2, n2, z2⟩ := getChans_spec _ _ _ _ _ i1 h2
    cases h
    refine old ⟨f, ins, some outs⟩ cs2 (ext_trans e1 e2) i2 ⟨by rw [din, n1], by rw [dout]; exact n2, by rw [hout]; simp, ?_⟩ _ rfl rfl (by simp)
    intro p hp
    unfold refs at hp
    rw [din, dout] at hp
    rcases List.mem_append.1 hp with hp | hp
    · exact resolved_ext e2 (z1 p hp)
    · exact z2 p hp

theorem loadStages_inv (E : Env F) (pre cs : List Conf) (l l' : Load F) (hI : LInv pre l) (h : loadStages E l cs = .done l') :
    LInv (pre ++ cs) l' := by
  induction cs generalizing pre l with
  | nil => simp only [loadStages, Out.done.injEq] at h; subst h; simpa using hI
  | cons c cs ih =>
    unfold loadStages at h
    split at h
    · rename_i l1 h1
      have := ih (pre ++ [c]) l1 (loadStage_inv E pre l l1 c hI h1) h
      simpa using this
    · rename_i hne
      exact absurd h (hne l')

theorem linv_start (r : Regs F) : LInv [] ({ regs := r } : Load F) :=
  ⟨cinv_empty, rfl, by simp, rfl⟩

theorem resolved_same {cs : Chans F} (hI : CInv cs) {p q : Option Str × Chan F} (hp : Resolved cs p) (hq : Resolved cs q) :
    p.1.bind chanName = q.1.bind chanName ↔ p.2 = q.2 := by
  obtain ⟨s, n, t, h1, h2, h3⟩ := hp
  obtain ⟨s', n', t', k1, k2, k3⟩ := hq
  rw [h1, k1]
  simp only [Option.bind_some, chanName, h2, k2, List.head?_cons, Option.some.injEq]
  constructor
  · intro e; subst e; rw [h3] at k3; simpa using k3
  · intro e; exact hI.inj n n' _ _ h3 k3 (by rw [e])

/-- **C52** Wiring: when a pipeline has been loaded, every stage of the configuration has one channel per reference of its
`in` and `out` attributes, in order; any two references anywhere in the pipeline denote the same channel exactly if
their names are equal; and asking the pipeline for a channel by one of these names (as drivers do) returns that channel. -/
theorem wiring (E : Env F) (r : Regs F) (cs : List Conf) (l : Load F) (h : loadStages E { regs := r } cs = .done l) :
    l.stages.length = cs.length ∧
    (∀ (i : Nat) c st, cs[i]? = some c → l.stages[i]? = some st →
      st.ins.length = (declared c kIn).length ∧ (st.outs.getD []).length = (declared c kOut).length ∧
      (st.outs.isSome ↔ (c.get kOut).isSome)) ∧
    (∀ (i : Nat) c st (j : Nat) c' st', cs[i]? = some c → l.stages[i]? = some st → cs[j]? = some c' → l.stages[j]? = some st' →
      ∀ p ∈ refs c st, ∀ q ∈ refs c' st', (p.1.bind chanName = q.1.bind chanName ↔ p.2 = q.2)) ∧
    (∀ (i : Nat) c st, cs[i]? = some c → l.stages[i]? = some st → ∀ p ∈ refs c st, ∀ s n t, fields s = [n, t] →
      p.1.bind chanName = some n → (getChannel l s).2 = .ok p.2) := by
  have hI := loadStages_inv E [] cs _ l (linv_start r) h
  rw [List.nil_append] at hI
  refine ⟨hI.len, ?_, ?_, ?_⟩
  · intro i c st h1 h2
    obtain ⟨a1, a2, a3, _⟩ := hI.stage i c st h1 h2
    exact ⟨a1, a2, a3⟩
  · intro i c st j c' st' h1 h2 h3 h4 p hp q hq
    exact resolved_same hI.chans ((hI.stage i c st h1 h2).2.2.2 p hp) ((hI.stage j c' st' h3 h4).2.2.2 q hq)
  · intro i c st h1 h2 p hp s n t hf hn
    obtain ⟨s', n', t', k1, k2, k3⟩ := (hI.stage i c st h1 h2).2.2.2 p hp
    rw [k1] at hn
    simp only [Option.bind_some, chanName, k2, List.head?_cons, Option.some.injEq] at hn
    subst hn
    show (getChan l.regs l.chans s).2 = _
    unfold getChan
    simp only [hf, ne_eq, not_true, if_false, k3]

/-- **C52** The root channel is the first input channel of the first stage. -/
theorem root_is_first_input (E : Env F) (r : Regs F) (c : Conf) (cs : List Conf) (l : Load F)
    (h : loadStages E { regs := r } (c :: cs) = .done l) (hin : declared c kIn ≠ []) :
    ∃ st ch, l.stages[0]? = some st ∧ st.ins.head? = some ch ∧ rootChannel l = some ch := by
  have hI := loadStages_inv E [] (c :: cs) _ l (linv_start r) h
  rw [List.nil_append] at hI
  cases hs : l.stages with
  | nil => have := hI.len; rw [hs] at this; simp at this
  | cons st sts =>
    obtain ⟨a1, _⟩ := hI.stage 0 c st rfl (by rw [hs]; rfl)
    cases hins : st.ins with
    | nil => rw [hins] at a1; exact absurd (List.eq_nil_of_length_eq_zero a1.symm) hin
    | cons ch chs =>
      refine ⟨st, ch, rfl, by rw [hins]; rfl, ?_⟩
      unfold rootChannel
      rw [hI.all, hs, List.flatMap_cons, hins]
      rfl

/-- **C52** No channel is shared by accident: a channel of the pipeline was made by the factory registered for the type
given where its name was first used — in particular two references with one name but different types still share one
channel, made for the first type (the type of later references is not looked at). -/
theorem type_of_later_reference_ignored (r : Regs F) (cs : Chans F) (s : Str) (n t : Str) (c : Chan F)
    (hf : fields s = [n, t]) (hc : cs.byName.get n = some c) : getChan r cs s = (cs, .ok c) := by
  unfold getChan
  simp only [hf, ne_eq, not_true, if_false, hc]

/-- **C96** Two drivers asking for channels by references with the same name get the same channel, also when the first one had to make it. -/
theorem driver_channels_shared (l l' : Load F) (s s' n t t' : Str) (c : Chan F) (h : getChannel l s = (l', .ok c)) (hs : fields s = [n, t]) (hs' : fields s' = [n, t']) :
    (getChannel l' s').2 = .ok c := by
  unfold getChannel at h ⊢
  rw [Prod.mk.injEq] at h
  obtain ⟨rfl, h⟩ := h
  dsimp only at h ⊢
  have hc : (getChan l.regs l.chans s).1.byName.get n = some c := by
    unfold getChan at h ⊢
    rw [hs] at h ⊢
    simp only [ne_eq, not_true, if_false] at h ⊢
    cases hg : l.chans.byName.get n with
    | some c0 => rw [hg] at h; dsimp only at h ⊢; cases h; exact hg
    | none =>
      rw [hg] at h
      dsimp only at h ⊢
      split at h
      · cases h
        exact (AMap.get_set _ _ _ _).trans (if_pos rfl)
      · cases h
  exact congrArg Prod.snd (type_of_later_reference_ignored l.regs _ s' n t' c hs' hc)

/-- **C52**, finding: a channel reference with fewer than two words crashes the program instead of reporting the error. -/
theorem short_reference_panics (r : Regs F) (cs : Chans F) (s : Str) (h : (fields s).length < 2) : (getChan r cs s).2 = .panic := by
  unfold getChan
  split
  · rename_i name type rest hf
    rw [hf] at h; simp at h; omega
  · rfl

/-- **C63** Loading is all or nothing per stage: it fails at the first stage that has no `in` attribute, whose processor
is unknown or does not initialise, or whose channels do not exist; but it *stops successfully*, without the remaining
stages, at the first stage that has no processor string. -/
theorem load_stops_silently (E : Env F) (r : Regs F) (pre post : List Conf) (c : Conf) (l : Load F)
    (hpre : loadStages E { regs := r } pre = .done l) (hc : strAt c kProc = none) :
    loadStages E { regs := r } (pre ++ c :: post) = .stopped l := by
  have key : ∀ (cs : List Conf) (l0 : Load F), loadStages E l0 cs = .done l → loadStages E l0 (cs ++ c :: post) = .stopped l := by
    intro cs
    induction cs with
    | nil =>
      intro l0 h
      simp only [loadStages, Out.done.injEq] at h
      subst h
      simp only [List.nil_append, loadStages, loadStage, hc]
    | cons d cs ih =>
      intro l0 h
      rw [List.cons_append]
      unfold loadStages at h ⊢
      split at h
      · rename_i l1 h1
        exact ih l1 h
      · rename_i hne
        exact absurd h (hne l)
  exact key pre _ hpre

/-- **C63** A loaded stage had a processor string, an `in` attribute, and a processor that was found and initialised. -/
theorem loaded_stage_valid (E : Env F) (l l' : Load F) (c : Conf) (h : loadStage E l c = .done l') :
    ∃ p f r1 r2, strAt c kProc = some p ∧ E.getProc l.regs p = (r1, .ok f) ∧ E.init f c r1 = .ok r2 ∧ (c.get kIn).isSome ∧
      l'.stages = l.stages ++ l'.stages.drop l.stages.length ∧ (l'.stages.drop l.stages.length).map (·.proc) = [f] := by
  unfold loadStage at h
  split at h
  · cases h
  rename_i p hp
  split at h
  · cases h
  · cases h
  rename_i r1 f hg
  split at h
  · cases h
  · cases h
  rename_i r2 hi
  split at h
  · cases h
  rename_i vin hin
  split at h
  · cases h
  · cases h
  split at h
  · cases h
    exact ⟨p, f, r1, r2, hp, hg, hi, by rw [hin]; rfl, by simp, by simp⟩
  · split at h
    · cases h
    · cases h
    cases h
    exact ⟨p, f, r1, r2, hp, hg, hi, by rw [hin]; rfl, by simp, by simp⟩

/-- **C63** A missing processor string is the only way in which loading ends early without an error: whenever it stops
early and silently, the stages before were all loaded and the next one has no processor string. Every other unusable
stage makes it fail. -/
theorem silent_stop_only_without_processor (E : Env F) (l0 : Load F) (cs : List Conf) (l : Load F)
    (h : loadStages E l0 cs = .stopped l) :
    ∃ pre c post, cs = pre ++ c :: post ∧ loadStages E l0 pre = .done l ∧ strAt c kProc = none := by
  induction cs generalizing l0 with
  | nil => simp only [loadStages] at h; cases h
  | cons d cs ih =>
    unfold loadStages at h
    split at h
    · rename_i l1 h1
      obtain ⟨pre, c, post, hcs, hpre, hc⟩ := ih l1 h
      refine ⟨d :: pre, c, post, by rw [hcs]; rfl, ?_, hc⟩
      unfold loadStages
      rw [h1]
      exact hpre
    · rename_i o hne
      refine ⟨[], d, cs, rfl, ?_⟩
      unfold loadStage at h
      split at h
      · next hp =>
        simp only [Out.stopped.injEq] at h
        subst h
        exact ⟨rfl, hp⟩
      · exfalso
        repeat' (split at h)
        all_goals cases h

/-- **C63** Loading fails, with an error, at a stage whose processor is found and initialises but that has no `in`
attribute. -/
theorem missing_input_fails (E : Env F) (l0 l : Load F) (pre post : List Conf) (c : Conf) (hpre : loadStages E l0 pre = .done l)
    (p : Str) (hp : strAt c kProc = some p) (f : F) (r1 r2 : Regs F) (hg : E.getProc l.regs p = (r1, .ok f))
    (hi : E.init f c r1 = .ok r2) (hin : c.get kIn = none) : loadStages E l0 (pre ++ c :: post) = .failed := by
  induction pre generalizing l0 with
  | nil =>
    simp only [loadStages, Out.done.injEq] at hpre
    subst hpre
    simp only [List.nil_append, loadStages, loadStage, hp, hg, hi, hin]
  | cons d pre ih =>
    rw [List.cons_append]
    unfold loadStages at hpre ⊢
    split at hpre
    · rename_i l1 h1
      exact ih l1 hpre
    · rename_i hne
      exact absurd hpre (hne l)

/-! ### C64: drivers -/

/-- **C64** With a driver named on the command line exactly that driver is used, whatever the configuration says. -/
theorem driver_flag (r : Regs F) (name : Str) (hn : name ≠ []) (ds : List Conf) :
    (∀ f, r.drivers.get name = some f → chooseDrivers r name ds = .ok [f]) ∧
    (r.drivers.get name = none → chooseDrivers r name ds = .err) := by
  constructor
  · intro f hf
    simp [chooseDrivers, hn, Regs.getDriver, hf, Res.bind]
  · intro hf
    simp [chooseDrivers, hn, Regs.getDriver, hf, Res.bind]

theorem chooseDrivers_go (r : Regs F) (ds : List Conf) :
    (∀ fs, chooseDrivers.go r ds = .ok fs ↔ (ds.filterMap (fun d => strAt d kDriver)).map r.drivers.get = fs.map some) ∧
    (chooseDrivers.go r ds = .err ∨ ∃ fs, chooseDrivers.go r ds = .ok fs) := by
  induction ds with
  | nil =>
    simp only [chooseDrivers.go, Res.ok.injEq, List.filterMap_nil, List.map_nil]
    refine ⟨fun fs => ?_, .inr ⟨[], rfl⟩⟩
    cases fs <;> simp
  | cons d ds ih =>
    unfold chooseDrivers.go
    cases hd : strAt d kDriver with
    | none =>
      refine ⟨fun fs => ?_, ih.2⟩
      rw [List.filterMap_cons_none (f := fun d => strAt d kDriver) hd]
      exact ih.1 fs
    | some n =>
      rw [List.filterMap_cons_some (f := fun d => strAt d kDriver) hd]
      dsimp only
      unfold Regs.getDriver
      cases hg : r.drivers.get n with
      | none =>
        simp only [Res.bind, List.map_cons, hg]
        refine ⟨fun fs => ?_, by simp⟩
        cases fs <;> simp
      | some f =>
        simp only [Res.bind, List.map_cons, hg]
        rcases ih.2 with he | ⟨gs, he⟩
        · rw [he]
          refine ⟨fun fs => ?_, .inl rfl⟩
          simp only [reduceCtorEq, false_iff]
          intro h
          cases fs with
          | nil => simp at h
          | cons g fs =>
            simp only [List.map_cons, List.cons.injEq] at h
            have := (ih.1 fs).2 h.2
            rw [he] at this; cases this
        · rw [he]
          refine ⟨fun fs => ?_, .inr ⟨_, rfl⟩⟩
          have hgs := (ih.1 gs).1 he
          simp only [Res.ok.injEq]
          rw [hgs, ← List.map_cons (f := some)]
          constructor
          · rintro rfl; rfl
          · intro h; exact (List.map_inj_right (fun _ _ h => by simpa using h)).1 h

/-- **C64** Without one, the drivers are those of the configuration's entries that have a `driver` string, in order; an
unknown name is an error, and so is having none at all. -/
theorem drivers_of_config (r : Regs F) (ds : List Conf) (fs : List F) :
    chooseDrivers r [] ds = .ok fs ↔
      fs ≠ [] ∧ (ds.filterMap (fun d => strAt d kDriver)).map r.drivers.get = fs.map some := by
  obtain ⟨h1, h2⟩ := chooseDrivers_go r ds
  unfold chooseDrivers
  simp only [ne_eq, not_true, if_false]
  rcases h2 with he | ⟨gs, he⟩
  · rw [he]
    simp only [Res.bind, reduceCtorEq, false_iff]
    rintro ⟨_, h⟩
    rw [(h1 fs).2 h] at he
    cases he
  · rw [he]
    simp only [Res.bind]
    have hgs := (h1 gs).1 he
    rw [hgs]
    have hinj : gs.map some = fs.map some ↔ gs = fs := List.map_inj_right (fun _ _ h => by simpa using h)
    rw [hinj]
    by_cases hg : gs = []
    · rw [if_pos hg]
      simp only [reduceCtorEq, false_iff]
      rintro ⟨h, rfl⟩
      exact h hg
    · rw [if_neg hg]
      simp only [Res.ok.injEq]
      exact ⟨fun h => ⟨h ▸ hg, h⟩, fun h => h.2⟩

/-- **C64** The configuration a driver is initialised with is the first entry of the configuration with its name (so two
entries with one name share the first one's settings); none if there is no such entry. -/
theorem driver_config_first (name : Str) (ds : List Conf) :
    (∀ pre d post, ds = pre ++ d :: post → strAt d kDriver = some name → (∀ x ∈ pre, strAt x kDriver ≠ some name) →
      driverConfig name ds = some d) ∧
    ((∀ x ∈ ds, strAt x kDriver ≠ some name) → driverConfig name ds = none) := by
  induction ds with
  | nil => exact ⟨fun pre d post h => by (cases pre <;> simp at h), fun _ => rfl⟩
  | cons x ds ih =>
    constructor
    · intro pre d post h hd hpre
      cases pre with
      | nil =>
        simp only [List.nil_append, List.cons.injEq] at h
        rw [driverConfig, h.1, if_pos hd]
      | cons y pre =>
        simp only [List.cons_append, List.cons.injEq] at h
        rw [driverConfig, if_neg (h.1 ▸ hpre y (by simp))]
        exact ih.1 pre d post h.2 hd (fun z hz => hpre z (by simp [hz]))
    · intro h
      rw [driverConfig, if_neg (h x (by simp))]
      exact ih.2 (fun z hz => h z (by simp [hz]))

/-! ### Examples -/

/-- Registrations of the plugin cache (plugincache.go:68-77) and of the handler cache (handlercache.go:67-71), with factory
names for factories. -/
def builtins : List (Reg String) :=
  [.proc "sysflowreader".toList "NewSysFlowReader", .chan "sysflowchan".toList "NewSysFlowChan",
   .proc "sysflowprocessor".toList "NewSysFlowProcessor", .chan "ctxchan".toList "NewCtxSysFlowChan",
   .proc "policyengine".toList "NewPolicyEngine", .chan "eventchan".toList "NewEventChan",
   .proc "exporter".toList "NewExporter",
   .driver "file".toList "sysflow.NewFileDriver", .driver "socket".toList "NewStreamingDriver",
   .driver "otelfile".toList "otel.NewFileDriver", .driver "otelkafka".toList "NewKafkaDriver", .chan "otelchan".toList "NewOtelChan",
   .handler "flattener".toList "NewFlattener", .chan "flattenerchan".toList "NewFlattenerChan"]

def builtinRegs : Regs String := Regs.addAll {} builtins

/-- Loading with the built-in processors only; initialisation succeeds. -/
def demoEnvF : Env String := ⟨Regs.getProcessor (fun _ => none), fun _ _ r => .ok r⟩

/-- The pipeline of /repo/driver/pipeline.json in outline: reader, engine, exporter. -/
def demoPipeline : List Conf :=
  [[(kProc, .str "sysflowreader".toList), (kIn, .str "sysflow sysflowchan".toList), (kOut, .str "flat flattenerchan".toList)],
   [(kProc, .str "policyengine".toList), (kIn, .str "flat flattenerchan".toList), (kOut, .arr [some "evt eventchan".toList])],
   [(kProc, .str "exporter".toList), (kIn, .str "evt  eventchan".toList)]]

def stagesOf : Out String → Option (List (List Nat × Option (List Nat)))
  | .done l => some (l.stages.map (fun st => (st.ins.map (·.id), st.outs.map (·.map (·.id)))))
  | _ => none

example : stagesOf (loadStages demoEnvF { regs := builtinRegs } demoPipeline) =
    some [([0], some [1]), ([1], some [2]), ([2], none)] := by decide +kernel

example : builtinRegs.getDriver "file".toList = .ok "sysflow.NewFileDriver" := by decide +kernel
example : builtinRegs.getDriver "File".toList = .err := by decide +kernel
example : (builtinRegs.add (.driver "file".toList "mine")).getDriver "file".toList = .ok "mine" := by decide +kernel
example : chooseDrivers builtinRegs [] [[(kDriver, .str "socket".toList)], [], [(kDriver, .str "file".toList)]] =
    .ok ["NewStreamingDriver", "sysflow.NewFileDriver"] := by decide +kernel
example : (getChan builtinRegs {} "justaname".toList).2 = .panic := by decide +kernel
example : declared (demoPipeline[0]) kIn ≠ [] := by decide +kernel
example : ∃ l', getChannel { regs := builtinRegs } "evt eventchan".toList = (l', .ok ⟨0, "NewEventChan"⟩) :=
  ⟨_, Prod.ext rfl (by decide +kernel)⟩

end Verif.Pipeline
