import Verif.Processor.Props
import Verif.Base.Snoc
/-
C90: exactly which streams the reader survives.
Sources: /repo/core/processor/reader.go:80-172, /repo/core/cache/tables.go:129-150
-/
namespace Verif.Processor
open Verif.Decimal (Str)
open Verif.SysFlow
open Verif.Cache

/-! ### Specification -/

/-- Following parents from the process, as known after `pre`, one comes back to the same process again and again. -/
def Circular (pre : List Rec) (id : OID) : Prop := ∃ n x k, Anc (knownProc pre) n id x ∧ Anc (knownProc pre) (k + 1) x x

/-- The stream holds an event that is the first of its process since the last header (the process being known) and whose process has circular ancestry at that moment. -/
def Stuck (rs : List Rec) : Prop := ∃ pre ev post id, rs = pre ++ ev :: post ∧ procOf ev = some id ∧ FirstUse (pre ++ [ev]) id pre ∧ Circular pre id

/-- Every process of the stream names a parent that was created before it (if any). -/
def OlderParents (rs : List Rec) : Prop := ∀ p, Rec.proc p ∈ rs → ∀ q, p.poid = some q → q.createTS < p.oid.createTS

/-! ### Proofs -/

theorem del_length {K V : Type _} [DecidableEq K] (m : AMap K V) (k : K) : (m.del k).length ≤ m.length := by
  induction m with
  | nil => exact Nat.le_refl _
  | cons p m ih =>
    obtain ⟨a, v⟩ := p
    rw [AMap.del]
    split
    · exact Nat.le_succ_of_le ih
    · exact Nat.succ_le_succ ih

theorem getPtree_procs {t t' : Tables} {fuel : Nat} {id : OID} {l : List Proc} (h : t.getPtree fuel id = some (l, t')) : t'.proc = t.proc := by
  unfold Tables.getPtree at h
  split at h
  · cases h; rfl
  · split at h
    · cases h
    · cases h; rfl

theorem lookup_procs {t t' : Tables} {fuel : Nat} {id : OID} {c c' : Ctx} (h : getPodContAndProc fuel t id c = some (c', t')) : t'.proc = t.proc := by
  unfold getPodContAndProc at h
  split at h
  · cases h; rfl
  · split at h
    · cases h
    · rename_i hp
      cases h
      exact getPtree_procs hp

theorem setProc_length (t : Tables) (id : OID) (p : Proc) : (t.setProc id p).proc.length ≤ t.proc.length + 1 := by
  unfold Tables.setProc
  split <;> exact Nat.succ_le_succ (del_length _ _)

/-- A record adds at most one process to the tables. -/
theorem step_procs {fuel : Nat} {s s' : State} {r : Rec} {cs : List HCall} (h : step false fuel s r = some (s', cs)) : s'.tables.proc.length ≤ s.tables.proc.length + 1 := by
  cases r with
  | header => cases h; exact Nat.zero_le _
  | cont => cases h; exact Nat.le_succ _
  | pod => cases h; exact Nat.le_succ _
  | k8s => cases h; exact Nat.le_succ _
  | proc p => cases h; exact setProc_length _ _ _
  | file => cases h; exact Nat.le_succ _
  | procEvt e =>
    simp only [step] at h
    split at h
    · cases h
    · rename_i hl; cases h; rw [lookup_procs hl]; exact Nat.le_succ _
  | netFlow e =>
    simp only [step] at h
    split at h
    · cases h
    · rename_i hl; cases h; rw [lookup_procs hl]; exact Nat.le_succ _
  | fileFlow e =>
    simp only [step] at h
    split at h
    · cases h
    · rename_i hl; cases h; rw [lookup_procs hl]; exact Nat.le_succ _
  | fileEvt e =>
    simp only [step] at h
    split at h
    · cases h
    · rename_i hl; cases h; rw [lookup_procs hl]; exact Nat.le_succ _
  | procFlow => cases h; exact Nat.le_succ _
  | netEvt => cases h; exact Nat.le_succ _
  | unsupported => cases h; exact Nat.le_succ _

/-- The reader is stopped by a record exactly if the lookup of its process does not return. -/
theorem step_none {fuel : Nat} {s : State} {r : Rec} : step false fuel s r = none ↔ ∃ id, procOf r = some id ∧ getPodContAndProc fuel s.tables id { header := s.hdr } = none := by
  cases r <;> simp only [step, procOf, Bool.false_eq_true, if_false, Option.some.injEq, exists_eq_left', reduceCtorEq, false_and, exists_false]
  all_goals
    split
    · rename_i h; simp [h]
    · rename_i h; simp [h]

theorem lookup_none {fuel : Nat} {t : Tables} {id : OID} {c : Ctx} :
    getPodContAndProc fuel t id c = none ↔ (t.getProc id).isSome = true ∧ t.ptree.get id = none ∧ t.getProcProv fuel id = none := by
  unfold getPodContAndProc Tables.getPtree
  cases t.getProc id with
  | none => simp
  | some p =>
    dsimp only
    cases t.ptree.get id with
    | some l => simp
    | none =>
      dsimp only
      cases t.getProcProv fuel id <;> simp

/-- A record stops the reader only if it makes the stream stuck, and then always, if the recursion is not cut short. -/
theorem step_stuck {pre : List Rec} {s : State} (I : Inv pre s) (r : Rec) :
    (∀ fuel, (∃ id, procOf r = some id ∧ FirstUse (pre ++ [r]) id pre ∧ Circular pre id) → step false fuel s r = none) ∧
    (∀ fuel, s.tables.proc.length + 1 ≤ fuel → step false fuel s r = none → ∃ id, procOf r = some id ∧ FirstUse (pre ++ [r]) id pre ∧ Circular pre id) := by
  constructor
  · rintro fuel ⟨id, h1, ⟨ev, post, he, _, _, hk, hun⟩, hc⟩
    rw [step_none]
    refine ⟨id, h1, lookup_none.2 ⟨by rw [I.known]; exact hk, ?_, ?_⟩⟩
    · cases hm : s.tables.ptree.get id with
      | none => rfl
      | some l =>
        exfalso
        obtain ⟨pre', ⟨ev', post', e1, e2, e3, e4, _⟩, _⟩ := I.memo id l hm
        rw [hun pre' ev' post' e1 e2 e3] at e4
        cases e4
    · refine (provenance_diverges_iff s.tables id).2 ?_ fuel
      rw [I.known]
      exact hc
  · intro fuel hf h
    obtain ⟨id, h1, h2⟩ := step_none.1 h
    obtain ⟨h3, h4, h5⟩ := lookup_none.1 h2
    have hr : r.isHeader = false := by cases r <;> first | rfl | cases h1
    rw [I.known] at h3
    refine ⟨id, h1, ⟨r, [], rfl, ?_, h1, h3, I.nomemo id h4⟩, ?_⟩
    · intro x hx; rw [List.mem_singleton.1 hx]; exact hr
    · unfold Circular
      rw [← I.known]
      refine (provenance_diverges_iff s.tables id).1 ?_
      intro n
      cases hn : s.tables.getProcProv n id with
      | none => rfl
      | some l =>
        have := provenance_fuel_bound s.tables id n l hn
        have := prov_mono s.tables _ fuel (by unfold AMap.keys; rw [List.length_map]; exact hf) id l this
        rw [h5] at this
        cases this

theorem run_snoc (ent : Bool) (fuel : Nat) (s : State) (rs : List Rec) (r : Rec) :
    run ent fuel s (rs ++ [r]) = match run ent fuel s rs with
      | none => none
      | some (s1, cs1) => match step ent fuel s1 r with
        | none => none
        | some (s2, cs2) => some (s2, cs1 ++ cs2) := by
  rw [run_append]
  cases run ent fuel s rs with
  | none => rfl
  | some p =>
    obtain ⟨s1, cs1⟩ := p
    simp only [run]
    cases step ent fuel s1 r with
    | none => rfl
    | some q => simp

theorem stuck_snoc (rs : List Rec) (r : Rec) : Stuck (rs ++ [r]) ↔ Stuck rs ∨ ∃ id, procOf r = some id ∧ FirstUse (rs ++ [r]) id rs ∧ Circular rs id := by
  constructor
  · rintro ⟨pre, ev, post, id, h1, h2, h3, h4⟩
    rcases snoc_eq h1 with ⟨rfl, rfl, rfl⟩ | ⟨post', rfl, h⟩
    · exact .inr ⟨id, h2, h3, h4⟩
    · exact .inl ⟨pre, ev, post', id, h, h2, h3, h4⟩
  · rintro (⟨pre, ev, post, id, rfl, h2, h3, h4⟩ | ⟨id, h2, h3, h4⟩)
    · exact ⟨pre, ev, post ++ [r], id, by simp, h2, h3, h4⟩
    · exact ⟨rs, r, [], id, rfl, h2, h3, h4⟩

theorem run_procs (fuel : Nat) (rs : List Rec) : ∀ s cs, run false fuel .init rs = some (s, cs) → s.tables.proc.length ≤ rs.length := by
  induction rs using Verif.snocInduction with
  | nil => intro s cs h; cases h; exact Nat.zero_le _
  | snoc rs r ih =>
    intro s cs h
    rw [run_snoc] at h
    cases hr : run false fuel .init rs with
    | none => rw [hr] at h; cases h
    | some p =>
      obtain ⟨s1, cs1⟩ := p
      rw [hr] at h
      dsimp only at h
      cases hst : step false fuel s1 r with
      | none => rw [hst] at h; cases h
      | some q =>
        obtain ⟨s2, cs2⟩ := q
        rw [hst] at h
        cases h
        have := ih s1 cs1 hr
        have := step_procs hst
        rw [List.length_append]
        simp only [List.length_cons, List.length_nil]
        omega

/-! ## C90 -/

/-- **C90** On a stuck stream the reader does not return, however deep the recursion may go. -/
theorem stuck_never_returns (rs : List Rec) (h : Stuck rs) (fuel : Nat) : run false fuel .init rs = none := by
  induction rs using Verif.snocInduction with
  | nil => obtain ⟨pre, ev, post, _, h, _⟩ := h; cases pre <;> cases h
  | snoc rs r ih =>
    rw [run_snoc]
    rcases (stuck_snoc rs r).1 h with h | h
    · rw [ih h]
    · cases hr : run false fuel .init rs with
      | none => rfl
      | some p =>
        dsimp only
        rw [(step_stuck (run_inv fuel rs p.1 p.2 hr) r).1 fuel h]

/-- **C90** On every other stream it does, and a recursion as deep as the stream is long suffices. -/
theorem reader_returns (rs : List Rec) (h : ¬ Stuck rs) (fuel : Nat) (hf : rs.length ≤ fuel) : ∃ r, run false fuel .init rs = some r := by
  induction rs using Verif.snocInduction with
  | nil => exact ⟨_, rfl⟩
  | snoc rs r ih =>
    rw [List.length_append, List.length_singleton] at hf
    obtain ⟨⟨s, cs⟩, hr⟩ := ih (fun hs => h ((stuck_snoc rs r).2 (.inl hs))) (by omega)
    rw [run_snoc, hr]
    dsimp only
    cases hst : step false fuel s r with
    | none =>
      exfalso
      refine h ((stuck_snoc rs r).2 (.inr ((step_stuck (run_inv fuel rs s cs hr) r).2 fuel ?_ hst)))
      have := run_procs fuel rs s cs hr
      omega
    | some q => exact ⟨_, rfl⟩

/-- **C90** The reader returns from a stream exactly if the stream is not stuck. -/
theorem reader_returns_iff (rs : List Rec) : (∃ fuel r, run false fuel .init rs = some r) ↔ ¬ Stuck rs := by
  constructor
  · rintro ⟨fuel, r, h⟩ hs
    rw [stuck_never_returns rs hs fuel] at h
    cases h
  · intro h
    obtain ⟨r, hr⟩ := reader_returns rs h _ (Nat.le_refl _)
    exact ⟨_, r, hr⟩

theorem known_from (rs : List Rec) (id : OID) (p : Proc) (h : knownProc rs id = some p) : ∃ p0, Rec.proc p0 ∈ rs ∧ p0.oid = id ∧ p = trimProc p0 := by
  have key : ∀ st, newest (procDef st id) rs = some p → ∃ p0, Rec.proc p0 ∈ rs ∧ p0.oid = id ∧ p = trimProc p0 := by
    intro st h
    unfold newest at h
    obtain ⟨r, hr, he⟩ := List.exists_of_findSome?_eq_some h
    have hm : r ∈ rs := List.mem_reverse.1 ((List.takeWhile_prefix _).subset hr)
    cases r with
    | proc p0 =>
      unfold procDef at he
      dsimp only at he
      split at he
      · rename_i hc
        cases he
        exact ⟨p0, hm, hc.1, rfl⟩
      · cases he
    | _ => cases he
  unfold knownProc at h
  rcases Option.or_eq_some_iff.1 h with h | ⟨_, h⟩
  · exact key _ h
  · rcases Option.or_eq_some_iff.1 h with h | ⟨_, h⟩
    · exact key _ h
    · exact key _ h

/-- **C90** Streams in which parents are older than their children, as they are on a real system, are never stuck — whatever else they hold, in whatever order, with whatever is
missing. -/
theorem older_parents_not_stuck (rs : List Rec) (h : OlderParents rs) : ¬ Stuck rs := by
  rintro ⟨pre, ev, post, id, rfl, -, -, n, x, k, -, hc⟩
  have par : ∀ a b, Parent (knownProc pre) a b → b.createTS < a.createTS := by
    rintro a b ⟨p, hp, hb⟩
    obtain ⟨p0, h0, rfl, rfl⟩ := known_from pre a p hp
    exact h p0 (by simp [h0]) b hb
  have anc : ∀ m a b, Anc (knownProc pre) m a b → b.createTS + m ≤ a.createTS := by
    intro m a b ha
    induction ha with
    | refl => simp
    | step hp _ ih =>
      have := par _ _ hp
      omega
  have := anc _ _ _ hc
  omega

/-- **C90** The depth allowed to the recursion does not change the result. -/
theorem run_same (rs : List Rec) (f g : Nat) (a b : State × List HCall) (ha : run false f .init rs = some a) (hb : run false g .init rs = some b) : a = b := by
  have stepmono : ∀ (s : State) (r : Rec) (q : State × List HCall) (f g : Nat), f ≤ g → step false f s r = some q → step false g s r = some q := by
    intro s r q f g hfg h
    have look : ∀ (id : OID) (c : Ctx) (q : Ctx × Tables), getPodContAndProc f s.tables id c = some q → getPodContAndProc g s.tables id c = some q := by
      intro id c q h
      unfold getPodContAndProc Tables.getPtree at h ⊢
      cases hp : s.tables.getProc id with
      | none => rw [hp] at h; exact h
      | some p =>
        rw [hp] at h
        dsimp only at h ⊢
        cases ht : s.tables.ptree.get id with
        | some l => rw [ht] at h; exact h
        | none =>
          rw [ht] at h
          dsimp only at h ⊢
          cases hv : s.tables.getProcProv f id with
          | none => rw [hv] at h; cases h
          | some l => rw [hv] at h; rw [prov_mono s.tables f g hfg id l hv]; exact h
    cases r <;> simp only [step] at h ⊢ <;> try exact h
    all_goals
      split at h
      · cases h
      · rename_i hl
        rw [look _ _ _ hl]
        exact h
  have mono : ∀ (rs : List Rec) (s : State) (q : State × List HCall) (f g : Nat), f ≤ g → run false f s rs = some q → run false g s rs = some q := by
    intro rs
    induction rs with
    | nil => intro s q f g _ h; exact h
    | cons r rs ih =>
      intro s q f g hfg h
      rw [run] at h ⊢
      cases hst : step false f s r with
      | none => rw [hst] at h; cases h
      | some p =>
        rw [hst] at h
        rw [stepmono s r p f g hfg hst]
        dsimp only at h ⊢
        cases hr : run false f p.1 rs with
        | none => rw [hr] at h; cases h
        | some p' => rw [hr] at h; rw [ih p.1 p' f g hfg hr]; exact h
  have h1 := mono rs _ _ f (max f g) (Nat.le_max_left ..) ha
  have h2 := mono rs _ _ g (max f g) (Nat.le_max_right ..) hb
  rw [h1] at h2
  exact Option.some.inj h2

/-! ### Concrete cases -/

/-- Two processes that name each other as parent, and an event of one of them. -/
def stuckStream : List Rec := [.header demoHeader, .proc (Cache.demoProc .created 1 (some 2) "a"), .proc (Cache.demoProc .created 2 (some 1) "b"), .procEvt (demoPE 1)]

/-- On it the reader never returns. -/
example : Stuck stuckStream := by
  classical
  refine Classical.byContradiction fun h => ?_
  obtain ⟨r, hr⟩ := reader_returns stuckStream h 4 (Nat.le_refl _)
  have : run false 4 .init stuckStream = none := by decide
  rw [this] at hr
  cases hr

/-- A daemon (created at time 1) and a shell it started (created at time 2), an event of the shell, a changed shell, an event of a process nobody announced. -/
def saneStream : List Rec :=
  [.header demoHeader, .proc (Cache.demoProc .reup 1 none "/init"), .proc { Cache.demoProc .created 2 (some 1) "/bin/sh" with oid := ⟨2, 2⟩ }, .procEvt { demoPE 2 with procOID := ⟨2, 2⟩ },
   .proc { Cache.demoProc .modified 2 (some 1) "/bin/ls" with oid := ⟨2, 2⟩ }, .procEvt { demoPE 2 with procOID := ⟨2, 2⟩ }, .procEvt (demoPE 5)]

theorem sane_older : OlderParents saneStream := by
  intro p hp q hq
  simp only [saneStream, List.mem_cons, List.not_mem_nil, reduceCtorEq, Rec.proc.injEq, false_or, or_false] at hp
  rcases hp with rfl | rfl | rfl <;> cases hq <;> decide

/-- The three events reach the handler. -/
example : (run false 7 .init saneStream).map (·.2.length) = some 3 := by decide

end Verif.Processor
