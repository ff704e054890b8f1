import Verif.Shared.Gather
import Verif.Otel.Policy
/-
C124 from the conditions' side, and what goes wrong with a record in which the processor's scope is not the last.
-/
namespace Verif.Shared.Gather
open Verif.Decimal (Str)
open Verif.Policy
open Verif.Otel

/-! ### Records of attributes -/

/-- The pointers lead to a scope's attributes, with `deref` for what they point to. -/
structure ShowsScope {α : Type} (deref : α → KV) (s : PScope α) (sl : ScopeLogs) : Prop where
  attrs : s.attrs.map deref = (sl.scope.map (·.attrs)).getD []
  logs : s.logs.map (·.map deref) = sl.logs.map (·.attrs)
  proc : s.proc = true ↔ ∃ sc, sl.scope = some sc ∧ sc.name = "sf-processor".toList

/-- The record in memory is this record. -/
structure Shows {α : Type} (deref : α → KV) (r : PRec α) (rl : ResourceLogs) : Prop where
  base : rl.resource = some (r.base.map deref)
  scopes : List.Forall₂ (ShowsScope deref) r.scopes rl.scopes

theorem addLogs_eq (ls : List LogRecord) : ∀ acc, addLogs acc ls = acc ++ (ls.map (·.attrs)).flatten := by
  induction ls with
  | nil => intro acc; exact (List.append_nil _).symm
  | cons x ls ih =>
    intro acc
    change addLogs (acc ++ x.attrs) ls = _
    rw [ih, List.map_cons, List.flatten_cons, List.append_assoc]

theorem shows_scopes {α : Type} {deref : α → KV} {ss : List (PScope α)} {ls : List ScopeLogs} (h : List.Forall₂ (ShowsScope deref) ss ls) :
    ∀ acc, addScopes acc ls = acc ++ (ss.flatMap (fun s => s.attrs ++ s.logs.flatten)).map deref := by
  induction h with
  | nil => intro acc; exact (List.append_nil _).symm
  | @cons s sl ss ls h1 _ ih =>
    intro acc
    have hstep : addScopes acc (sl :: ls) = addScopes (addLogs (acc ++ (sl.scope.map (·.attrs)).getD []) sl.logs) ls := by
      unfold addScopes
      rw [List.foldl_cons]
      cases sl.scope with
      | none => rw [Option.map_none, Option.getD_none, List.append_nil]
      | some sc => rfl
    rw [hstep, ih, addLogs_eq, ← h1.attrs, ← h1.logs, List.flatMap_cons, List.map_append, List.map_append, List.map_flatten, List.append_assoc, List.append_assoc, List.append_assoc]

/-- What `getAllAttributes` collects from the record is what the pointers of the record in memory lead to. -/
theorem shows_attributes {α : Type} {deref : α → KV} {r : PRec α} {rl : ResourceLogs} (h : Shows deref r rl) : getAllAttributes rl = some (r.attributes.map deref) := by
  unfold getAllAttributes PRec.attributes
  rw [h.base, Option.map_some, shows_scopes h.scopes, List.map_append]

/-- A record that arrives without a scope of the processor is arranged. -/
theorem fresh_arranged {α : Type} {deref : α → KV} {r : PRec α} {rl : ResourceLogs} (h : Shows deref r rl) (hf : Fresh rl.scopes) : r.Arranged := by
  intro pre s post he hs
  exfalso
  have hall : ∀ {ss : List (PScope α)} {ls : List ScopeLogs}, List.Forall₂ (ShowsScope deref) ss ls → ∀ x ∈ ss, ∃ y ∈ ls, ShowsScope deref x y := by
    intro ss ls hh
    induction hh with
    | nil => intro x hx; cases hx
    | cons h1 _ ih =>
      intro x hx
      rcases List.mem_cons.1 hx with rfl | hx
      · exact ⟨_, .head _, h1⟩
      · obtain ⟨y, hy, hxy⟩ := ih x hx
        exact ⟨y, .tail _ hy, hxy⟩
  obtain ⟨y, hy, hxy⟩ := hall h.scopes s (by rw [he]; exact List.mem_append_right _ (.head _))
  obtain ⟨sc, h1, h2⟩ := hxy.proc.1 hs
  exact hf y hy sc h1 h2

/-! ### Conditions -/

/-- Every evaluation that has begun has, or will have, at least what the record had at the start. -/
theorem run_begun {α : Type} {room : Nat} {grow : Nat → Nat → Nat} {new : α → Prop} {m m' : Mem α} (h : Run room grow new m m') (hst : Starts m) (ha : m.record.Arranged) (i : Nat) :
    (m'.readers i).act = .waiting ∨ AtLeast m.record.attributes.length m'.record (m'.readers i) := by
  have hs := starts_sound hst ha
  induction h with
  | refl => exact .inl (hst.waiting i)
  | step j e a hrun hstep ih =>
    dsimp only
    split
    · rename_i hij
      rw [hij] at ih
      have hs' := run_sound hrun hs
      obtain ⟨-, -, q1, q2⟩ := fine_step hs'.arranged hs'.base (hs'.fine j) hstep
      rcases ih with ih | ih
      · have := q2 ih
        obtain ⟨xs, hx, -⟩ := run_adds hrun hs
        right
        have hle : ∀ n, n ≤ _ → AtLeast n _ e := fun n hn => by
          unfold AtLeast at this ⊢
          cases hact : e.act with
          | waiting => rw [hact] at this; exact this
          | idle => rw [hact] at this; exact Nat.le_trans hn this
          | writing xs k => rw [hact] at this; exact Nat.le_trans hn this
          | growing xs arr c k => rw [hact] at this; exact Nat.le_trans hn this
          | scan k seen => rw [hact] at this; exact Nat.le_trans hn this
          | done seen => rw [hact] at this; exact Nat.le_trans hn this
        refine hle _ ?_
        rw [hx, List.length_append]
        exact Nat.le_add_right _ _
      · exact .inr (q1 _ ih)
    · exact ih
  | note p r hrun hnote _ ih =>
    have hs' := run_sound hrun hs
    rcases ih with ih | ih
    · exact .inl ih
    · exact .inr (atLeast_note hnote hs'.arranged (hs'.fine i) ih)

/-- An attribute that the processor writes. -/
def Written (a : KV) : Prop := a.1 = "sf.processor.rules".toList ∨ a.1 = "sf.processor.tags".toList

/-- **C124** A record arrives without a scope of the processor and goes to any number of engines, each of which evaluates its conditions on it and notes rules in it whenever it likes. Every evaluation of a
condition on an attribute that is not the processor's own, done at the same time as any others, has the result it has on the record as it arrived. -/
theorem shared_conditions {α : Type} (L : Lib) {room : Nat} {grow : Nat → Nat → Nat} {deref : α → KV} {m m' : Mem α} {rl : ResourceLogs} (hstart : Starts m) (hshow : Shows deref m.record rl) (hf : Fresh rl.scopes)
    (h : Run room grow (fun p => Written (deref p)) m m') {i : Nat} {seen : List (Option α)} (hd : (m'.readers i).act = .done seen) :
    ∃ read : List α, seen = read.map some ∧ ∀ k, k ≠ "sf.processor.rules".toList → k ≠ "sf.processor.tags".toList →
      exists? k rl = some (hasKey k (read.map deref)) ∧
      (∀ x op, compare? L k x op rl = cmpKVs L k x op (read.map deref)) ∧
      (∀ xs op, foldAny? L k xs op rl = foldAnyLoop L k op (read.map deref) xs) ∧
      (∀ xs op, foldAll? L k xs op rl = foldAllLoop L k op (read.map deref) xs) ∧
      (∀ re find, L.regexp re = some find → (regExp? L k re).1 rl = regExpLoop find k (read.map deref)) := by
  have ha := fresh_arranged hshow hf
  have hs := starts_sound hstart ha
  have hs' := run_sound h hs
  obtain ⟨xs, g1, g2⟩ := run_adds h hs
  have hle := (run_begun h hstart ha i).resolve_left (by rw [hd]; intro q; cases q)
  unfold AtLeast at hle
  rw [hd] at hle
  have hfine := hs'.fine i
  unfold Fine at hfine
  rw [hd] at hfine
  obtain ⟨-, f2⟩ := hfine
  dsimp only at hle
  refine ⟨_, f2, fun k hk1 hk2 => ?_⟩
  have hread : m'.record.attributes.take (m'.readers i).len = m.record.attributes ++ xs.take ((m'.readers i).len - m.record.attributes.length) := by
    rw [g1, List.take_append, List.take_of_length_le hle]
  have hfil : ((m'.record.attributes.take (m'.readers i).len).map deref).filter (fun p => p.1 = k) = (m.record.attributes.map deref).filter (fun p => p.1 = k) := by
    rw [hread, List.map_append, List.filter_append]
    have : ((xs.take ((m'.readers i).len - m.record.attributes.length)).map deref).filter (fun p => p.1 = k) = [] := by
      apply List.filter_eq_nil_iff.2
      intro a ha
      obtain ⟨p, hp, rfl⟩ := List.mem_map.1 ha
      have := g2 p (List.mem_of_mem_take hp)
      intro hc
      have hc : (deref p).1 = k := by simpa using hc
      rcases this with q | q
      · exact hk1 (hc.symm.trans q)
      · exact hk2 (hc.symm.trans q)
    rw [this, List.append_nil]
  generalize (m'.record.attributes.take (m'.readers i).len).map deref = B at hfil ⊢
  have hall := shows_attributes hshow
  generalize m.record.attributes.map deref = A at hfil hall
  have hcmp : ∀ x op, cmpKVs L k x op A = cmpKVs L k x op B := by
    intro x op
    rw [cmpKVs_filter, ← hfil, ← cmpKVs_filter]
  refine ⟨?_, ?_, ?_, ?_, ?_⟩
  · unfold exists?
    rw [hall, Option.map_some, hasKey_filter, ← hfil, ← hasKey_filter]
  · intro x op
    unfold compare?
    rw [hall]
    exact hcmp x op
  · intro ys op
    unfold foldAny?
    rw [hall]
    dsimp only
    induction ys with
    | nil => rfl
    | cons y ys ih => rw [foldAnyLoop, foldAnyLoop, hcmp, ih]
  · intro ys op
    unfold foldAll?
    rw [hall]
    dsimp only
    induction ys with
    | nil => rfl
    | cons y ys ih => rw [foldAllLoop, foldAllLoop, hcmp, ih]
  · intro re find hre
    unfold regExp?
    rw [hre]
    dsimp only
    rw [hall]
    dsimp only
    rw [regExpLoop_filter, ← hfil, ← regExpLoop_filter]

/-! ### Where evaluations write -/

/-- An evaluation whose slice is that of the resource's array knows its capacity and keeps within it. -/
def Within {α : Type} (room : Nat) (e : Reader α) : Prop :=
  match e.act with
  | .waiting => True
  | .writing xs _ => e.place = .resource → e.cap = room ∧ e.len + xs.length ≤ room
  | _ => e.place = .resource → e.cap = room

theorem within_step {α : Type} {room : Nat} {grow : Nat → Nat → Nat} {r : PRec α} {array : Nat → Option α} {e e' : Reader α} {a : Nat → Option α} (hw : Within room e)
    (hs : e.step room grow r array = some (e', a)) : Within room e' ∧ ∀ k, room ≤ k → a k = array k := by
  unfold Reader.step at hs
  unfold Within at hw
  cases hact : e.act with
  | waiting =>
    rw [hact] at hs
    cases hs
    exact ⟨fun _ => rfl, fun _ _ => rfl⟩
  | idle =>
    rw [hact] at hs hw
    dsimp only at hs hw
    cases htodo : e.todo with
    | nil =>
      rw [htodo] at hs
      cases hs
      exact ⟨hw, fun _ _ => rfl⟩
    | cons f rest =>
      rw [htodo] at hs
      dsimp only at hs
      split at hs
      · rename_i hle
        cases hs
        refine ⟨fun hp => ?_, fun _ _ => rfl⟩
        have := hw hp
        exact ⟨this, by rw [← this]; exact hle⟩
      · cases hs
        exact ⟨hw, fun _ _ => rfl⟩
  | writing xs k =>
    rw [hact] at hs hw
    dsimp only at hs hw
    cases hx : xs[k]? with
    | some x =>
      rw [hx] at hs
      dsimp only at hs
      have hk : k < xs.length := (List.getElem?_eq_some_iff.1 hx).1
      cases hp : e.place with
      | resource =>
        rw [hp] at hs
        cases hs
        refine ⟨fun _ => hw hp, fun j hj => ?_⟩
        have := (hw hp).2
        unfold assign
        rw [if_neg (by omega)]
      | own =>
        rw [hp] at hs
        cases hs
        refine ⟨fun hp' => ?_, fun _ _ => rfl⟩
        cases hp'
    | none =>
      rw [hx] at hs
      cases hs
      exact ⟨fun hp => (hw hp).1, fun _ _ => rfl⟩
  | growing xs arr c k =>
    rw [hact] at hs hw
    dsimp only at hs hw
    split at hs
    · cases hs
      exact ⟨hw, fun _ _ => rfl⟩
    · cases hs
      refine ⟨fun hp => ?_, fun _ _ => rfl⟩
      cases hp
  | scan k seen =>
    rw [hact] at hs hw
    dsimp only at hs hw
    split at hs
    · cases hs
      exact ⟨hw, fun _ _ => rfl⟩
    · cases hs
      exact ⟨hw, fun _ _ => rfl⟩
  | done seen =>
    rw [hact] at hs
    cases hs

/-- The slice of an evaluation that has begun has at least the resource's attributes, so it appends behind them. -/
theorem above_step {α : Type} {room : Nat} {grow : Nat → Nat → Nat} {r : PRec α} {array : Nat → Option α} {e e' : Reader α} {a : Nat → Option α} {n : Nat} (hn : n ≤ r.base.length)
    (hw : e.act = .waiting ∨ n ≤ e.len) (hs : e.step room grow r array = some (e', a)) : n ≤ e'.len ∧ ∀ k < n, a k = array k := by
  unfold Reader.step at hs
  cases hact : e.act with
  | waiting =>
    rw [hact] at hs
    cases hs
    exact ⟨hn, fun _ _ => rfl⟩
  | idle =>
    have hw := hw.resolve_left (by rw [hact]; intro q; cases q)
    rw [hact] at hs
    dsimp only at hs
    cases htodo : e.todo with
    | nil =>
      rw [htodo] at hs
      cases hs
      exact ⟨hw, fun _ _ => rfl⟩
    | cons f rest =>
      rw [htodo] at hs
      dsimp only at hs
      split at hs <;> cases hs <;> exact ⟨hw, fun _ _ => rfl⟩
  | writing xs k =>
    have hw := hw.resolve_left (by rw [hact]; intro q; cases q)
    rw [hact] at hs
    dsimp only at hs
    cases hx : xs[k]? with
    | some x =>
      rw [hx] at hs
      dsimp only at hs
      cases hp : e.place with
      | resource =>
        rw [hp] at hs
        cases hs
        refine ⟨hw, fun j hj => ?_⟩
        unfold assign
        rw [if_neg (by omega)]
      | own =>
        rw [hp] at hs
        cases hs
        exact ⟨hw, fun _ _ => rfl⟩
    | none =>
      rw [hx] at hs
      cases hs
      exact ⟨Nat.le_trans hw (Nat.le_add_right _ _), fun _ _ => rfl⟩
  | growing xs arr c k =>
    have hw := hw.resolve_left (by rw [hact]; intro q; cases q)
    rw [hact] at hs
    dsimp only at hs
    split at hs <;> cases hs <;> exact ⟨hw, fun _ _ => rfl⟩
  | scan k seen =>
    have hw := hw.resolve_left (by rw [hact]; intro q; cases q)
    rw [hact] at hs
    dsimp only at hs
    split at hs <;> cases hs <;> exact ⟨hw, fun _ _ => rfl⟩
  | done seen =>
    rw [hact] at hs
    cases hs

/-- **C124** Evaluations write only to the room behind the resource's attributes: nothing behind the array's end, and, whatever the arrangement of the scopes, never over the resource's attributes themselves. -/
theorem writes_in_room {α : Type} {room : Nat} {grow : Nat → Nat → Nat} {new : α → Prop} {m m' : Mem α} (hstart : Starts m) (h : Run room grow new m m') (k : Nat) (hk : room ≤ k ∨ k < m.record.base.length) :
    m'.array k = m.array k := by
  have key : (∀ i, Within room (m'.readers i)) ∧ (∀ k, room ≤ k → m'.array k = m.array k) ∧ m'.record.base = m.record.base ∧
      (∀ i, (m'.readers i).act = .waiting ∨ m.record.base.length ≤ (m'.readers i).len) ∧ ∀ k < m.record.base.length, m'.array k = m.array k := by
    induction h with
    | refl =>
      refine ⟨fun i => ?_, fun _ _ => rfl, rfl, fun i => .inl (hstart.waiting i), fun _ _ => rfl⟩
      unfold Within
      rw [hstart.waiting i]
      trivial
    | step i e a _ hstep ih =>
      obtain ⟨h1, h2, h3, h4, h5⟩ := ih
      obtain ⟨q1, q2⟩ := within_step (h1 i) hstep
      obtain ⟨q3, q4⟩ := above_step (n := m.record.base.length) (Nat.le_of_eq (by rw [h3])) (h4 i) hstep
      refine ⟨fun j => ?_, fun k hk => (q2 k hk).trans (h2 k hk), h3, fun j => ?_, fun k hk => (q4 k hk).trans (h5 k hk)⟩
      · dsimp only
        split
        · exact q1
        · exact h1 j
      · dsimp only
        split
        · exact .inr q3
        · exact h4 j
    | note p r _ hnote _ ih =>
      obtain ⟨h1, h2, h3, h4, h5⟩ := ih
      refine ⟨h1, h2, ?_, h4, h5⟩
      cases hnote <;> exact h3
  rcases hk with hk | hk
  · exact key.2.1 k hk
  · exact key.2.2.2.2 k hk

/-! ### What noting does -/

/-- The keys of a record's attributes, list by list. -/
def keysOf (rl : ResourceLogs) : PRec Str where
  base := (rl.resource.getD []).map (·.1)
  scopes := rl.scopes.map (fun s => ⟨(s.scope.map (fun sc => sc.name == "sf-processor".toList)).getD false, ((s.scope.map (·.attrs)).getD []).map (·.1), s.logs.map (fun l => l.attrs.map (·.1))⟩)

/-- Noting step by step, with the attributes added. -/
inductive Notes {α : Type} (r : PRec α) : List α → PRec α → Prop where
  | nil : Notes r [] r
  | snoc {ps : List α} {p : Option α} {r1 r2 : PRec α} : Notes r ps r1 → Note r1 p r2 → Notes r (ps ++ p.toList) r2

theorem appendAll_keys (i : Nat) (ss : List Str) : ∀ (attrs attrs' : List KV), appendAll i ss attrs = some attrs' → attrs'.map (·.1) = attrs.map (·.1) := by
  induction ss with
  | nil => intro a b h; cases h; rfl
  | cons s ss ih =>
    intro a b h
    rw [appendAll] at h
    split at h
    · cases h
    · rename_i a' ha'
      rw [ih _ _ h]
      unfold appendAt at ha'
      split at ha'
      · rename_i k vs hk
        cases ha'
        rw [List.map_set]
        apply List.ext_getElem?
        intro j
        rw [List.getElem?_set]
        split
        · rename_i hij
          split
          · rw [← hij, List.getElem?_map, hk]
            rfl
          · rename_i hlt
            rw [← hij, List.getElem?_eq_none (by omega)]
        · rfl
      · cases ha'

/-- `AddRules` adds to the keys of the scope's attributes those of the two attributes it needs and does not find. -/
theorem enrichAttrs_keys (order : List Str → List Str) (rules : List RuleInfo) (a b : List KV) (h : enrichAttrs order rules a = some b) :
    ∃ ps : List Str, b.map (·.1) = a.map (·.1) ++ ps ∧ ∀ p ∈ ps, p = "sf.processor.rules".toList ∨ p = "sf.processor.tags".toList := by
  have hg : ∀ (x : List KV) (k : Str), ∃ ps : List Str, (getOrCreate x k).1.map (·.1) = x.map (·.1) ++ ps ∧ ∀ p ∈ ps, p = k := by
    intro x k
    rcases (getOrCreate_spec x k).2 with q | ⟨q, -⟩
    · exact ⟨[], by rw [q, List.append_nil], fun p hp => by cases hp⟩
    · exact ⟨[k], by rw [q, List.map_append]; rfl, fun p hp => List.mem_singleton.1 hp⟩
  unfold enrichAttrs at h
  dsimp only at h
  split at h
  · cases h
  · rename_i a3 h3
    obtain ⟨p1, q1, q2⟩ := hg a rulesKey
    obtain ⟨p2, q3, q4⟩ := hg (getOrCreate a rulesKey).1 tagsKey
    refine ⟨p1 ++ p2, ?_, ?_⟩
    · rw [appendAll_keys _ _ _ _ h, appendAll_keys _ _ _ _ h3, q3, q1, List.append_assoc]
    · intro p hp
      rcases List.mem_append.1 hp with hp | hp
      · exact .inl (q2 p hp)
      · exact .inr (q4 p hp)

theorem notes_attrs {α : Type} (b : List α) (pre post : List (PScope α)) (hpre : ∀ x ∈ pre, x.proc = false) (ps : List α) : ∀ (r : PRec α) (qs : List α) (as : List α) (ls : List (List α)),
    Notes r qs ⟨b, pre ++ ⟨true, as, ls⟩ :: post⟩ → Notes r (qs ++ ps) ⟨b, pre ++ ⟨true, as ++ ps, ls⟩ :: post⟩ := by
  induction ps with
  | nil => intro r qs as ls h; rw [List.append_nil, List.append_nil]; exact h
  | cons p ps ih =>
    intro r qs as ls h
    have := ih r (qs ++ [p]) (as ++ [p]) ls (.snoc h (.attr pre ⟨true, as, ls⟩ post p rfl hpre rfl))
    rw [List.append_assoc, List.append_assoc] at this
    exact this

/-- The steps of `Note` are those of `AddRules`: on the lists of keys of a record, it adds attributes named sf.processor.rules and sf.processor.tags in such steps. -/
theorem add_rules_notes (order : List Str → List Str) (rl rl' : ResourceLogs) (rules : List RuleInfo) (h : addRules? order rl rules = some rl') :
    ∃ ps, Notes (keysOf rl) ps (keysOf rl') ∧ ∀ p ∈ ps, p = "sf.processor.rules".toList ∨ p = "sf.processor.tags".toList := by
  unfold addRules? at h
  obtain ⟨ss, hss, rfl⟩ := Option.map_eq_some_iff.1 h
  let conv : ScopeLogs → PScope Str := fun s =>
    ⟨(s.scope.map (fun sc => sc.name == "sf-processor".toList)).getD false, ((s.scope.map (·.attrs)).getD []).map (·.1), s.logs.map (fun l => l.attrs.map (·.1))⟩
  have key : ∀ (rest ss' : List ScopeLogs), enrichScopes order rules rest = some ss' → ∀ (pre : List (PScope Str)) (b : List Str), (∀ x ∈ pre, x.proc = false) →
      ∃ ps, Notes (PRec.mk b (pre ++ rest.map conv)) ps ⟨b, pre ++ ss'.map conv⟩ ∧ ∀ p ∈ ps, p = "sf.processor.rules".toList ∨ p = "sf.processor.tags".toList := by
    intro rest
    induction rest with
    | nil =>
      intro ss' h pre b hpre
      rw [enrichScopes] at h
      obtain ⟨a, ha, rfl⟩ := Option.map_eq_some_iff.1 h
      obtain ⟨ps, h1, h2⟩ := enrichAttrs_keys order rules [] a ha
      rw [List.map_nil, List.nil_append] at h1
      refine ⟨ps, ?_, h2⟩
      have e0 : Notes (PRec.mk b (pre ++ [])) [] ⟨b, pre ++ []⟩ := .nil
      have e1 := e0.snoc (.scope (fun s hs => hpre s (by rw [List.append_nil] at hs; exact hs)))
      rw [List.append_nil] at e1
      have e2 := notes_attrs b pre [] hpre ps _ _ [] [] e1
      have e3 : conv ⟨some ⟨scopeName, a, []⟩, [], []⟩ = ⟨true, ps, []⟩ := by
        change PScope.mk (scopeName == "sf-processor".toList) (a.map (·.1)) [] = _
        rw [h1]
        congr 1
      rw [List.map_cons, e3]
      rw [List.append_nil] at e0
      simpa using e2
    | cons s rest ih =>
      intro ss' h pre b hpre
      rw [enrichScopes] at h
      have hskip : (conv s).proc = false → (∃ t, enrichScopes order rules rest = some t ∧ ss' = s :: t) →
          ∃ ps, Notes (PRec.mk b (pre ++ (s :: rest).map conv)) ps ⟨b, pre ++ ss'.map conv⟩ ∧ ∀ p ∈ ps, p = "sf.processor.rules".toList ∨ p = "sf.processor.tags".toList := by
        rintro hc ⟨t, ht, rfl⟩
        obtain ⟨ps, q1, q2⟩ := ih t ht (pre ++ [conv s]) b (by
          intro x hx
          rcases List.mem_append.1 hx with hx | hx
          · exact hpre x hx
          · rw [List.mem_singleton.1 hx, hc])
        rw [List.append_assoc, List.append_assoc] at q1
        exact ⟨ps, q1, q2⟩
      cases hsc : s.scope with
      | none =>
        rw [hsc] at h
        obtain ⟨t, ht, rfl⟩ := Option.map_eq_some_iff.1 h
        refine hskip ?_ ⟨t, ht, rfl⟩
        change (s.scope.map _).getD false = false
        rw [hsc]
        rfl
      | some sc =>
        rw [hsc] at h
        dsimp only at h
        split at h
        · rename_i hn
          obtain ⟨a, ha, rfl⟩ := Option.map_eq_some_iff.1 h
          obtain ⟨ps, h1, h2⟩ := enrichAttrs_keys order rules sc.attrs a ha
          refine ⟨ps, ?_, h2⟩
          have hb : (sc.name == "sf-processor".toList) = true := by
            rw [beq_iff_eq]
            exact hn
          have e3 : conv s = ⟨true, sc.attrs.map (·.1), (conv s).logs⟩ := by
            change PScope.mk _ _ _ = PScope.mk _ _ _
            rw [hsc]
            change PScope.mk (sc.name == "sf-processor".toList) _ _ = _
            rw [hb]
            rfl
          have e4 : conv { s with scope := some { sc with attrs := a } } = ⟨true, sc.attrs.map (·.1) ++ ps, (conv s).logs⟩ := by
            change PScope.mk (sc.name == "sf-processor".toList) (a.map (·.1)) _ = _
            rw [hb, h1]
          rw [List.map_cons, List.map_cons, e3, e4]
          exact notes_attrs b pre (rest.map conv) hpre ps _ [] _ _ .nil
        · rename_i hn
          obtain ⟨t, ht, rfl⟩ := Option.map_eq_some_iff.1 h
          refine hskip ?_ ⟨t, ht, rfl⟩
          have hb : (sc.name == "sf-processor".toList) = false := by
            rw [beq_eq_false_iff_ne]
            exact hn
          change (s.scope.map _).getD false = false
          rw [hsc]
          exact hb
  obtain ⟨ps, h1, h2⟩ := key rl.scopes ss hss [] ((rl.resource.getD []).map (·.1)) (fun x hx => by cases hx)
  exact ⟨ps, h1, h2⟩

/-- The keys are those of the attributes that conditions look at. -/
theorem keysOf_attributes (rl : ResourceLogs) (kvs : List KV) (h : getAllAttributes rl = some kvs) : (keysOf rl).attributes = kvs.map (·.1) := by
  unfold getAllAttributes at h
  obtain ⟨res, h1, rfl⟩ := Option.map_eq_some_iff.1 h
  have key : ∀ (ss : List ScopeLogs) (acc : List KV), (addScopes acc ss).map (·.1) = acc.map (·.1) ++ (ss.map (fun s => (⟨(s.scope.map (fun sc => sc.name == "sf-processor".toList)).getD false,
      ((s.scope.map (·.attrs)).getD []).map (·.1), s.logs.map (fun l => l.attrs.map (·.1))⟩ : PScope Str))).flatMap (fun s => s.attrs ++ s.logs.flatten) := by
    intro ss
    induction ss with
    | nil => intro acc; exact (List.append_nil _).symm
    | cons sl ss ih =>
      intro acc
      have hstep : addScopes acc (sl :: ss) = addScopes (addLogs (acc ++ (sl.scope.map (·.attrs)).getD []) sl.logs) ss := by
        unfold addScopes
        rw [List.foldl_cons]
        cases sl.scope with
        | none => rw [Option.map_none, Option.getD_none, List.append_nil]
        | some sc => rfl
      rw [hstep, ih, addLogs_eq, List.map_append, List.map_append, List.map_flatten, List.map_map, List.map_cons, List.flatMap_cons, List.append_assoc, List.append_assoc, List.append_assoc]
      rfl
  rw [key rl.scopes res]
  unfold keysOf PRec.attributes
  rw [h1]
  rfl

/-! ### Where the processor's scope is not the last -/

/-- What one does next: an evaluation makes a step; an engine adds the processor's scope, or an attribute to it. -/
inductive Move (α : Type) where
  | go (i : Nat)
  | mark
  | note (p : α)

/-- Adds an attribute to the first scope of the processor. -/
def addTo {α : Type} (p : α) : List (PScope α) → Option (List (PScope α))
  | [] => none
  | s :: ss => if s.proc then some ({ s with attrs := s.attrs ++ [p] } :: ss) else (addTo p ss).map (s :: ·)

theorem addTo_note {α : Type} (p : α) (ss ss' : List (PScope α)) (h : addTo p ss = some ss') :
    ∃ pre s post, ss = pre ++ s :: post ∧ (∀ x ∈ pre, x.proc = false) ∧ s.proc = true ∧ ss' = pre ++ { s with attrs := s.attrs ++ [p] } :: post := by
  induction ss generalizing ss' with
  | nil => cases h
  | cons s ss ih =>
    rw [addTo] at h
    split at h
    · rename_i hs
      cases h
      exact ⟨[], s, ss, rfl, (fun x hx => by cases hx), hs, rfl⟩
    · rename_i hs
      obtain ⟨t, ht, rfl⟩ := Option.map_eq_some_iff.1 h
      obtain ⟨pre, z, post, rfl, h2, h3, rfl⟩ := ih t ht
      refine ⟨s :: pre, z, post, rfl, ?_, h3, rfl⟩
      intro x hx
      rcases List.mem_cons.1 hx with rfl | hx
      · simpa using hs
      · exact h2 x hx

/-- One move. -/
def Mem.move {α : Type} (room : Nat) (grow : Nat → Nat → Nat) (m : Mem α) : Move α → Option (Mem α)
  | .go i => ((m.readers i).step room grow m.record m.array).map (fun x => { m with array := x.2, readers := fun j => if j = i then x.1 else m.readers j })
  | .mark => if m.record.scopes.all (fun s => !s.proc) then some { m with record := { m.record with scopes := m.record.scopes ++ [⟨true, [], []⟩] } } else none
  | .note p => (addTo p m.record.scopes).map (fun ss => { m with record := { m.record with scopes := ss } })

/-- Moves one after the other. -/
def Mem.moves {α : Type} (room : Nat) (grow : Nat → Nat → Nat) (m : Mem α) : List (Move α) → Option (Mem α)
  | [] => some m
  | x :: xs => (m.move room grow x).bind (fun m' => m'.moves room grow xs)

theorem moves_run {α : Type} {room : Nat} {grow : Nat → Nat → Nat} {new : α → Prop} (xs : List (Move α)) : ∀ (m0 m m' : Mem α), Run room grow new m0 m → (∀ p, Move.note p ∈ xs → new p) → m.moves room grow xs = some m' →
    Run room grow new m0 m' := by
  induction xs with
  | nil => intro m0 m m' h _ he; cases he; exact h
  | cons x xs ih =>
    intro m0 m m' h hn he
    rw [Mem.moves] at he
    obtain ⟨m1, h1, h2⟩ := Option.bind_eq_some_iff.1 he
    refine ih m0 m1 m' ?_ (fun p hp => hn p (.tail _ hp)) h2
    cases x with
    | go i =>
      rw [Mem.move] at h1
      obtain ⟨⟨e, a⟩, h3, rfl⟩ := Option.map_eq_some_iff.1 h1
      exact .step i e a h h3
    | mark =>
      rw [Mem.move] at h1
      split at h1
      · rename_i hall
        cases h1
        exact .note none _ h (.scope (fun s hs => by simpa using List.all_eq_true.1 hall s hs)) (fun x hx => by cases hx)
      · cases h1
    | note p =>
      rw [Mem.move] at h1
      obtain ⟨ss, h3, rfl⟩ := Option.map_eq_some_iff.1 h1
      obtain ⟨pre, s, post, q1, q2, q3, rfl⟩ := addTo_note p _ _ h3
      exact .note (some p) _ h (.attr pre s post p q1 q2 q3) (fun x hx => by cases hx; exact hn p (.head _))

/-- A record that has been through a processor and has got another scope behind that: attribute 0 of the resource, none of the processor's, attribute 1 of the other scope. -/
def passedOn : PRec Nat := ⟨[0], [⟨true, [], []⟩, ⟨false, [1], []⟩]⟩

/-- It is in memory, and nothing has begun. -/
def passedOnMem : Mem Nat := ⟨passedOn, fun k => if k = 0 then some 0 else none, fun _ => ⟨.resource, fun _ => none, 0, 0, [], .waiting⟩⟩

/-- One evaluation collects the attributes; an engine notes a rule; another evaluation collects them; the first one reads. -/
def passedOnMoves : List (Move Nat) :=
  List.replicate 7 (.go 0) ++ [.note 2, .note 3] ++ List.replicate 9 (.go 1) ++ List.replicate 3 (.go 0)

def passedOnSeen : Option (List (Option Nat)) :=
  (passedOnMem.moves 4 (fun _ n => 2 * n) passedOnMoves).bind (fun m => match (m.readers 0).act with | .done s => some s | _ => none)

/-- **C124** (finding) In a record whose processor scope is not the last and whose list of resource attributes has room behind its end, an evaluation may miss an attribute that the record has all the time: while
it reads, another evaluation writes the attributes, shifted by what has been noted, over those it collected. -/
theorem attribute_missed : ∃ (room : Nat) (grow : Nat → Nat → Nat) (m m' : Mem Nat) (i : Nat) (seen : List (Option Nat)) (p : Nat), Starts m ∧ Run room grow (fun q => q ∉ m.record.attributes) m m' ∧
    (m'.readers i).act = .done seen ∧ p ∈ m.record.attributes ∧ p ∈ m'.record.attributes ∧ some p ∉ seen := by
  have hseen : passedOnSeen = some [some 0, some 2] := by decide +kernel
  unfold passedOnSeen at hseen
  obtain ⟨m', h1, h2⟩ := Option.bind_eq_some_iff.1 hseen
  refine ⟨4, fun _ n => 2 * n, passedOnMem, m', 0, [some 0, some 2], 1, ⟨?_, fun _ => rfl⟩, moves_run _ _ _ _ .refl ?_ h1, ?_, by decide, ?_, by decide⟩
  · intro k hk
    have : k = 0 := by
      have : k < 1 := hk
      omega
    rw [this]
    rfl
  · intro p hp
    have : p = 2 ∨ p = 3 := by
      simp [passedOnMoves] at hp
      exact hp
    rcases this with rfl | rfl <;> decide
  · split at h2
    · rename_i s hs
      rw [hs]
      exact congrArg _ (Option.some.inj h2)
    · cases h2
  · have : (passedOnMem.moves 4 (fun _ n => 2 * n) passedOnMoves).map (fun m => decide (1 ∈ m.record.attributes)) = some true := by decide +kernel
    rw [h1] at this
    simpa using this

/-! ### Concrete cases -/

/-- A record as it arrives, and the attributes its pointers lead to; 3 and 4 are what an engine notes. -/
def arrivedAt : Nat → KV
  | 0 => ("host".toList, .str "h".toList)
  | 1 => ("lib".toList, .str "l".toList)
  | 2 => ("user".toList, .str "root".toList)
  | 3 => ("sf.processor.rules".toList, .arr [])
  | _ => ("sf.processor.tags".toList, .arr [])

def arrived : ResourceLogs := ⟨some [arrivedAt 0], [⟨some ⟨"x".toList, [arrivedAt 1], []⟩, [⟨[arrivedAt 2], []⟩], []⟩], []⟩

def arrivedMem : Mem Nat := ⟨⟨[0], [⟨false, [1], [[2]]⟩]⟩, fun k => if k = 0 then some 0 else none, fun _ => ⟨.resource, fun _ => none, 0, 0, [], .waiting⟩⟩

theorem arrived_shows : Shows arrivedAt arrivedMem.record arrived := by
  refine ⟨rfl, .cons ⟨rfl, rfl, ?_⟩ .nil⟩
  constructor
  · intro h; cases h
  · rintro ⟨sc, h1, h2⟩
    cases h1
    exact absurd h2 (by decide)

theorem arrived_fresh : Fresh arrived.scopes := by
  intro s hs sc h1 h2
  rw [List.mem_singleton.1 hs] at h1
  cases h1
  exact absurd h2 (by decide)

theorem arrived_starts : Starts arrivedMem := by
  refine ⟨fun k hk => ?_, fun _ => rfl⟩
  have : k = 0 := by
    have : k < 1 := hk
    omega
  rw [this]
  rfl

/-- One evaluation begins to collect; an engine notes a rule; another evaluation collects the attributes, with those noted, and writes to the same array; the first one reads. -/
def arrivedMoves : List (Move Nat) := List.replicate 7 (.go 0) ++ [.mark, .note 3, .note 4] ++ List.replicate 18 (.go 1) ++ List.replicate 5 (.go 0)

/-- The hypotheses of `shared_conditions` are met in this execution, of which both evaluations read the user. -/
example (L : Lib) (op : Operator) : ∃ (m' : Mem Nat) (read : List Nat), Run 8 (fun _ n => 2 * n) (fun p => Written (arrivedAt p)) arrivedMem m' ∧ (m'.readers 0).act = .done (read.map some) ∧
    compare? L "user".toList "root".toList op arrived = cmpKVs L "user".toList "root".toList op (read.map arrivedAt) := by
  have h0 : (arrivedMem.moves 8 (fun _ n => 2 * n) arrivedMoves).bind (fun m => match (m.readers 0).act with | .done s => some s | _ => none) = some [some 0, some 1, some 2] := by decide +kernel
  obtain ⟨m', h1, h2⟩ := Option.bind_eq_some_iff.1 h0
  have hrun : Run 8 (fun _ n => 2 * n) (fun p => Written (arrivedAt p)) arrivedMem m' := moves_run _ _ _ _ .refl (by
    intro p hp
    have : p = 3 ∨ p = 4 := by
      simp [arrivedMoves] at hp
      exact hp
    rcases this with rfl | rfl
    · exact .inl rfl
    · exact .inr rfl) h1
  split at h2
  · rename_i s hs
    obtain ⟨read, q1, q2⟩ := shared_conditions L arrived_starts arrived_shows arrived_fresh hrun hs
    exact ⟨m', read, hrun, by rw [hs, q1], (q2 "user".toList (by decide) (by decide)).2.1 _ _⟩
  · cases h2

/-- The hypotheses of `shared_reading` are met: the second evaluation, which begins when a rule has been noted, reads that too. -/
example : ∃ m' seen, (arrivedMem.moves 8 (fun _ n => 2 * n) arrivedMoves) = some m' ∧ (m'.readers 1).act = .done seen ∧ ∃ more, seen = ([0, 1, 2, 3, 4] ++ more).map some := by
  have h0 : (arrivedMem.moves 8 (fun _ n => 2 * n) (List.replicate 7 (.go 0) ++ [.mark, .note 3, .note 4])).map (fun m => (m.record.attributes, match (m.readers 1).act with | .waiting => true | _ => false)) =
      some ([0, 1, 2, 3, 4], true) := by decide +kernel
  obtain ⟨m1, h1, h2⟩ := Option.map_eq_some_iff.1 h0
  have hn : ∀ (xs : List (Move Nat)), ∀ p, Move.note p ∈ xs → True := fun _ _ _ => trivial
  have hrun : Run 8 (fun _ n => 2 * n) (fun _ => True) arrivedMem m1 := moves_run _ _ _ _ .refl (hn _) h1
  rw [Prod.mk.injEq] at h2
  have hw : (m1.readers 1).act = .waiting := by
    revert h2
    cases (m1.readers 1).act <;> intro h2 <;> first | rfl | exact nomatch h2.2
  have hsplit : arrivedMem.moves 8 (fun _ n => 2 * n) arrivedMoves = m1.moves 8 (fun _ n => 2 * n) (List.replicate 18 (.go 1) ++ List.replicate 5 (.go 0)) := by
    have key : ∀ (xs ys : List (Move Nat)) (m m' : Mem Nat), m.moves 8 (fun _ n => 2 * n) xs = some m' → m.moves 8 (fun _ n => 2 * n) (xs ++ ys) = m'.moves 8 (fun _ n => 2 * n) ys := by
      intro xs
      induction xs with
      | nil => intro ys m m' h; cases h; rfl
      | cons x xs ih =>
        intro ys m m' h
        rw [Mem.moves] at h
        obtain ⟨mm, q1, q2⟩ := Option.bind_eq_some_iff.1 h
        rw [List.cons_append, Mem.moves, q1]
        exact ih ys mm m' q2
    unfold arrivedMoves
    rw [List.append_assoc]
    exact key _ _ _ _ h1
  have h3 : (arrivedMem.moves 8 (fun _ n => 2 * n) arrivedMoves).bind (fun m => match (m.readers 1).act with | .done s => some s | _ => none) = some [some 0, some 1, some 2, some 3, some 4] := by decide +kernel
  obtain ⟨m', h4, h5⟩ := Option.bind_eq_some_iff.1 h3
  have h6 := h4
  rw [hsplit, show List.replicate 18 (Move.go 1) ++ List.replicate 5 (Move.go 0) = Move.go 1 :: (List.replicate 17 (Move.go 1) ++ List.replicate 5 (Move.go 0)) from rfl, Mem.moves] at h6
  obtain ⟨mm, h7, h8⟩ := Option.bind_eq_some_iff.1 h6
  rw [Mem.move] at h7
  obtain ⟨⟨e, a⟩, h9, rfl⟩ := Option.map_eq_some_iff.1 h7
  have hrun2 := moves_run (new := fun _ => True) _ _ _ _ .refl (hn _) h8
  split at h5
  · rename_i s hs
    obtain ⟨more, rest, q1, -, -⟩ := shared_reading arrived_starts (fresh_arranged arrived_shows arrived_fresh) hrun hw h9 hrun2 hs
    rw [h2.1] at q1
    exact ⟨m', s, h4, hs, more, q1⟩
  · cases h5

/-- The hypotheses of `writes_in_room` are met in this execution, in which the evaluations do write into the room. -/
example : ∃ m', (arrivedMem.moves 8 (fun _ n => 2 * n) arrivedMoves) = some m' ∧ m'.array 1 ≠ arrivedMem.array 1 ∧ m'.array 0 = some 0 ∧ ∀ k, 8 ≤ k → m'.array k = none := by
  have h0 : (arrivedMem.moves 8 (fun _ n => 2 * n) arrivedMoves).map (fun m => m.array 1) = some (some 1) := by decide +kernel
  obtain ⟨m', h1, h2⟩ := Option.map_eq_some_iff.1 h0
  have hrun : Run 8 (fun _ n => 2 * n) (fun _ => True) arrivedMem m' := moves_run _ _ _ _ .refl (fun _ _ => trivial) h1
  refine ⟨m', h1, ?_, ?_, fun k hk => ?_⟩
  · rw [h2]
    decide
  · rw [writes_in_room arrived_starts hrun 0 (.inr (by decide))]
    rfl
  · rw [writes_in_room arrived_starts hrun k (.inl hk)]
    exact if_neg (by omega)

/-- The hypothesis of `add_rules_notes` is met. -/
example : ∃ rl', addRules? id arrived [{ name := "r".toList, tags := [["t".toList]] }] = some rl' ∧ ∃ ps, Notes (keysOf arrived) ps (keysOf rl') ∧ (keysOf rl').scopes.length = 2 := by
  have h := otel_enrich_first id arrived [{ name := "r".toList, tags := [["t".toList]] }] arrived_fresh
  obtain ⟨ps, h1, -⟩ := add_rules_notes id _ _ _ h
  exact ⟨_, h, ps, h1, rfl⟩

end Verif.Shared.Gather
