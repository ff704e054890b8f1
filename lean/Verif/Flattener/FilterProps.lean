import Verif.Flattener.Filter
/-
Properties of the duplicate filter (C33, C34) and of the semantic key (C35).
-/
namespace Verif.Filter
open Verif.Decimal (Str)
open Verif.FlatRecord

/-! ## Specification: histories of filter calls and their results -/

/-- A call of the filter's interface. -/
inductive Op where
  | testAndAdd (h : UInt64)
  | test (h : UInt64)
  | count (h : UInt64)
deriving DecidableEq, Repr

/-- What a call returns. -/
inductive Res where
  | bool (b : Bool)
  | num (n : Nat)
deriving DecidableEq, Repr

/-- A call together with the clock: it starts at `lo`, ends at `hi`, and its i-th clock reading is `rd i`. -/
structure Call where
  op : Op
  lo : Int
  hi : Int
  rd : Nat → Int

/-- Calls happen one after the other, from time `t0` on, and the clock is read during the call. -/
def Ordered : Int → List Call → Prop
  | _, [] => True
  | t0, c :: cs => t0 ≤ c.lo ∧ (∀ i, c.lo ≤ c.rd i ∧ c.rd i ≤ c.hi) ∧ Ordered c.hi cs

/-- One call. -/
def step (f : Filter) (c : Call) : Res × Filter :=
  match c.op with
  | .testAndAdd h => (.bool (testAndAdd f h c.rd).1, (testAndAdd f h c.rd).2)
  | .test h => (.bool (test f h c.rd).1, (test f h c.rd).2)
  | .count h => (.num (count f h c.rd).1, (count f h c.rd).2)

/-- The state after a history. -/
def after (f : Filter) : List Call → Filter
  | [] => f
  | c :: cs => after (step f c).2 cs

/-- The observable history: each call with its result. -/
def trace (f : Filter) : List Call → List (Call × Res)
  | [] => []
  | c :: cs => (c, (step f c).1) :: trace (step f c).2 cs

/-- In an observable history, the calls that let a record with key `h` through. -/
def IsEmission (h : UInt64) (x : Call × Res) : Prop := x.1.op = .testAndAdd h ∧ x.2 = .bool false

/-- In an observable history, the number of `testAndAdd h` from the last one that let `h` through on. -/
def sinceEmission (h : UInt64) : List (Call × Res) → Nat → Nat
  | [], n => n
  | (c, r) :: xs, n =>
    if c.op = .testAndAdd h then sinceEmission h xs (if r = .bool false then 1 else n + 1)
    else sinceEmission h xs n

/-! ## Invariant -/

structure Inv (ttl : Int) (xs : List (Call × Res)) (now : Int) (f : Filter) : Prop where
  httl : f.ttl = ttl
  sorted : f.q.Pairwise (fun a b => a.firstSeen ≤ b.firstSeen)
  nodup : (f.q.map (·.h)).Nodup
  mnodup : f.m.keys.Nodup
  dom : ∀ h, (f.m.get h).isSome ↔ h ∈ f.q.map (·.h)
  past : ∀ e ∈ f.q, e.firstSeen ≤ now
  source : ∀ e ∈ f.q, ∃ x ∈ xs, IsEmission e.h x ∧ x.1.lo ≤ e.firstSeen ∧ e.firstSeen ≤ x.1.hi
  live : ∀ h, ∀ x ∈ xs, IsEmission h x →
    (∃ e ∈ f.q, e.h = h ∧ x.1.lo ≤ e.firstSeen) ∨ ttl ≤ now - x.1.lo
  cnt : ∀ h n, f.m.get h = some n → n = sinceEmission h xs 0

theorem sinceEmission_snoc (h : UInt64) (xs : List (Call × Res)) (c : Call) (r : Res) (n : Nat) :
    sinceEmission h (xs ++ [(c, r)]) n =
      if c.op = .testAndAdd h then (if r = .bool false then 1 else sinceEmission h xs n + 1) else sinceEmission h xs n := by
  induction xs generalizing n with
  | nil => simp [sinceEmission]
  | cons x xs ih =>
    obtain ⟨c', r'⟩ := x
    simp only [List.cons_append, sinceEmission]
    split <;> exact ih _

/-- Result of the eviction loop: a suffix of the queue stays; what was removed was old at some reading. -/
theorem evictLoop_spec (ttl : Int) (rd : Nat → Int) (q : List Entry) (n : Nat) (m : AMap UInt64 Nat) :
    ∃ gone, q = gone ++ (evictLoop ttl rd n q m).2.1
      ∧ (∀ e ∈ gone, ∃ i, ttl ≤ rd i - e.firstSeen)
      ∧ (∀ h, (evictLoop ttl rd n q m).2.2.get h = if h ∈ gone.map (·.h) then none else m.get h)
      ∧ (m.keys.Nodup → (evictLoop ttl rd n q m).2.2.keys.Nodup)
      ∧ (∀ e, (evictLoop ttl rd n q m).2.1.head? = some e → ∃ i, rd i - e.firstSeen < ttl) := by
  induction q generalizing n m with
  | nil => exact ⟨[], by simp [evictLoop]⟩
  | cons e q ih =>
    unfold evictLoop
    split
    · rename_i h
      refine ⟨[], by simp, by simp, by simp, by simp, ?_⟩
      intro e' he'
      simp at he'
      exact ⟨n, by rw [← he']; exact h⟩
    · rename_i h
      obtain ⟨gone, h1, h2, h3, h4, h5⟩ := ih (n + 1) (m.del e.h)
      refine ⟨e :: gone, by rw [List.cons_append, ← h1], ?_, ?_, ?_, h5⟩
      · intro x hx
        rcases List.mem_cons.1 hx with rfl | hx
        · exact ⟨n, by omega⟩
        · exact h2 x hx
      · intro k
        rw [h3, AMap.get_del]
        by_cases hk : k ∈ gone.map (·.h)
        · rw [if_pos hk, if_pos (by rw [List.map_cons]; exact List.mem_cons_of_mem _ hk)]
        · rw [if_neg hk]
          by_cases he : e.h = k
          · rw [if_pos he, if_pos (by rw [List.map_cons, he]; exact .head _)]
          · rw [if_neg he, if_neg]
            rw [List.map_cons, List.mem_cons]
            rintro (hh | hh)
            · exact he hh.symm
            · exact hk hh
      · intro hm; exact h4 (AMap.nodup_del m e.h hm)

/-- After the eviction at the start of a call: the invariant persists, every stored entry is young at
some reading of this call. -/
theorem evict_inv {ttl : Int} {xs : List (Call × Res)} {now : Int} {f : Filter} (I : Inv ttl xs now f)
    (lo hi : Int) (rd : Nat → Int) (hlo : now ≤ lo) (hrd : ∀ i, lo ≤ rd i ∧ rd i ≤ hi) :
    Inv ttl xs hi (evict f rd).2 ∧ ∀ e ∈ (evict f rd).2.q, e.firstSeen ≤ lo ∧ lo - e.firstSeen < ttl := by
  obtain ⟨gone, h1, h2, h3, h4, h5⟩ := evictLoop_spec f.ttl rd f.q 0 f.m
  have hq : (evict f rd).2.q = (evictLoop f.ttl rd 0 f.q f.m).2.1 := rfl
  have hm : (evict f rd).2.m = (evictLoop f.ttl rd 0 f.q f.m).2.2 := rfl
  rw [← hq] at h1 h5
  rw [← hm] at h3 h4
  have hh : lo ≤ hi := Int.le_trans (hrd 0).1 (hrd 0).2
  have sub : ∀ e ∈ (evict f rd).2.q, e ∈ f.q := fun e he => by rw [h1]; exact List.mem_append_right _ he
  have hs : (gone ++ (evict f rd).2.q).Pairwise (fun a b => a.firstSeen ≤ b.firstSeen) := h1 ▸ I.sorted
  have hn : ((gone ++ (evict f rd).2.q).map (·.h)).Nodup := h1 ▸ I.nodup
  rw [List.map_append] at hn
  refine ⟨⟨I.httl, (List.pairwise_append.1 hs).2.1, (List.nodup_append.1 hn).2.1, h4 I.mnodup, ?_, ?_, ?_, ?_, ?_⟩, ?_⟩
  · intro h
    rw [h3]
    have hd := I.dom h
    rw [h1, List.map_append, List.mem_append] at hd
    by_cases hg : h ∈ gone.map (·.h)
    · rw [if_pos hg]
      refine ⟨fun hc => absurd hc (by simp), fun hc => ?_⟩
      exact absurd rfl ((List.nodup_append.1 hn).2.2 h hg h hc)
    · rw [if_neg hg, hd]
      exact ⟨fun hc => hc.resolve_left hg, Or.inr⟩
  · intro e he; exact Int.le_trans (I.past e (sub e he)) (Int.le_trans hlo hh)
  · intro e he; exact I.source e (sub e he)
  · intro h x hx hxe
    rcases I.live h x hx hxe with ⟨e, he, hh', hl⟩ | ho
    · rw [h1, List.mem_append] at he
      rcases he with hg | hq'
      · obtain ⟨i, hi'⟩ := h2 e hg
        rw [I.httl] at hi'
        have := hrd i
        exact Or.inr (by omega)
      · exact Or.inl ⟨e, hq', hh', hl⟩
    · exact Or.inr (by omega)
  · intro h n hg
    rw [h3] at hg
    split at hg
    · cases hg
    · exact I.cnt h n hg
  · intro e he
    refine ⟨Int.le_trans (I.past e (sub e he)) hlo, ?_⟩
    cases hc : (evict f rd).2.q with
    | nil => rw [hc] at he; cases he
    | cons e0 q =>
      obtain ⟨i, hi'⟩ := h5 e0 (by rw [hc]; rfl)
      rw [I.httl] at hi'
      have hle : e0.firstSeen ≤ e.firstSeen := by
        rw [hc] at he
        rcases List.mem_cons.1 he with rfl | he
        · exact Int.le_refl _
        · have := (List.pairwise_append.1 hs).2.1
          rw [hc] at this
          exact (List.pairwise_cons.1 this).1 e he
      have := hrd i
      omega

theorem inv_snoc_noadd {ttl : Int} {xs : List (Call × Res)} {now : Int} {f : Filter} (I : Inv ttl xs now f)
    (c : Call) (r : Res) (hc : ∀ h, c.op ≠ .testAndAdd h) : Inv ttl (xs ++ [(c, r)]) now f := by
  refine ⟨I.httl, I.sorted, I.nodup, I.mnodup, I.dom, I.past, ?_, ?_, ?_⟩
  · intro e he
    obtain ⟨x, hx, h⟩ := I.source e he
    exact ⟨x, List.mem_append_left _ hx, h⟩
  · intro h x hx hxe
    rcases List.mem_append.1 hx with hx | hx
    · exact I.live h x hx hxe
    · rw [List.mem_singleton.1 hx] at hxe
      exact absurd hxe.1 (hc h)
  · intro h n hn
    rw [sinceEmission_snoc, if_neg (hc h)]
    exact I.cnt h n hn

theorem step_inv {ttl : Int} {xs : List (Call × Res)} {now : Int} {f : Filter} (I : Inv ttl xs now f)
    (c : Call) (hlo : now ≤ c.lo) (hrd : ∀ i, c.lo ≤ c.rd i ∧ c.rd i ≤ c.hi) :
    Inv ttl (xs ++ [(c, (step f c).1)]) c.hi (step f c).2 := by
  obtain ⟨J, hy⟩ := evict_inv I c.lo c.hi c.rd hlo hrd
  cases hop : c.op with
  | test h =>
    have e2 : (step f c).2 = (evict f c.rd).2 := by simp [step, hop, test]
    rw [e2]; exact inv_snoc_noadd J c _ (by simp [hop])
  | count h =>
    have e2 : (step f c).2 = (evict f c.rd).2 := by simp [step, hop, count]
    rw [e2]; exact inv_snoc_noadd J c _ (by simp [hop])
  | testAndAdd h =>
    have e1 : (step f c).1 = .bool ((evict f c.rd).2.m.get h).isSome := by simp [step, hop, testAndAdd]
    have e2 : (step f c).2 = add (evict f c.rd).2 h (c.rd (evict f c.rd).1) := by simp [step, hop, testAndAdd]
    rw [e1, e2]
    have hst := hrd (evict f c.rd).1
    generalize (evict f c.rd).1 = k at *
    generalize hg : (evict f c.rd).2 = g at *
    unfold add
    cases hv : g.m.get h with
    | some v =>
      refine ⟨J.httl, J.sorted, J.nodup, AMap.nodup_set _ _ _ J.mnodup, ?_, J.past, ?_, ?_, ?_⟩
      · intro h'
        rw [AMap.get_set, ← J.dom]
        by_cases hh : h = h'
        · rw [if_pos hh, ← hh, hv]; simp
        · rw [if_neg hh]
      · intro e he
        obtain ⟨x, hx, hh⟩ := J.source e he
        exact ⟨x, List.mem_append_left _ hx, hh⟩
      · intro h' x hx hxe
        rcases List.mem_append.1 hx with hx | hx
        · exact J.live h' x hx hxe
        · rw [List.mem_singleton.1 hx] at hxe
          exact absurd hxe.2 (by simp)
      · intro h' n hn
        rw [AMap.get_set] at hn
        rw [sinceEmission_snoc, hop]
        by_cases hh : h = h'
        · subst hh
          rw [if_pos rfl] at hn ⊢
          rw [if_neg (by simp)]
          have := J.cnt h v hv
          simp only [Option.some.injEq] at hn
          omega
        · rw [if_neg hh] at hn
          rw [if_neg (by simpa using hh)]
          exact J.cnt h' n hn
    | none =>
      have hnot : h ∉ g.q.map (·.h) := by
        rw [← J.dom, hv]; simp
      refine ⟨J.httl, ?_, ?_, AMap.nodup_set _ _ _ J.mnodup, ?_, ?_, ?_, ?_, ?_⟩
      · show (g.q ++ [_]).Pairwise _
        rw [List.pairwise_append]
        refine ⟨J.sorted, List.pairwise_singleton _ _, ?_⟩
        intro a ha b hb
        rw [List.mem_singleton.1 hb]
        exact Int.le_trans (hy a ha).1 hst.1
      · show ((g.q ++ [(⟨h, c.rd k⟩ : Entry)]).map (·.h)).Nodup
        rw [List.map_append, List.nodup_append]
        refine ⟨J.nodup, by simp, ?_⟩
        intro a ha b hb
        simp at hb
        intro he
        exact hnot (by rw [← hb, ← he]; exact ha)
      · intro h'
        show (AMap.get (g.m.set h 1) h').isSome = true ↔ h' ∈ (g.q ++ [(⟨h, c.rd k⟩ : Entry)]).map (·.h)
        rw [AMap.get_set, List.map_append, List.mem_append, ← J.dom]
        by_cases hh : h = h'
        · rw [if_pos hh]; simp [hh]
        · rw [if_neg hh]
          have : ¬ h' = h := fun e => hh e.symm
          simp [this]
      · intro e he
        rcases List.mem_append.1 he with he | he
        · exact J.past e he
        · rw [List.mem_singleton.1 he]; exact hst.2
      · intro e he
        rcases List.mem_append.1 he with he | he
        · obtain ⟨x, hx, hh⟩ := J.source e he
          exact ⟨x, List.mem_append_left _ hx, hh⟩
        · rw [List.mem_singleton.1 he]
          exact ⟨_, List.mem_append_right _ (.head _), ⟨hop, by simp⟩, hst⟩
      · intro h' x hx hxe
        rcases List.mem_append.1 hx with hx | hx
        · rcases J.live h' x hx hxe with ⟨e, he, hh⟩ | ho
          · exact Or.inl ⟨e, List.mem_append_left _ he, hh⟩
          · exact Or.inr ho
        · rw [List.mem_singleton.1 hx] at hxe ⊢
          have : h = h' := by
            have := hxe.1; simp [hop] at this; exact this
          exact Or.inl ⟨⟨h, c.rd k⟩, List.mem_append_right _ (.head _), this, hst.1⟩
      · intro h' n hn
        have hn' : AMap.get (g.m.set h 1) h' = some n := hn
        rw [AMap.get_set] at hn'
        rw [sinceEmission_snoc, hop]
        by_cases hh : h = h'
        · subst hh
          rw [if_pos rfl] at hn' ⊢
          rw [if_pos (by simp)]
          simp only [Option.some.injEq] at hn'
          omega
        · rw [if_neg hh] at hn'
          rw [if_neg (by simpa using hh)]
          exact J.cnt h' n hn'

theorem inv_init (ttl t0 : Int) : Inv ttl [] t0 (newFilter ttl) := by
  refine ⟨rfl, List.Pairwise.nil, List.nodup_nil, List.nodup_nil, ?_, ?_, ?_, ?_, ?_⟩ <;> simp [newFilter]

/-- The time at which a history ends. -/
def endTime : Int → List Call → Int
  | t0, [] => t0
  | _, c :: cs => endTime c.hi cs

theorem after_inv_gen {ttl : Int} (cs : List Call) : ∀ (xs : List (Call × Res)) (now : Int) (f : Filter),
    Inv ttl xs now f → Ordered now cs → Inv ttl (xs ++ trace f cs) (endTime now cs) (after f cs) := by
  induction cs with
  | nil => intro xs now f I _; simpa [trace, after, endTime] using I
  | cons c cs ih =>
    intro xs now f I ho
    have := ih _ _ _ (step_inv I c ho.1 ho.2.1) ho.2.2
    rw [List.append_assoc] at this
    exact this

theorem ordered_split (t0 : Int) (cs : List Call) (c : Call) (h : Ordered t0 (cs ++ [c])) :
    Ordered t0 cs ∧ endTime t0 cs ≤ c.lo ∧ ∀ i, c.lo ≤ c.rd i ∧ c.rd i ≤ c.hi := by
  induction cs generalizing t0 with
  | nil => exact ⟨trivial, h.1, h.2.1⟩
  | cons d cs ih =>
    obtain ⟨h1, h2, h3⟩ := h
    obtain ⟨a, b, e⟩ := ih d.hi h3
    exact ⟨⟨h1, h2, a⟩, b, e⟩

/-- State of affairs at a call after a history. -/
theorem at_call (ttl t0 : Int) (cs : List Call) (c : Call) (ho : Ordered t0 (cs ++ [c])) :
    Inv ttl (trace (newFilter ttl) cs) c.hi (evict (after (newFilter ttl) cs) c.rd).2
    ∧ ∀ e ∈ (evict (after (newFilter ttl) cs) c.rd).2.q, e.firstSeen ≤ c.lo ∧ c.lo - e.firstSeen < ttl := by
  obtain ⟨h1, h2, h3⟩ := ordered_split t0 cs c ho
  have I := after_inv_gen cs [] t0 _ (inv_init ttl t0) h1
  rw [List.nil_append] at I
  exact evict_inv I c.lo c.hi c.rd h2 h3

theorem get_isSome_emission {ttl : Int} {xs : List (Call × Res)} {lo hi : Int} {g : Filter} (I : Inv ttl xs hi g)
    (hy : ∀ e ∈ g.q, e.firstSeen ≤ lo ∧ lo - e.firstSeen < ttl) (h : UInt64) :
    ((g.m.get h).isSome = true → ∃ x ∈ xs, IsEmission h x ∧ lo - x.1.hi < ttl)
    ∧ ((g.m.get h).isSome = false → ∀ x ∈ xs, IsEmission h x → ttl ≤ hi - x.1.lo) := by
  refine ⟨fun hs => ?_, fun hs x hx hxe => ?_⟩
  · obtain ⟨e, he, hh⟩ := List.mem_map.1 ((I.dom h).1 hs)
    obtain ⟨x, hx, hxe, h1, h2⟩ := I.source e he
    have := (hy e he).2
    have hhe : e.h = h := hh
    rw [hhe] at hxe
    exact ⟨x, hx, hxe, by omega⟩
  · rcases I.live h x hx hxe with ⟨e, he, hh, _⟩ | ho
    · have : (g.m.get h).isSome = true := (I.dom h).2 (List.mem_map.2 ⟨e, he, hh⟩)
      rw [hs] at this; cases this
    · exact ho

/-! ## C33: the suppression window -/

/-- C33. After any history of calls, on any clock: a record is suppressed only if a record with the same
key was let through less than the configured age before, and let through only if every record with the
same key let through earlier was let through at least the configured age before. (Each call takes some
time; "before" is measured between the start of one and the end of the other.) -/
theorem suppression_window (ttl t0 : Int) (cs : List Call) (c : Call) (h : UInt64) (hc : c.op = .testAndAdd h)
    (ho : Ordered t0 (cs ++ [c])) :
    ((step (after (newFilter ttl) cs) c).1 = .bool true →
      ∃ x ∈ trace (newFilter ttl) cs, IsEmission h x ∧ c.lo - x.1.hi < ttl)
    ∧ ((step (after (newFilter ttl) cs) c).1 = .bool false →
      ∀ x ∈ trace (newFilter ttl) cs, IsEmission h x → ttl ≤ c.hi - x.1.lo) := by
  obtain ⟨J, hy⟩ := at_call ttl t0 cs c ho
  have := get_isSome_emission J hy h
  simp only [step, hc, testAndAdd, Res.bool.injEq]
  exact this

/-- A call that happens at one instant. -/
def Call.instant (op : Op) (t : Int) : Call := ⟨op, t, t, fun _ => t⟩

/-- C33, when each record is handled at one instant: a record is suppressed exactly when a record with
the same key was let through less than the configured age ago. -/
theorem suppressed_iff (ttl t0 : Int) (cs : List Call) (h : UInt64) (t : Int)
    (hins : ∀ c ∈ cs, c.lo = c.hi) (ho : Ordered t0 (cs ++ [.instant (.testAndAdd h) t])) :
    (step (after (newFilter ttl) cs) (.instant (.testAndAdd h) t)).1 = .bool true ↔
      ∃ x ∈ trace (newFilter ttl) cs, IsEmission h x ∧ t - x.1.lo < ttl := by
  have hw := suppression_window ttl t0 cs (.instant (.testAndAdd h) t) h rfl ho
  have hmem : ∀ (f : Filter) (cs : List Call) (x : Call × Res), x ∈ trace f cs → x.1 ∈ cs := by
    intro f cs
    induction cs generalizing f with
    | nil => intro x hx; cases hx
    | cons d ds ih =>
      intro x hx
      rcases List.mem_cons.1 hx with rfl | hx
      · exact .head _
      · exact .tail _ (ih _ _ hx)
  constructor
  · intro hs
    obtain ⟨x, hx, hxe, hl⟩ := hw.1 hs
    refine ⟨x, hx, hxe, ?_⟩
    have := hins x.1 (hmem _ _ _ hx)
    have hlo : (Call.instant (.testAndAdd h) t).lo = t := rfl
    omega
  · rintro ⟨x, hx, hxe, hl⟩
    cases hs : (step (after (newFilter ttl) cs) (.instant (.testAndAdd h) t)).1 with
    | num n => simp [step, Call.instant] at hs
    | bool b =>
      cases b with
      | true => rfl
      | false =>
        have := hw.2 hs x hx hxe
        have hhi : (Call.instant (.testAndAdd h) t).hi = t := rfl
        omega

/-- The first record with a key is always let through. -/
theorem first_occurrence_emitted (ttl t0 : Int) (cs : List Call) (c : Call) (h : UInt64) (hc : c.op = .testAndAdd h)
    (ho : Ordered t0 (cs ++ [c])) (hfirst : ∀ d ∈ cs, d.op ≠ .testAndAdd h) :
    (step (after (newFilter ttl) cs) c).1 = .bool false := by
  have hw := suppression_window ttl t0 cs c h hc ho
  have hmem : ∀ (f : Filter) (cs : List Call) (x : Call × Res), x ∈ trace f cs → x.1 ∈ cs := by
    intro f cs
    induction cs generalizing f with
    | nil => intro x hx; cases hx
    | cons d ds ih =>
      intro x hx
      rcases List.mem_cons.1 hx with rfl | hx
      · exact .head _
      · exact .tail _ (ih _ _ hx)
  cases hs : (step (after (newFilter ttl) cs) c).1 with
  | num n => simp [step, hc] at hs
  | bool b =>
    cases b with
    | false => rfl
    | true =>
      obtain ⟨x, hx, hxe, _⟩ := hw.1 hs
      exact absurd hxe.1 (hfirst x.1 (hmem _ _ _ hx))

/-- The first record with a key after every earlier one has expired is always let through. -/
theorem emitted_after_expiry (ttl t0 : Int) (cs : List Call) (c : Call) (h : UInt64) (hc : c.op = .testAndAdd h)
    (ho : Ordered t0 (cs ++ [c]))
    (hexp : ∀ x ∈ trace (newFilter ttl) cs, IsEmission h x → ttl ≤ c.lo - x.1.hi) :
    (step (after (newFilter ttl) cs) c).1 = .bool false := by
  have hw := suppression_window ttl t0 cs c h hc ho
  cases hs : (step (after (newFilter ttl) cs) c).1 with
  | num n => simp [step, hc] at hs
  | bool b =>
    cases b with
    | false => rfl
    | true =>
      obtain ⟨x, hx, hxe, hl⟩ := hw.1 hs
      have := hexp x hx hxe
      omega

/-! ## C34: what is stored, and the counter -/

/-- C34. After any history ending with a call, the filter stores at most one entry per key; every stored
key was let through, less than the age before the last call began unless it was let through by it; and
every key let through less than the age before the last call ended is stored. -/
theorem stored_keys (ttl t0 : Int) (cs : List Call) (c : Call) (ho : Ordered t0 (cs ++ [c])) :
    (after (newFilter ttl) (cs ++ [c])).m.keys.Nodup
    ∧ (after (newFilter ttl) (cs ++ [c])).q.length = (after (newFilter ttl) (cs ++ [c])).m.length
    ∧ (∀ h ∈ (after (newFilter ttl) (cs ++ [c])).m.keys,
        ∃ x ∈ trace (newFilter ttl) (cs ++ [c]), IsEmission h x ∧ (c.lo - x.1.hi < ttl ∨ x.1 = c))
    ∧ (∀ h, ∀ x ∈ trace (newFilter ttl) (cs ++ [c]), IsEmission h x → c.hi - x.1.lo < ttl →
        h ∈ (after (newFilter ttl) (cs ++ [c])).m.keys) := by
  have I := after_inv_gen (cs ++ [c]) [] t0 _ (inv_init ttl t0) ho
  rw [List.nil_append] at I
  have hend : ∀ t, endTime t (cs ++ [c]) = c.hi := by
    intro t; clear ho I
    induction cs generalizing t with
    | nil => rfl
    | cons d ds ih => exact ih d.hi
  rw [hend] at I
  have hafter : ∀ f, after f (cs ++ [c]) = (step (after f cs) c).2 := by
    intro f; clear ho I hend
    induction cs generalizing f with
    | nil => rfl
    | cons d ds ih => exact ih _
  have htrace : ∀ f, trace f (cs ++ [c]) = trace f cs ++ [(c, (step (after f cs) c).1)] := by
    intro f; clear ho I hend hafter
    induction cs generalizing f with
    | nil => rfl
    | cons d ds ih => simp only [List.cons_append, trace, after]; rw [ih]
  refine ⟨I.mnodup, ?_, ?_, ?_⟩
  · have hperm : (after (newFilter ttl) (cs ++ [c])).m.keys.Perm ((after (newFilter ttl) (cs ++ [c])).q.map (·.h)) := by
      rw [List.perm_ext_iff_of_nodup I.mnodup I.nodup]
      intro a
      rw [← AMap.get_isSome_iff, I.dom]
    have := hperm.length_eq
    simpa [AMap.keys] using this.symm
  · intro h hh
    rw [← AMap.get_isSome_iff] at hh
    obtain ⟨J, hy⟩ := at_call ttl t0 cs c ho
    have hcases : ((evict (after (newFilter ttl) cs) c.rd).2.m.get h).isSome = true ∨
        (c.op = .testAndAdd h ∧ ((evict (after (newFilter ttl) cs) c.rd).2.m.get h).isSome = false) := by
      rw [hafter] at hh
      cases hb : ((evict (after (newFilter ttl) cs) c.rd).2.m.get h).isSome with
      | true => exact Or.inl rfl
      | false =>
        right
        refine ⟨?_, rfl⟩
        cases hop : c.op with
        | test k => simp [step, hop, test, hb] at hh
        | count k => simp [step, hop, count, hb] at hh
        | testAndAdd k =>
          simp only [step, hop, testAndAdd, add] at hh
          by_cases hk : k = h
          · rw [hk]
          · cases hv : (evict (after (newFilter ttl) cs) c.rd).2.m.get k with
            | none =>
              rw [hv] at hh
              have hh' : (AMap.get ((evict (after (newFilter ttl) cs) c.rd).2.m.set k 1) h).isSome = true := hh
              rw [AMap.get_set, if_neg hk, hb] at hh'; cases hh'
            | some v =>
              rw [hv] at hh
              have hh' : (AMap.get ((evict (after (newFilter ttl) cs) c.rd).2.m.set k (v + 1)) h).isSome = true := hh
              rw [AMap.get_set, if_neg hk, hb] at hh'; cases hh'
    rw [htrace]
    rcases hcases with hs | ⟨hop, hs⟩
    · obtain ⟨x, hx, hxe, hl⟩ := (get_isSome_emission J hy h).1 hs
      exact ⟨x, List.mem_append_left _ hx, hxe, Or.inl hl⟩
    · refine ⟨_, List.mem_append_right _ (.head _), ⟨hop, ?_⟩, Or.inr rfl⟩
      simp [step, hop, testAndAdd, hs]
  · intro h x hx hxe hl
    rw [← AMap.get_isSome_iff]
    rcases I.live h x hx hxe with ⟨e, he, hh, _⟩ | ho'
    · exact (I.dom h).2 (List.mem_map.2 ⟨e, he, hh⟩)
    · omega

/-- C34, the counter: `Count` returns 0 only if every record with the key let through earlier has expired;
otherwise it returns the number of records with that key since (and including) the last one let through. -/
theorem count_spec (ttl t0 : Int) (cs : List Call) (c : Call) (h : UInt64) (hc : c.op = .count h)
    (ho : Ordered t0 (cs ++ [c])) :
    ∃ n, (step (after (newFilter ttl) cs) c).1 = .num n
      ∧ ((n = sinceEmission h (trace (newFilter ttl) cs) 0
            ∧ ∃ x ∈ trace (newFilter ttl) cs, IsEmission h x ∧ c.lo - x.1.hi < ttl)
        ∨ (n = 0 ∧ ∀ x ∈ trace (newFilter ttl) cs, IsEmission h x → ttl ≤ c.hi - x.1.lo)) := by
  obtain ⟨J, hy⟩ := at_call ttl t0 cs c ho
  have he := get_isSome_emission J hy h
  refine ⟨((evict (after (newFilter ttl) cs) c.rd).2.m.get h).getD 0, by simp [step, hc, count], ?_⟩
  cases hv : (evict (after (newFilter ttl) cs) c.rd).2.m.get h with
  | none => exact Or.inr ⟨rfl, he.2 (by rw [hv]; rfl)⟩
  | some v => exact Or.inl ⟨J.cnt h v hv, he.1 (by rw [hv]; rfl)⟩

/-- A test call answers exactly what `testAndAdd` would answer at the same readings. -/
theorem test_agrees (ttl : Int) (cs : List Call) (c : Call) (h : UInt64) (hc : c.op = .test h) :
    (step (after (newFilter ttl) cs) c).1 = (step (after (newFilter ttl) cs) { c with op := .testAndAdd h }).1 := by
  simp [step, hc, test, testAndAdd]

/-! ## C35: the semantic key -/

/-- The attributes that make up the key. -/
structure SameIdentity (r s : FlatRec) : Prop where
  type : r.getInt .SF_REC_TYPE .sysflow = s.getInt .SF_REC_TYPE .sysflow
  exe : r.getStr .PROC_EXE_STR .sysflow = s.getStr .PROC_EXE_STR .sysflow
  args : r.getStr .PROC_EXEARGS_STR .sysflow = s.getStr .PROC_EXEARGS_STR .sysflow
  uid : r.getInt .PROC_UID_INT .sysflow = s.getInt .PROC_UID_INT .sysflow
  gid : r.getInt .PROC_GID_INT .sysflow = s.getInt .PROC_GID_INT .sysflow
  tty : r.getInt .PROC_TTY_INT .sysflow = s.getInt .PROC_TTY_INT .sysflow
  opflags : r.getInt .OPFLAGS_INT .sysflow = s.getInt .OPFLAGS_INT .sysflow
  sip : r.getInt .FL_NETW_SIP_INT .sysflow = s.getInt .FL_NETW_SIP_INT .sysflow
  dip : r.getInt .FL_NETW_DIP_INT .sysflow = s.getInt .FL_NETW_DIP_INT .sysflow
  dport : r.getInt .FL_NETW_DPORT_INT .sysflow = s.getInt .FL_NETW_DPORT_INT .sysflow
  proto : r.getInt .FL_NETW_PROTO_INT .sysflow = s.getInt .FL_NETW_PROTO_INT .sysflow
  path : r.getStr .FILE_PATH_STR .sysflow = s.getStr .FILE_PATH_STR .sysflow

/-- C35. Records with the same type, process (executable, arguments, user, group, terminal), operation and
object (addresses, destination port and protocol; file path) have the same key, whatever the hash function and
whatever their other attributes (timestamps, byte counts, thread, descriptors, process tree, ...). -/
theorem key_of_identity (xxh : List UInt8 → UInt64) (r s : FlatRec) (h : SameIdentity r s) :
    semanticHash xxh r = semanticHash xxh s := by
  unfold semanticHash hashInput
  rw [h.type, h.exe, h.args, h.uid, h.gid, h.tty, h.opflags, h.sip, h.dip, h.dport, h.proto, h.path]

/-- Overwriting an integer attribute of the (first) SysFlow section. -/
def setInt (fr : FlatRec) (a : IAttr) (v : Int) : FlatRec :=
  { fr with sections := fr.sections.map (fun p => if p.1 = .sysflow then (p.1, { p.2 with ints := fun b => if b = a then v else p.2.ints b }) else p) }

theorem getInt_setInt (fr : FlatRec) (a b : IAttr) (v : Int) (hb : b ≠ a) :
    (setInt fr a v).getInt b .sysflow = fr.getInt b .sysflow := by
  obtain ⟨secs, pt, g⟩ := fr
  unfold FlatRec.getInt setInt
  simp only
  have : ∀ l : List (Source × Sect), (match findSect .sysflow (l.map (fun p => if p.1 = .sysflow then
        (p.1, { p.2 with ints := fun b => if b = a then v else p.2.ints b }) else p)) with
      | some s => s.ints b | none => 0) = match findSect .sysflow l with | some s => s.ints b | none => 0 := by
    intro l
    induction l with
    | nil => rfl
    | cons p l ih =>
      obtain ⟨src, sc⟩ := p
      by_cases h : src = .sysflow
      · simp [h, findSect, hb]
      · simp only [List.map_cons, h, if_false, findSect]
        exact ih
  exact this secs

theorem getStr_setInt (fr : FlatRec) (a : IAttr) (b : SAttr) (v : Int) :
    (setInt fr a v).getStr b .sysflow = fr.getStr b .sysflow := by
  obtain ⟨secs, pt, g⟩ := fr
  unfold FlatRec.getStr setInt
  simp only
  have : ∀ l : List (Source × Sect), (match findSect .sysflow (l.map (fun p => if p.1 = .sysflow then
        (p.1, { p.2 with ints := fun b => if b = a then v else p.2.ints b }) else p)) with
      | some s => s.strs b | none => []) = match findSect .sysflow l with | some s => s.strs b | none => [] := by
    intro l
    induction l with
    | nil => rfl
    | cons p l ih =>
      obtain ⟨src, sc⟩ := p
      by_cases h : src = .sysflow
      · simp [h, findSect]
      · simp only [List.map_cons, h, if_false, findSect]
        exact ih
  exact this secs

/-- The attributes of a record that vary between repetitions of the same activity: times, counters, threads,
descriptors, process ids, return codes. -/
def isVolatile : IAttr → Bool
  | .TS_INT | .FL_FILE_ENDTS_INT | .FL_NETW_ENDTS_INT | .PROC_TS_INT | .FILE_TS_INT | .POD_TS_INT | .SEC_FILE_TS_INT => true
  | .FL_FILE_NUMRRECVBYTES_INT | .FL_NETW_NUMRRECVBYTES_INT | .FL_FILE_NUMRRECVOPS_INT | .FL_NETW_NUMRRECVOPS_INT => true
  | .FL_FILE_NUMWSENDBYTES_INT | .FL_NETW_NUMWSENDBYTES_INT | .FL_FILE_NUMWSENDOPS_INT | .FL_NETW_NUMWSENDOPS_INT => true
  | .TID_INT | .PROC_OID_HPID_INT | .PROC_OID_CREATETS_INT | .PROC_POID_HPID_INT | .PROC_POID_CREATETS_INT => true
  | .FL_FILE_FD_INT | .FL_NETW_FD_INT | .RET_INT | .FL_NETW_SPORT_INT | .PROC_STATE_INT | .FILE_STATE_INT => true
  | _ => false

/-- C35: changing a timestamp, a byte or operation count, a thread or process id, a descriptor, a source port or
a return code never changes the key. -/
theorem key_ignores_volatile (xxh : List UInt8 → UInt64) (r : FlatRec) (a : IAttr) (v : Int) (ha : isVolatile a = true) :
    semanticHash xxh (setInt r a v) = semanticHash xxh r := by
  apply key_of_identity
  constructor <;> first
    | exact getStr_setInt r a _ v
    | exact getInt_setInt r a _ v (by intro h; rw [← h] at ha; exact absurd ha (by decide))

/-! Conversely: what equal keys say, for a hash function without collisions on the two records. -/

/-- Signed 64-bit integers. -/
def IsI64 (n : Int) : Prop := -2 ^ 63 ≤ n ∧ n < 2 ^ 63

theorem le64Go_length (k n : Nat) : (le64Go k n).length = k := by
  induction k generalizing n with
  | zero => rfl
  | succ k ih => simp [le64Go, ih]

theorem le64_length (n : Int) : (le64 n).length = 8 := le64Go_length _ _

theorem le64Go_inj (k n m : Nat) (hn : n < 256 ^ k) (hm : m < 256 ^ k) (h : le64Go k n = le64Go k m) : n = m := by
  induction k generalizing n m with
  | zero => simp at hn hm; omega
  | succ k ih =>
    simp only [le64Go, List.cons.injEq] at h
    have h1 : n % 256 = m % 256 := by
      have := congrArg UInt8.toNat h.1
      simpa using this
    have h2 := ih (n / 256) (m / 256) (by rw [Nat.pow_succ] at hn; omega) (by rw [Nat.pow_succ] at hm; omega) h.2
    omega

theorem le64_inj (a b : Int) (ha : IsI64 a) (hb : IsI64 b) (h : le64 a = le64 b) : a = b := by
  unfold le64 at h
  unfold IsI64 at ha hb
  have := le64Go_inj 8 _ _ (by omega) (by omega) h
  omega

theorem append_inj_right' {α : Type _} {a b c d : List α} (h : a ++ b = c ++ d) (hl : b.length = d.length) : a = c ∧ b = d :=
  List.append_inj' h hl

/-- All integer attributes used by the key are 64-bit. -/
def Ints64 (r : FlatRec) : Prop := ∀ a, IsI64 (r.getInt a .sysflow)

/-- Two process events, or two network flows, with the same key (and no hash collision) have the same user,
group, operation, terminal, and — for network flows — addresses, destination port and protocol, and the same
executable-followed-by-arguments. What is missing for a full converse: the boundary between executable and
arguments is not recoverable (see `key_confuses_exe_args`), and neither are the container or the record type. -/
theorem identity_of_key_partial (xxh : List UInt8 → UInt64) (r s : FlatRec) (hr : Ints64 r) (hs : Ints64 s)
    (htype : r.getInt .SF_REC_TYPE .sysflow = s.getInt .SF_REC_TYPE .sysflow)
    (hnofile : r.getInt .SF_REC_TYPE .sysflow ≠ FILE_FLOW ∧ r.getInt .SF_REC_TYPE .sysflow ≠ FILE_EVT)
    (hinj : xxh (hashInput r) = xxh (hashInput s) → hashInput r = hashInput s)
    (h : semanticHash xxh r = semanticHash xxh s) :
    r.getStr .PROC_EXE_STR .sysflow ++ r.getStr .PROC_EXEARGS_STR .sysflow
        = s.getStr .PROC_EXE_STR .sysflow ++ s.getStr .PROC_EXEARGS_STR .sysflow
    ∧ r.getInt .PROC_UID_INT .sysflow = s.getInt .PROC_UID_INT .sysflow
    ∧ r.getInt .PROC_GID_INT .sysflow = s.getInt .PROC_GID_INT .sysflow
    ∧ r.getInt .OPFLAGS_INT .sysflow = s.getInt .OPFLAGS_INT .sysflow
    ∧ r.getInt .PROC_TTY_INT .sysflow = s.getInt .PROC_TTY_INT .sysflow
    ∧ (r.getInt .SF_REC_TYPE .sysflow = NET_FLOW →
        r.getInt .FL_NETW_SIP_INT .sysflow = s.getInt .FL_NETW_SIP_INT .sysflow
        ∧ r.getInt .FL_NETW_DIP_INT .sysflow = s.getInt .FL_NETW_DIP_INT .sysflow
        ∧ r.getInt .FL_NETW_DPORT_INT .sysflow = s.getInt .FL_NETW_DPORT_INT .sysflow
        ∧ r.getInt .FL_NETW_PROTO_INT .sysflow = s.getInt .FL_NETW_PROTO_INT .sysflow) := by
  have e := hinj h
  unfold hashInput at e
  rw [← htype] at e
  rw [if_neg (not_or.2 hnofile), if_neg (not_or.2 hnofile), List.append_nil, List.append_nil] at e
  have base : ∀ {x y : List UInt8},
      Utf8.bytes (r.getStr .PROC_EXE_STR .sysflow) ++ Utf8.bytes (r.getStr .PROC_EXEARGS_STR .sysflow)
        ++ le64 (r.getInt .PROC_UID_INT .sysflow) ++ le64 (r.getInt .PROC_GID_INT .sysflow)
        ++ le64 (r.getInt .OPFLAGS_INT .sysflow) ++ le64 (r.getInt .PROC_TTY_INT .sysflow) ++ x
      = Utf8.bytes (s.getStr .PROC_EXE_STR .sysflow) ++ Utf8.bytes (s.getStr .PROC_EXEARGS_STR .sysflow)
        ++ le64 (s.getInt .PROC_UID_INT .sysflow) ++ le64 (s.getInt .PROC_GID_INT .sysflow)
        ++ le64 (s.getInt .OPFLAGS_INT .sysflow) ++ le64 (s.getInt .PROC_TTY_INT .sysflow) ++ y → x.length = y.length →
      x = y ∧ r.getStr .PROC_EXE_STR .sysflow ++ r.getStr .PROC_EXEARGS_STR .sysflow
          = s.getStr .PROC_EXE_STR .sysflow ++ s.getStr .PROC_EXEARGS_STR .sysflow
      ∧ r.getInt .PROC_UID_INT .sysflow = s.getInt .PROC_UID_INT .sysflow
      ∧ r.getInt .PROC_GID_INT .sysflow = s.getInt .PROC_GID_INT .sysflow
      ∧ r.getInt .OPFLAGS_INT .sysflow = s.getInt .OPFLAGS_INT .sysflow
      ∧ r.getInt .PROC_TTY_INT .sysflow = s.getInt .PROC_TTY_INT .sysflow := by
    intro x y hxy hl
    obtain ⟨e1, ex⟩ := List.append_inj' hxy hl
    obtain ⟨e2, et⟩ := List.append_inj' e1 (by rw [le64_length, le64_length])
    obtain ⟨e3, eo⟩ := List.append_inj' e2 (by rw [le64_length, le64_length])
    obtain ⟨e4, eg⟩ := List.append_inj' e3 (by rw [le64_length, le64_length])
    obtain ⟨e5, eu⟩ := List.append_inj' e4 (by rw [le64_length, le64_length])
    refine ⟨ex, ?_, le64_inj _ _ (hr _) (hs _) eu, le64_inj _ _ (hr _) (hs _) eg, le64_inj _ _ (hr _) (hs _) eo,
      le64_inj _ _ (hr _) (hs _) et⟩
    apply Utf8.bytes_injective
    unfold Utf8.bytes at e5 ⊢
    rw [List.flatMap_append, List.flatMap_append]
    exact e5
  by_cases hn : r.getInt .SF_REC_TYPE .sysflow = NET_FLOW
  · rw [if_pos hn, if_pos hn] at e
    obtain ⟨ex, h1, h2, h3, h4, h5⟩ := base e (by simp [le64_length])
    refine ⟨h1, h2, h3, h4, h5, fun _ => ?_⟩
    obtain ⟨e1, ep⟩ := List.append_inj' ex (by rw [le64_length, le64_length])
    obtain ⟨e2, ed⟩ := List.append_inj' e1 (by rw [le64_length, le64_length])
    obtain ⟨e3, ei⟩ := List.append_inj' e2 (by rw [le64_length, le64_length])
    exact ⟨le64_inj _ _ (hr _) (hs _) e3, le64_inj _ _ (hr _) (hs _) ei, le64_inj _ _ (hr _) (hs _) ed,
      le64_inj _ _ (hr _) (hs _) ep⟩
  · rw [if_neg hn, if_neg hn] at e
    obtain ⟨_, h1, h2, h3, h4, h5⟩ := base e rfl
    exact ⟨h1, h2, h3, h4, h5, fun h => absurd h hn⟩

/-! ### Concrete cases -/

/-- A record with one SysFlow section. -/
def mk (i : IAttr → Int) (s : SAttr → Str) : FlatRec := ⟨[(.sysflow, ⟨i, s, fun _ => .nil⟩)], none, 0⟩

/-- A process event. -/
def demoInts : IAttr → Int
  | .SF_REC_TYPE => PROC_EVT
  | .OPFLAGS_INT => 2
  | .TS_INT => 1700000000000000000
  | .PROC_UID_INT => 1000
  | _ => 0
def demoStrs (exe args cont : String) : SAttr → Str
  | .PROC_EXE_STR => exe.toList
  | .PROC_EXEARGS_STR => args.toList
  | .CONT_ID_STR => cont.toList
  | _ => []

/-- Finding: the executable and its arguments are hashed without a separator, so different processes can share a
key under every hash function. -/
theorem key_confuses_exe_args : ∃ r s : FlatRec,
    r.getStr .PROC_EXE_STR .sysflow ≠ s.getStr .PROC_EXE_STR .sysflow
    ∧ ∀ xxh, semanticHash xxh r = semanticHash xxh s :=
  ⟨mk demoInts (demoStrs "/usr/bin/apt" "-get" ""), mk demoInts (demoStrs "/usr/bin/apt-get" "" ""), by decide,
    fun xxh => congrArg xxh (by decide)⟩

/-- Finding: the container is not part of the key: the same command in another container is suppressed. -/
theorem key_ignores_container : ∃ r s : FlatRec,
    r.getStr .CONT_ID_STR .sysflow ≠ s.getStr .CONT_ID_STR .sysflow
    ∧ ∀ xxh, semanticHash xxh r = semanticHash xxh s :=
  ⟨mk demoInts (demoStrs "/bin/ls" "-l" "c1"), mk demoInts (demoStrs "/bin/ls" "-l" "c2"), by decide,
    fun xxh => congrArg xxh (by decide)⟩

/-- Two records satisfying the hypotheses of `key_of_identity` and differing in their timestamps. -/
example : SameIdentity (mk demoInts (demoStrs "/bin/ls" "-l" "c1"))
    (setInt (mk demoInts (demoStrs "/bin/ls" "-l" "c1")) .TS_INT 17) := by
  constructor <;> decide

example : Ints64 (mk demoInts (demoStrs "/bin/ls" "-l" "c1")) := by
  intro a; cases a <;> (unfold IsI64; decide)

/-- Keys 1, 1, 2, 1, 1 at times 0, 3, 4, 10, 12 with age 10: emitted, suppressed, emitted, emitted again (expired),
suppressed; then the count of key 1 is 2, and that of key 2 is 0 at time 14. -/
def demoHist : List Call :=
  [.instant (.testAndAdd 1) 0, .instant (.testAndAdd 1) 3, .instant (.testAndAdd 2) 4, .instant (.testAndAdd 1) 10,
   .instant (.testAndAdd 1) 12, .instant (.count 1) 13, .instant (.count 2) 14]

example : Ordered 0 demoHist := by
  simp [Ordered, demoHist, Call.instant]

example : (trace (newFilter 10) demoHist).map (·.2) =
    [.bool false, .bool true, .bool false, .bool false, .bool true, .num 2, .num 0] := by decide

/-- Calls that take time: the second starts at 9 and reads the clock at 9 and 11. -/
example : Ordered 0 [⟨.testAndAdd 1, 0, 1, fun _ => 1⟩, ⟨.testAndAdd 1, 9, 11, fun i => if i = 0 then 9 else 11⟩] := by
  refine ⟨by decide, fun i => by simp, by decide, fun i => ?_, trivial⟩
  by_cases h : i = 0 <;> simp [h]

end Verif.Filter
