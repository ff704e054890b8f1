import Verif.Ecs.Props
import Verif.Ecs.Identity
/-
C113 (tags): ECS exporters that are given the same record append to one and the same slice of tags.
Sources: /repo/core/exporter/encoders/ecs.go:143-158, 584-595, /repo/core/policyengine/source/flatrecord/record.go:247-264, /repo/core/policyengine/policyengine.go:205-210 (the same pointer goes to every
output). The slice that `GetTags` returns shares its array with the record's context; `append` writes behind its end whenever there is room, so several exporters write to the same array.
-/
namespace Verif.Shared.Tags
open Verif.Decimal (Str)
open Verif.FlatRecord

/-! ### Model -/

/-- The array a slice refers to: that of the record's context, or one that `append` has made (which nobody else knows). -/
inductive Place where
  | context
  | own
deriving DecidableEq, Repr

/-- What `append(tags, xs...)` is doing (ecs.go:150; Go's append): nothing; writing the elements behind the end of the slice, of which some are written; copying the elements to a new, larger array, of
which some are copied. -/
inductive Act where
  | idle
  | writing (xs : List Str) (written : Nat)
  | growing (xs : List Str) (arr : Nat → Str) (cap : Nat) (copied : Nat)

/-- An exporter at work on the record (ecs.go:143-153): its slice `tags` (array, length, capacity), and the tags of the rules it has yet to append, one `append` for each rule. -/
structure Enc where
  place : Place
  own : Nat → Str
  len : Nat
  cap : Nat
  todo : List (List Str)
  act : Act

/-- The array of the record's tags, and the exporters. -/
structure Mem where
  array : Nat → Str
  encs : Nat → Enc

/-- An element of an exporter's slice. -/
def Enc.read (e : Enc) (array : Nat → Str) (k : Nat) : Str :=
  match e.place with
  | .context => array k
  | .own => e.own k

/-- Assignment to an element of an array. -/
def assign (a : Nat → Str) (k : Nat) (x : Str) : Nat → Str := fun j => if j = k then x else a j

/-- The exporter after its next step, and the shared array. `grow cap n` is the capacity of the array that `append` makes for `n` elements. One element is read or written in a step. `none`: nothing left
to do. -/
def Enc.step (grow : Nat → Nat → Nat) (e : Enc) (array : Nat → Str) : Option (Enc × (Nat → Str)) :=
  match e.act with
  | .idle =>
    match e.todo with
    | [] => none
    | xs :: rest =>
      if e.len + xs.length ≤ e.cap then some ({ e with todo := rest, act := .writing xs 0 }, array)
      else some ({ e with todo := rest, act := .growing xs (fun _ => []) (grow e.cap (e.len + xs.length)) 0 }, array)
  | .writing xs k =>
    match xs[k]? with
    | some x =>
      match e.place with
      | .context => some ({ e with act := .writing xs (k + 1) }, assign array (e.len + k) x)
      | .own => some ({ e with act := .writing xs (k + 1), own := assign e.own (e.len + k) x }, array)
    | none => some ({ e with len := e.len + xs.length, act := .idle }, array)
  | .growing xs arr cap k =>
    if k < e.len then some ({ e with act := .growing xs (assign arr k (e.read array k)) cap (k + 1) }, array)
    else some ({ e with place := .own, own := arr, cap := cap, act := .writing xs 0 }, array)

/-- Executions: in each step some exporter makes its next step. -/
inductive Run (grow : Nat → Nat → Nat) (m : Mem) : Mem → Prop where
  | refl : Run grow m m
  | step {m' : Mem} (i : Nat) (e : Enc) (a : Nat → Str) : Run grow m m' → (m'.encs i).step grow m'.array = some (e, a) → Run grow m { array := a, encs := fun j => if j = i then e else m'.encs j }

/-- Exporters that are given a record (ecs.go:143-144): each has the slice of the context's tags, of capacity `cap`, and the tags of the matched rules to append (`extracTags`, ecs.go:584-595). -/
def begin (rec : Record) (array : Nat → Str) (cap : Nat) : Mem where
  array := array
  encs := fun _ => ⟨.context, fun _ => [], rec.ctx.getTags.length, cap, rec.ctx.getRules.map (fun r => r.tags.flatten), .idle⟩

/-- The tags of an exporter's document (ecs.go:157), as they are read whenever the document is written. -/
def tagsOf (m : Mem) (i : Nat) : List Str := (List.range (m.encs i).len).map ((m.encs i).read m.array)

/-! ### Specification -/

/-- The exporter has made its document. -/
def Finished (m : Mem) (i : Nat) : Prop := (m.encs i).act = .idle ∧ (m.encs i).todo = []

/-- An array that holds a list of texts from its beginning on. -/
def Holds (array : Nat → Str) (ts : List Str) : Prop := ∀ (k : Nat) t, ts[k]? = some t → array k = t

/-! ### Proofs -/

/-- An exporter is on its way to the list `all`: what it has is a beginning of it, and what it does next is the next part. -/
structure Way (all : List Str) (cap0 : Nat) (array : Nat → Str) (e : Enc) : Prop where
  have_ : ∀ k, k < e.len → all[k]? = some (e.read array k)
  cap : e.place = .context → e.cap = cap0
  idle : e.act = .idle → all.drop e.len = e.todo.flatten ∧ e.len ≤ all.length
  writing : ∀ xs k, e.act = .writing xs k → all.drop e.len = xs ++ e.todo.flatten ∧ e.len ≤ all.length ∧ e.len + xs.length ≤ e.cap ∧ k ≤ xs.length ∧ ∀ j, j < k → all[e.len + j]? = some (e.read array (e.len + j))
  growing : ∀ xs arr c k, e.act = .growing xs arr c k → all.drop e.len = xs ++ e.todo.flatten ∧ e.len ≤ all.length ∧ e.len + xs.length ≤ c ∧ k ≤ e.len ∧ ∀ j, j < k → all[j]? = some (arr j)

/-- Arrays that differ only in elements that are right in the second. -/
def Toward (all : List Str) (a b : Nat → Str) : Prop := ∀ k, b k = a k ∨ all[k]? = some (b k)

theorem read_toward {all : List Str} {a b : Nat → Str} (h : Toward all a b) (e : Enc) (k : Nat) (hk : all[k]? = some (e.read a k)) : all[k]? = some (e.read b k) := by
  unfold Enc.read at *
  cases hp : e.place with
  | own => rw [hp] at hk; exact hk
  | context =>
    rw [hp] at hk
    dsimp only at *
    rcases h k with h | h
    · rw [h]; exact hk
    · exact h

theorem Way.toward {all : List Str} {cap0 : Nat} {a b : Nat → Str} {e : Enc} (w : Way all cap0 a e) (h : Toward all a b) : Way all cap0 b e where
  have_ := fun k hk => read_toward h e k (w.have_ k hk)
  cap := w.cap
  idle := w.idle
  writing := fun xs k hk => by
    obtain ⟨h1, h2, h3, h4, h5⟩ := w.writing xs k hk
    exact ⟨h1, h2, h3, h4, fun j hj => read_toward h e _ (h5 j hj)⟩
  growing := w.growing

theorem drop_at {all xs ys : List Str} {n k : Nat} {x : Str} (h : all.drop n = xs ++ ys) (hx : xs[k]? = some x) : all[n + k]? = some x := by
  have : (all.drop n)[k]? = some x := by
    rw [h, List.getElem?_append_left (List.getElem?_eq_some_iff.1 hx).1]; exact hx
  rwa [List.getElem?_drop] at this

/-- A step of an exporter keeps it on its way, and writes to the shared array only what belongs there. -/
theorem step_way {grow : Nat → Nat → Nat} (hg : ∀ c n, n ≤ grow c n) {all : List Str} {cap0 : Nat} {a b : Nat → Str} {e e' : Enc} (w : Way all cap0 a e) (h : e.step grow a = some (e', b)) :
    Way all cap0 b e' ∧ Toward all a b := by
  have same : Toward all a a := fun k => .inl rfl
  unfold Enc.step at h
  cases hact : e.act with
  | idle =>
    rw [hact] at h
    dsimp only at h
    obtain ⟨h1, h2⟩ := w.idle hact
    cases ht : e.todo with
    | nil => rw [ht] at h; cases h
    | cons xs rest =>
      rw [ht] at h
      dsimp only at h
      have hd : all.drop e.len = xs ++ rest.flatten := by rw [h1, ht]; rfl
      by_cases hf : e.len + xs.length ≤ e.cap
      · rw [if_pos hf] at h
        injection h with h; injection h with h3 h4; subst h3; subst h4
        refine ⟨⟨w.have_, w.cap, fun h => (by cases h), ?_, fun _ _ _ _ h => (by cases h)⟩, same⟩
        intro xs' k hk
        cases hk
        exact ⟨hd, h2, hf, by omega, fun j hj => absurd hj (by omega)⟩
      · rw [if_neg hf] at h
        injection h with h; injection h with h3 h4; subst h3; subst h4
        refine ⟨⟨w.have_, w.cap, fun h => (by cases h), fun _ _ h => (by cases h), ?_⟩, same⟩
        intro xs' arr c k hk
        cases hk
        exact ⟨hd, h2, hg _ _, by omega, fun j hj => absurd hj (by omega)⟩
  | writing xs k =>
    rw [hact] at h
    dsimp only at h
    obtain ⟨h1, h2, h3, h4, h5⟩ := w.writing xs k hact
    cases hx : xs[k]? with
    | none =>
      rw [hx] at h
      dsimp only at h
      injection h with h; injection h with h6 h7; subst h6; subst h7
      have hk : k = xs.length := by have := List.getElem?_eq_none_iff.1 hx; omega
      have hlen := congrArg List.length h1
      simp only [List.length_drop, List.length_append] at hlen
      refine ⟨⟨?_, w.cap, fun _ => ⟨?_, ?_⟩, fun _ _ h => (by cases h), fun _ _ _ _ h => (by cases h)⟩, same⟩
      · intro j hj
        change j < e.len + xs.length at hj
        by_cases hjl : j < e.len
        · exact w.have_ j hjl
        · have := h5 (j - e.len) (by omega)
          rw [show e.len + (j - e.len) = j by omega] at this
          exact this
      · change all.drop (e.len + xs.length) = e.todo.flatten
        rw [← List.drop_drop, h1, List.drop_left]
      · change e.len + xs.length ≤ all.length
        omega
    | some x =>
      rw [hx] at h
      dsimp only at h
      have hall := drop_at h1 hx
      have hkl : k < xs.length := (List.getElem?_eq_some_iff.1 hx).1
      cases hp : e.place with
      | context =>
        rw [hp] at h
        dsimp only at h
        injection h with h; injection h with h6 h7; subst h6; subst h7
        have tw : Toward all a (assign a (e.len + k) x) := by
          intro j
          unfold assign
          by_cases hj : j = e.len + k
          · right; rw [if_pos hj, hj]; exact hall
          · left; rw [if_neg hj]
        have hread : ∀ (b : Nat → Str) j, e.read b j = b j := fun b j => by unfold Enc.read; rw [hp]
        refine ⟨⟨?_, fun _ => w.cap hp, fun h => (by cases h), ?_, fun _ _ _ _ h => (by cases h)⟩, tw⟩
        · intro j hj
          have := read_toward tw e j (w.have_ j hj)
          rw [hread] at this
          exact this
        · intro xs' k' hk'
          cases hk'
          refine ⟨h1, h2, h3, hkl, ?_⟩
          intro j hj
          change all[e.len + j]? = some (assign a (e.len + k) x (e.len + j))
          by_cases hjk : j < k
          · have := read_toward tw e _ (h5 j hjk)
            rw [hread] at this
            exact this
          · have hjk : j = k := by omega
            subst hjk
            unfold assign
            rw [if_pos rfl]; exact hall
      | own =>
        rw [hp] at h
        dsimp only at h
        injection h with h; injection h with h6 h7; subst h6; subst h7
        have hread : ∀ j, e.read a j = e.own j := fun j => by unfold Enc.read; rw [hp]
        refine ⟨⟨?_, fun h => (by cases h), fun h => (by cases h), ?_, fun _ _ _ _ h => (by cases h)⟩, same⟩
        · intro j hj
          change all[j]? = some (assign e.own (e.len + k) x j)
          unfold assign
          rw [if_neg (by change j < e.len at hj; omega), ← hread]
          exact w.have_ j hj
        · intro xs' k' hk'
          cases hk'
          refine ⟨h1, h2, h3, hkl, ?_⟩
          intro j hj
          change all[e.len + j]? = some (assign e.own (e.len + k) x (e.len + j))
          unfold assign
          by_cases hjk : j = k
          · subst hjk; rw [if_pos rfl]; exact hall
          · rw [if_neg (by omega), ← hread]; exact h5 j (by omega)
  | growing xs arr c k =>
    rw [hact] at h
    dsimp only at h
    obtain ⟨h1, h2, h3, h4, h5⟩ := w.growing xs arr c k hact
    by_cases hk : k < e.len
    · rw [if_pos hk] at h
      injection h with h; injection h with h6 h7; subst h6; subst h7
      refine ⟨⟨w.have_, w.cap, fun h => (by cases h), fun _ _ h => (by cases h), ?_⟩, same⟩
      intro xs' arr' c' k' hk'
      cases hk'
      refine ⟨h1, h2, h3, hk, ?_⟩
      intro j hj
      unfold assign
      by_cases hjk : j = k
      · subst hjk; rw [if_pos rfl]; exact w.have_ j hk
      · rw [if_neg hjk]; exact h5 j (by omega)
    · rw [if_neg hk] at h
      injection h with h; injection h with h6 h7; subst h6; subst h7
      refine ⟨⟨fun j hj => h5 j (by change j < e.len at hj; omega), fun h => (by cases h), fun h => (by cases h), ?_, fun _ _ _ _ h => (by cases h)⟩, same⟩
      intro xs' k' hk'
      cases hk'
      exact ⟨h1, h2, h3, by omega, fun j hj => absurd hj (by omega)⟩

/-- What all exporters of a record are on their way to. -/
def allTags (rec : Record) : List Str := rec.ctx.getTags ++ rec.ctx.getRules.flatMap (fun r => r.tags.flatten)

theorem run_way {grow : Nat → Nat → Nat} (hg : ∀ c n, n ≤ grow c n) (rec : Record) (array : Nat → Str) (cap : Nat) (ha : Holds array rec.ctx.getTags) {m : Mem}
    (h : Run grow (begin rec array cap) m) : Toward (allTags rec) array m.array ∧ ∀ i, Way (allTags rec) cap m.array (m.encs i) := by
  induction h with
  | refl =>
    refine ⟨fun k => .inl rfl, fun i => ⟨?_, fun _ => rfl, fun _ => ⟨?_, ?_⟩, fun _ _ h => (by cases h), fun _ _ _ _ h => (by cases h)⟩⟩
    · intro k hk
      change k < rec.ctx.getTags.length at hk
      change (allTags rec)[k]? = some (array k)
      unfold allTags
      rw [List.getElem?_append_left hk]
      obtain ⟨t, ht⟩ : ∃ t, rec.ctx.getTags[k]? = some t := ⟨_, List.getElem?_eq_getElem hk⟩
      rw [ht, ha k t ht]
    · change (allTags rec).drop rec.ctx.getTags.length = _
      unfold allTags
      rw [List.drop_left]
      rfl
    · change rec.ctx.getTags.length ≤ _
      unfold allTags
      simp
  | @step m' i e a hr hs ih =>
    obtain ⟨ih1, ih2⟩ := ih
    obtain ⟨h1, h2⟩ := step_way hg (ih2 i) hs
    refine ⟨fun k => ?_, fun j => ?_⟩
    · rcases h2 k with h | h
      · rcases ih1 k with h' | h'
        · left; exact h.trans h'
        · right; change (allTags rec)[k]? = some (a k); rw [h]; exact h'
      · exact .inr h
    · change Way _ _ a (if j = i then e else m'.encs j)
      by_cases hj : j = i
      · rw [if_pos hj]; exact h1
      · rw [if_neg hj]; exact (ih2 j).toward h2

/-- C113: exporters that are given the same record, any number of them and however their steps interleave, each make a document with the tags that C47 demands — those of the record followed by those of
its rules — although they append to one shared slice; and these are still the tags whenever the document is written later, whatever the others have done in the meantime. -/
theorem shared_record_tags (grow : Nat → Nat → Nat) (hg : ∀ c n, n ≤ grow c n) (rec : Record) (array : Nat → Str) (cap : Nat) (ha : Holds array rec.ctx.getTags) (m : Mem)
    (h : Run grow (begin rec array cap) m) (i : Nat) (hf : Finished m i) :
    tagsOf m i = rec.ctx.getTags ++ rec.ctx.getRules.flatMap (fun r => r.tags.flatten) ∧
    ∀ (c : Ecs.Conf) (L : Ecs.ELib) (d : Ecs.Rec), Ecs.encode c L rec = some d → tagsOf m i = d.tags := by
  have w := (run_way hg rec array cap ha h).2 i
  have e : tagsOf m i = allTags rec := by
    obtain ⟨h1, h2⟩ := w.idle hf.1
    rw [hf.2] at h1
    have hl : (m.encs i).len = (allTags rec).length := by
      have := congrArg List.length h1
      simp at this
      omega
    apply List.ext_getElem?
    intro k
    unfold tagsOf
    rw [List.getElem?_map]
    by_cases hk : k < (m.encs i).len
    · rw [List.getElem?_range hk, w.have_ k hk]; rfl
    · rw [List.getElem?_eq_none_iff.2 (by simp; omega), List.getElem?_eq_none_iff.2 (by omega)]; rfl
  exact ⟨e, fun c L d hd => e.trans (Ecs.ecs_alert c L rec d hd).1.symm⟩

/-- C113: the tags of the record itself are never changed by its exporters: whoever reads them (another encoder) finds what the engine has put there. -/
theorem record_tags_kept (grow : Nat → Nat → Nat) (hg : ∀ c n, n ≤ grow c n) (rec : Record) (array : Nat → Str) (cap : Nat) (ha : Holds array rec.ctx.getTags) (m : Mem)
    (h : Run grow (begin rec array cap) m) : Holds m.array rec.ctx.getTags := by
  intro k t ht
  rcases (run_way hg rec array cap ha h).1 k with h1 | h1
  · rw [h1]; exact ha k t ht
  · unfold allTags at h1
    rw [List.getElem?_append_left (List.getElem?_eq_some_iff.1 ht).1, ht] at h1
    injection h1 with h1
    exact h1.symm

/-! ### A case -/

/-- The execution with a given order of steps. -/
def go (grow : Nat → Nat → Nat) : List Nat → Mem → Option Mem
  | [], m => some m
  | i :: is, m =>
    match (m.encs i).step grow m.array with
    | none => none
    | some (e, a) => go grow is { array := a, encs := fun j => if j = i then e else m.encs j }

theorem go_run (grow : Nat → Nat → Nat) (s : Mem) : ∀ (is : List Nat) (m m' : Mem), Run grow s m → go grow is m = some m' → Run grow s m' := by
  intro is
  induction is with
  | nil => intro m m' h hg; cases hg; exact h
  | cons i is ih =>
    intro m m' h hg
    unfold go at hg
    split at hg
    · cases hg
    · rename_i e a he
      exact ih _ m' (.step i e a h he) hg

/-- A record with three tags, in an array of four, and a matched rule with one tag. -/
def tagged : Record :=
  { newRecord (Ecs.demoFr PROC_EVT 2 0 "c1") with
    ctx := ((newRecord (Ecs.demoFr PROC_EVT 2 0 "c1")).ctx.addTags ["a".toList, "b".toList, "c".toList]).addRules [{ name := "r".toList, tags := [["t".toList]] }] }
def tagArray : Nat → Str := fun k => if k = 0 then "a".toList else if k = 1 then "b".toList else if k = 2 then "c".toList else []

-- two exporters, in turns: both write to the fourth element of the shared array, and both end up with the right tags
example : Holds tagArray tagged.ctx.getTags ∧ ∃ m, Run (fun c n => c + n) (begin tagged tagArray 4) m ∧ Finished m 0 ∧ Finished m 1 ∧ m.array 3 = "t".toList ∧
    tagsOf m 0 = ["a".toList, "b".toList, "c".toList, "t".toList] := by
  have hh : Holds tagArray tagged.ctx.getTags := by
    intro k t ht
    rw [show tagged.ctx.getTags = ["a".toList, "b".toList, "c".toList] from rfl] at ht
    match k, ht with
    | 0, ht => cases ht; rfl
    | 1, ht => cases ht; rfl
    | 2, ht => cases ht; rfl
  obtain ⟨m, hm⟩ : ∃ m, go (fun c n => c + n) [0, 1, 0, 1, 0, 1] (begin tagged tagArray 4) = some m := ⟨_, rfl⟩
  have hr := go_run _ _ _ _ _ .refl hm
  cases hm
  exact ⟨hh, _, hr, ⟨rfl, rfl⟩, ⟨rfl, rfl⟩, rfl, rfl⟩

end Verif.Shared.Tags
