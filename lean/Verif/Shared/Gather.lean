import Verif.Otel.Enrich
/-
C124: policy engines that are given one and the same OpenTelemetry record collect its attributes at the same time.
Sources: /repo/core/policyengine/source/otel/operations.go:33-49 (`getAllAttributes`), 51-154 (the conditions read what it returns), /repo/core/policyengine/source/otel/contextualizer.go:34-40, 84-115 (what an
engine that notes a rule does to the lists of attributes), /repo/core/policyengine/policyengine.go:205-210 (the same pointer goes to every output).
`allAttrs := rl.Resource.Attributes` is a slice of the record's own array; `append` writes behind its end whenever that array has room, so every evaluation of a condition writes to memory that all engines
that hold the record use. An element of the lists is a pointer to an attribute, here of any type `α`.
-/
namespace Verif.Shared.Gather
open Verif.Decimal (Str)

/-! ### Model -/

/-- `ScopeLogs` as far as the lists go: whether it is the processor's (a scope named sf-processor), the attributes of its scope (none without a scope), those of its log records. -/
structure PScope (α : Type) where
  proc : Bool
  attrs : List α
  logs : List (List α)

/-- `ResourceLogs`: the attributes of the resource, which is there, and the scopes. -/
structure PRec (α : Type) where
  base : List α
  scopes : List (PScope α)

/-- What the loops of `getAllAttributes` fetch (operations.go:37-47): the attributes of the scope at a position, which are read when the loop gets there, or those of a log record, which nobody changes. -/
inductive Fetch (α : Type) where
  | scope (j : Nat)
  | logs (xs : List α)

/-- The turns of the loops over `scopes`, which are at positions from `j` on. -/
def planFrom {α : Type} : Nat → List (PScope α) → List (Fetch α)
  | _, [] => []
  | j, s :: ss => .scope j :: (s.logs.map .logs ++ planFrom (j + 1) ss)

/-- What a turn appends, with the record as it is now. -/
def PRec.fetch {α : Type} (r : PRec α) : Fetch α → List α
  | .scope j => (r.scopes[j]?.map (·.attrs)).getD []
  | .logs xs => xs

/-- The array a slice refers to: that of the resource's attributes, or one that `append` has made. -/
inductive Place where
  | resource
  | own
deriving DecidableEq, Repr

/-- Where an evaluation is: not begun; between two turns of the loops; in `append(allAttrs, xs...)`, writing the elements of `xs` behind the end of the slice, of which some are written; in `append`, copying
the slice to a new array, of which some is copied; reading the elements of what `getAllAttributes` returned, one after the other (operations.go:55-60, 66-93, 139-149: these loops stop at some element, here
they read all); done. The elements of arrays are pointers, `none` is nil. -/
inductive Act (α : Type) where
  | waiting
  | idle
  | writing (xs : List α) (written : Nat)
  | growing (xs : List α) (arr : Nat → Option α) (cap : Nat) (copied : Nat)
  | scan (k : Nat) (seen : List (Option α))
  | done (seen : List (Option α))

/-- The evaluation of one condition: the slice `allAttrs` (array, length, capacity), the turns left, and where it is. -/
structure Reader (α : Type) where
  place : Place
  own : Nat → Option α
  len : Nat
  cap : Nat
  todo : List (Fetch α)
  act : Act α

/-- The record, the array of the resource's attributes, and the evaluations, one after the other or at the same time. -/
structure Mem (α : Type) where
  record : PRec α
  array : Nat → Option α
  readers : Nat → Reader α

/-- An element of the slice. -/
def Reader.read {α : Type} (e : Reader α) (array : Nat → Option α) (k : Nat) : Option α :=
  match e.place with
  | .resource => array k
  | .own => e.own k

/-- Assignment to an element of an array. -/
def assign {α : Type} (a : Nat → Option α) (k : Nat) (x : Option α) : Nat → Option α := fun j => if j = k then x else a j

/-- The next step of an evaluation, and the array of the resource's attributes after it (operations.go:33-49, Go's `append`). `room` is the capacity of the resource's attributes, `grow cap n` that of the array
that `append` makes for `n` elements. At most one element of an array is read or written in a step. -/
def Reader.step {α : Type} (room : Nat) (grow : Nat → Nat → Nat) (r : PRec α) (e : Reader α) (array : Nat → Option α) : Option (Reader α × (Nat → Option α)) :=
  match e.act with
  | .waiting => some ({ e with place := .resource, len := r.base.length, cap := room, todo := planFrom 0 r.scopes, act := .idle }, array)
  | .idle =>
    match e.todo with
    | [] => some ({ e with act := .scan 0 [] }, array)
    | f :: rest =>
      if e.len + (r.fetch f).length ≤ e.cap then some ({ e with todo := rest, act := .writing (r.fetch f) 0 }, array)
      else some ({ e with todo := rest, act := .growing (r.fetch f) (fun _ => none) (grow e.cap (e.len + (r.fetch f).length)) 0 }, array)
  | .writing xs k =>
    match xs[k]? with
    | some x =>
      match e.place with
      | .resource => some ({ e with act := .writing xs (k + 1) }, assign array (e.len + k) (some x))
      | .own => some ({ e with act := .writing xs (k + 1), own := assign e.own (e.len + k) (some x) }, array)
    | none => some ({ e with len := e.len + xs.length, act := .idle }, array)
  | .growing xs arr cap k =>
    if k < e.len then some ({ e with act := .growing xs (assign arr k (e.read array k)) cap (k + 1) }, array)
    else some ({ e with place := .own, own := arr, cap := cap, act := .writing xs 0 }, array)
  | .scan k seen =>
    if k < e.len then some ({ e with act := .scan (k + 1) (seen ++ [e.read array k]) }, array)
    else some ({ e with act := .done seen }, array)
  | .done _ => none

/-- What noting a rule does to the lists, step by step: a scope of the processor at the end, if there is none (contextualizer.go:84-95); an attribute at the end of those of the first such scope
(contextualizer.go:97-115). Simplification: engines do not both note a rule for the first time at the same moment, which would make two scopes. -/
inductive Note {α : Type} (r : PRec α) : Option α → PRec α → Prop where
  | scope : (∀ s ∈ r.scopes, s.proc = false) → Note r none { r with scopes := r.scopes ++ [⟨true, [], []⟩] }
  | attr (pre : List (PScope α)) (s : PScope α) (post : List (PScope α)) (p : α) : r.scopes = pre ++ s :: post → (∀ x ∈ pre, x.proc = false) → s.proc = true →
      Note r (some p) { r with scopes := pre ++ { s with attrs := s.attrs ++ [p] } :: post }

/-- Executions: in each step some evaluation makes its next step, or an engine notes something, where new attributes are of the kind `new`. -/
inductive Run {α : Type} (room : Nat) (grow : Nat → Nat → Nat) (new : α → Prop) (m : Mem α) : Mem α → Prop where
  | refl : Run room grow new m m
  | step {m' : Mem α} (i : Nat) (e : Reader α) (a : Nat → Option α) : Run room grow new m m' → (m'.readers i).step room grow m'.record m'.array = some (e, a) →
      Run room grow new m { m' with array := a, readers := fun j => if j = i then e else m'.readers j }
  | note {m' : Mem α} (p : Option α) (r : PRec α) : Run room grow new m m' → Note m'.record p r → (∀ x, p = some x → new x) → Run room grow new m { m' with record := r }

/-- No evaluation has begun; the array has the resource's attributes. -/
structure Starts {α : Type} (m : Mem α) : Prop where
  array : ∀ k < m.record.base.length, m.array k = m.record.base[k]?
  waiting : ∀ i, (m.readers i).act = .waiting

/-! ### Specification -/

/-- The attributes of a record in the order in which conditions look at them. -/
def PRec.attributes {α : Type} (r : PRec α) : List α := r.base ++ r.scopes.flatMap (fun s => s.attrs ++ s.logs.flatten)

/-- The processor's scope, if there is one, is the last, and it has no log records: as in a record that arrives without one, whatever engines note in it. -/
def PRec.Arranged {α : Type} (r : PRec α) : Prop := ∀ pre s post, r.scopes = pre ++ s :: post → s.proc = true → post = [] ∧ s.logs = []

/-! ### Noting only adds at the end -/

theorem attributes_of {α : Type} (b : List α) (pre post : List (PScope α)) :
    (PRec.mk b (pre ++ post)).attributes = b ++ pre.flatMap (fun s => s.attrs ++ s.logs.flatten) ++ post.flatMap (fun s => s.attrs ++ s.logs.flatten) := by
  unfold PRec.attributes
  rw [List.flatMap_append, List.append_assoc]

/-- Noting something keeps the processor's scope the last, and adds attributes at the end only. -/
theorem note_adds {α : Type} {r r' : PRec α} {p : Option α} (h : Note r p r') (ha : r.Arranged) : r'.Arranged ∧ r'.base = r.base ∧ r'.attributes = r.attributes ++ p.toList := by
  cases h with
  | scope hn =>
    refine ⟨?_, rfl, ?_⟩
    · intro pre s post he hs
      rcases List.eq_nil_or_concat post with rfl | ⟨post', z, rfl⟩
      · have := List.append_inj' (he : r.scopes ++ [_] = pre ++ [s]) rfl
        have h2 := (List.cons.inj this.2).1
        exact ⟨rfl, by rw [← h2]⟩
      · exfalso
        rw [List.concat_eq_append, ← List.cons_append, ← List.append_assoc] at he
        have := (List.append_inj' (he : r.scopes ++ [_] = _ ++ [z]) rfl).1
        have := hn s (by rw [this]; exact List.mem_append_right _ (.head _))
        rw [hs] at this
        cases this
    · change r.base ++ (r.scopes ++ [(⟨true, [], []⟩ : PScope α)]).flatMap _ = _
      rw [List.flatMap_append]
      unfold PRec.attributes
      simp
  | attr pre s post p he hpre hs =>
    obtain ⟨rfl, hl⟩ := ha pre s post he hs
    refine ⟨?_, rfl, ?_⟩
    · intro pre' s' post' he' hs'
      have he' : pre ++ [({ s with attrs := s.attrs ++ [p] } : PScope α)] = pre' ++ s' :: post' := he'
      rcases List.eq_nil_or_concat post' with rfl | ⟨post'', z, rfl⟩
      · have h2 := (List.cons.inj (List.append_inj' he' rfl).2).1
        exact ⟨rfl, by rw [← h2]; exact hl⟩
      · exfalso
        rw [List.concat_eq_append, ← List.cons_append, ← List.append_assoc] at he'
        have := (List.append_inj' he' rfl).1
        have := hpre s' (by rw [this]; exact List.mem_append_right _ (.head _))
        rw [hs'] at this
        cases this
    · change r.base ++ (pre ++ [({ s with attrs := s.attrs ++ [p] } : PScope α)]).flatMap _ = r.base ++ r.scopes.flatMap _ ++ [p]
      rw [he]
      simp [hl]

/-! ### The turns of the loops -/

theorem planFrom_fetch {α : Type} (b : List α) (pre ss : List (PScope α)) :
    (planFrom pre.length ss).flatMap (PRec.mk b (pre ++ ss)).fetch = ss.flatMap (fun s => s.attrs ++ s.logs.flatten) := by
  induction ss generalizing pre with
  | nil => rfl
  | cons s ss ih =>
    have h1 := ih (pre ++ [s])
    rw [List.append_assoc, List.length_append] at h1
    have h2 : (PRec.mk b (pre ++ s :: ss)).fetch (.scope pre.length) = s.attrs := by
      unfold PRec.fetch
      simp
    have h3 : (s.logs.map Fetch.logs).flatMap (PRec.mk b (pre ++ s :: ss)).fetch = s.logs.flatten := by
      rw [List.flatMap_def, List.map_map]
      congr 1
      exact List.map_id _
    rw [planFrom, List.flatMap_cons, List.flatMap_append, h2, h3, List.flatMap_cons, List.append_assoc]
    exact congrArg _ (congrArg _ h1)

theorem planFrom_bound {α : Type} (ss : List (PScope α)) : ∀ (n j : Nat), Fetch.scope j ∈ planFrom n ss → n ≤ j ∧ j < n + ss.length := by
  induction ss with
  | nil => intro n j h; cases h
  | cons s ss ih =>
    intro n j h
    rw [planFrom] at h
    rcases List.mem_cons.1 h with h | h
    · cases h
      simp
    · rcases List.mem_append.1 h with h | h
      · obtain ⟨xs, -, hx⟩ := List.mem_map.1 h
        cases hx
      · obtain ⟨a, b⟩ := ih _ _ h
        simp
        omega

theorem planFrom_append {α : Type} (ss ts : List (PScope α)) : ∀ n, planFrom n (ss ++ ts) = planFrom n ss ++ planFrom (n + ss.length) ts := by
  induction ss with
  | nil => intro n; rfl
  | cons s ss ih =>
    intro n
    rw [List.cons_append, planFrom, planFrom, ih]
    simp [Nat.add_assoc, Nat.add_comm 1]

/-! ### What holds in every execution -/

/-- The turns left: with what they will append, the list goes on as the attributes of the record do; only the turn of the processor's scope, which is then the last, can still get more. -/
structure Pending {α : Type} (r : PRec α) (n : Nat) (todo : List (Fetch α)) : Prop where
  room : n ≤ r.attributes.length
  on : r.attributes.take n ++ todo.flatMap r.fetch <+: r.attributes
  known : ∀ j, Fetch.scope j ∈ todo → j < r.scopes.length
  last : ∀ j, Fetch.scope j ∈ todo → ∀ s, r.scopes[j]? = some s → s.proc = true → ∃ pre, todo = pre ++ [.scope j] ∧ Fetch.scope j ∉ pre ∧ r.attributes.take n ++ todo.flatMap r.fetch = r.attributes

theorem proc_at {α : Type} {r : PRec α} (ha : r.Arranged) {pre : List (PScope α)} {s : PScope α} (he : r.scopes = pre ++ [s]) (hs : s.proc = true) (hpre : ∀ x ∈ pre, x.proc = false)
    {j : Nat} {x : PScope α} (hj : r.scopes[j]? = some x) (hx : x.proc = true) : j = pre.length := by
  rw [he] at hj
  rcases Nat.lt_or_ge j pre.length with h | h
  · rw [List.getElem?_append_left h] at hj
    have := hpre x (List.mem_of_getElem? hj)
    rw [hx] at this
    cases this
  · rw [List.getElem?_append_right h] at hj
    have := (List.getElem?_eq_some_iff.1 hj).1
    simp at this
    omega

theorem pending_note {α : Type} {r r' : PRec α} {p : Option α} (h : Note r p r') (ha : r.Arranged) {n : Nat} {todo : List (Fetch α)} (hp : Pending r n todo) :
    Pending r' n todo ∧ (todo.flatMap r.fetch).length ≤ (todo.flatMap r'.fetch).length := by
  obtain ⟨-, -, hadd⟩ := note_adds h ha
  have htake : r'.attributes.take n = r.attributes.take n := by
    rw [hadd, List.take_append_of_le_length hp.room]
  cases h with
  | scope hn =>
    have hf : ∀ f ∈ todo, PRec.fetch { r with scopes := r.scopes ++ [(⟨true, [], []⟩ : PScope α)] } f = r.fetch f := by
      intro f hf
      cases f with
      | logs xs => rfl
      | scope j =>
        unfold PRec.fetch
        simp only [List.getElem?_append_left (hp.known j hf)]
    have hfm : todo.flatMap (PRec.fetch { r with scopes := r.scopes ++ [(⟨true, [], []⟩ : PScope α)] }) = todo.flatMap r.fetch := by
      rw [List.flatMap_def, List.flatMap_def, List.map_congr_left hf]
    have hg : PRec.attributes { r with scopes := r.scopes ++ [(⟨true, [], []⟩ : PScope α)] } = r.attributes := by
      rw [hadd]; exact List.append_nil _
    refine ⟨⟨by rw [hg]; exact hp.room, by rw [hg, hfm]; exact hp.on, ?_, ?_⟩, by rw [hfm]; exact Nat.le_refl _⟩
    · intro j hj
      have := hp.known j hj
      simp
      omega
    · intro j hj s hs hproc
      have hs : (r.scopes ++ [(⟨true, [], []⟩ : PScope α)])[j]? = some s := hs
      rw [List.getElem?_append_left (hp.known j hj)] at hs
      rw [hg, hfm]
      exact hp.last j hj s hs hproc
  | attr pre s post q he hpre hs =>
    obtain ⟨rfl, hl⟩ := ha pre s post he hs
    have hother : ∀ j, j ≠ pre.length → PRec.fetch { r with scopes := pre ++ [({ s with attrs := s.attrs ++ [q] } : PScope α)] } (.scope j) = r.fetch (.scope j) := by
      intro j hj
      unfold PRec.fetch
      rw [he]
      rcases Nat.lt_or_ge j pre.length with h | h
      · simp only [List.getElem?_append_left h]
      · have h2 : ∀ (z : PScope α), (pre ++ [z])[j]? = none := by
          intro z
          apply List.getElem?_eq_none
          simp
          omega
        simp only [h2]
    have hself : PRec.fetch { r with scopes := pre ++ [({ s with attrs := s.attrs ++ [q] } : PScope α)] } (.scope pre.length) = r.fetch (.scope pre.length) ++ [q] := by
      unfold PRec.fetch
      rw [he]
      simp
    have hlen : (PRec.mk r.base (pre ++ [({ s with attrs := s.attrs ++ [q] } : PScope α)])).scopes.length = r.scopes.length := by
      rw [he]
      simp
    have hsame : ∀ t : List (Fetch α), Fetch.scope pre.length ∉ t → t.flatMap (PRec.fetch { r with scopes := pre ++ [({ s with attrs := s.attrs ++ [q] } : PScope α)] }) = t.flatMap r.fetch := by
      intro t ht
      rw [List.flatMap_def, List.flatMap_def]
      congr 1
      apply List.map_congr_left
      intro f hf
      cases f with
      | logs xs => rfl
      | scope j =>
        refine hother j ?_
        rintro rfl
        exact ht hf
    have hroom : n ≤ (PRec.mk r.base (pre ++ [({ s with attrs := s.attrs ++ [q] } : PScope α)])).attributes.length := by
      rw [hadd, List.length_append]
      exact Nat.le_trans hp.room (Nat.le_add_right _ _)
    by_cases hin : Fetch.scope pre.length ∈ todo
    · obtain ⟨t, ht, hnt, heq⟩ := hp.last _ hin s (by rw [he]; simp) hs
      have hfm : todo.flatMap (PRec.fetch { r with scopes := pre ++ [({ s with attrs := s.attrs ++ [q] } : PScope α)] }) = todo.flatMap r.fetch ++ [q] := by
        rw [ht, List.flatMap_append, List.flatMap_append, hsame t hnt, List.flatMap_cons, List.flatMap_cons, List.flatMap_nil, List.flatMap_nil, hself]
        simp
      have heq' : List.take n (PRec.mk r.base (pre ++ [({ s with attrs := s.attrs ++ [q] } : PScope α)])).attributes ++
          todo.flatMap (PRec.fetch { r with scopes := pre ++ [({ s with attrs := s.attrs ++ [q] } : PScope α)] }) = (PRec.mk r.base (pre ++ [({ s with attrs := s.attrs ++ [q] } : PScope α)])).attributes := by
        rw [htake, hfm, hadd, ← List.append_assoc, heq]
        rfl
      refine ⟨⟨hroom, ?_, fun j hj => by rw [hlen]; exact hp.known j hj, ?_⟩, ?_⟩
      · rw [heq']
        exact List.prefix_refl _
      · intro j hj x hx hproc
        have hj' : j = pre.length := by
          refine proc_at (r := PRec.mk r.base (pre ++ [({ s with attrs := s.attrs ++ [q] } : PScope α)])) (note_adds (.attr pre s [] q he hpre hs) ha).1 rfl hs hpre hx hproc
        rw [hj']
        exact ⟨t, ht, hnt, heq'⟩
      · rw [hfm, List.length_append]
        exact Nat.le_add_right _ _
    · refine ⟨⟨hroom, ?_, fun j hj => by rw [hlen]; exact hp.known j hj, ?_⟩, ?_⟩
      · rw [htake, hsame todo hin, hadd]
        exact hp.on.trans (List.prefix_append _ _)
      · intro j hj x hx hproc
        have hj' : j = pre.length := by
          refine proc_at (r := PRec.mk r.base (pre ++ [({ s with attrs := s.attrs ++ [q] } : PScope α)])) (note_adds (.attr pre s [] q he hpre hs) ha).1 rfl hs hpre hx hproc
        rw [hj'] at hj
        exact absurd hj hin
      · rw [hsame todo hin]
        exact Nat.le_refl _

theorem pending_begin {α : Type} (r : PRec α) (ha : r.Arranged) : Pending r r.base.length (planFrom 0 r.scopes) ∧ r.base.length + ((planFrom 0 r.scopes).flatMap r.fetch).length = r.attributes.length := by
  have hf : (planFrom 0 r.scopes).flatMap r.fetch = r.scopes.flatMap (fun s => s.attrs ++ s.logs.flatten) := planFrom_fetch r.base [] r.scopes
  have htake : r.attributes.take r.base.length = r.base := by
    unfold PRec.attributes
    rw [List.take_left']
    rfl
  refine ⟨⟨?_, ?_, ?_, ?_⟩, ?_⟩
  · unfold PRec.attributes
    rw [List.length_append]
    exact Nat.le_add_right _ _
  · rw [htake, hf]
    exact List.prefix_refl _
  · intro j hj
    have := (planFrom_bound r.scopes 0 j hj).2
    omega
  · intro j hj s hs hproc
    have hlt := (List.getElem?_eq_some_iff.1 hs).1
    have hsplit : r.scopes = r.scopes.take j ++ s :: r.scopes.drop (j + 1) := by
      have := List.getElem?_eq_some_iff.1 hs
      obtain ⟨h1, h2⟩ := this
      rw [← h2, List.getElem_cons_drop, List.take_append_drop]
    obtain ⟨h1, h2⟩ := ha _ _ _ hsplit hproc
    have hl : (r.scopes.take j).length = j := List.length_take_of_le (Nat.le_of_lt hlt)
    refine ⟨planFrom 0 (r.scopes.take j), ?_, ?_, ?_⟩
    · have h3 : r.scopes = r.scopes.take j ++ [s] := by rw [← h1]; exact hsplit
      have h4 := planFrom_append (r.scopes.take j) [s] 0
      rw [← h3, hl] at h4
      rw [h4]
      congr 1
      rw [planFrom, planFrom, h2]
      simp
    · intro hin
      have := (planFrom_bound _ 0 j hin).2
      omega
    · rw [htake, hf]
      rfl
  · rw [hf]
    unfold PRec.attributes
    rw [List.length_append]

theorem pending_fetch {α : Type} {r : PRec α} {n : Nat} {f : Fetch α} {todo : List (Fetch α)} (h : Pending r n (f :: todo)) :
    Pending r (n + (r.fetch f).length) todo ∧ ∀ k < (r.fetch f).length, (r.fetch f)[k]? = r.attributes[n + k]? := by
  have hon := h.on
  rw [List.flatMap_cons, ← List.append_assoc] at hon
  have h1 : r.attributes.take n ++ r.fetch f <+: r.attributes := (List.prefix_append _ _).trans hon
  have hlen : (r.attributes.take n ++ r.fetch f).length = n + (r.fetch f).length := by
    rw [List.length_append, List.length_take_of_le h.room]
  have htake : r.attributes.take (n + (r.fetch f).length) = r.attributes.take n ++ r.fetch f := by
    rw [← hlen]
    exact (List.prefix_iff_eq_take.1 h1).symm
  refine ⟨⟨?_, ?_, fun j hj => h.known j (.tail _ hj), ?_⟩, ?_⟩
  · rw [← hlen]
    exact h1.length_le
  · rw [htake]
    exact hon
  · intro j hj s hs hproc
    obtain ⟨pre, q1, q2, q3⟩ := h.last j (.tail _ hj) s hs hproc
    cases pre with
    | nil =>
      rw [List.nil_append] at q1
      have := (List.cons.inj q1).2
      rw [this] at hj
      cases hj
    | cons g pre =>
      refine ⟨pre, (List.cons.inj q1).2, fun hin => q2 (.tail _ hin), ?_⟩
      rw [htake, List.append_assoc, ← List.flatMap_cons]
      exact q3
  · intro k hk
    obtain ⟨t, ht⟩ := h1
    have hlt : (r.attributes.take n).length = n := List.length_take_of_le h.room
    have : r.attributes[n + k]? = (r.attributes.take n ++ r.fetch f ++ t)[n + k]? := by rw [ht]
    rw [this, List.append_assoc, List.getElem?_append_right (by rw [hlt]; omega), hlt, List.getElem?_append_left (by omega)]
    congr 1
    omega

/-- The slice's elements up to `n` are those of the record. -/
def Agrees {α : Type} (r : PRec α) (a : Nat → Option α) (n : Nat) : Prop := ∀ k < n, a k = r.attributes[k]?

/-- What is true of an evaluation under way. -/
def Fine {α : Type} (r : PRec α) (array : Nat → Option α) (e : Reader α) : Prop :=
  match e.act with
  | .waiting => True
  | .idle => Agrees r (e.read array) e.len ∧ Pending r e.len e.todo
  | .writing xs k => Agrees r (e.read array) (e.len + k) ∧ Pending r (e.len + xs.length) e.todo ∧ (∀ j < xs.length, xs[j]? = r.attributes[e.len + j]?) ∧ k ≤ xs.length
  | .growing xs arr _ k => Agrees r (e.read array) e.len ∧ Pending r (e.len + xs.length) e.todo ∧ (∀ j < xs.length, xs[j]? = r.attributes[e.len + j]?) ∧ k ≤ e.len ∧ Agrees r arr k
  | .scan k seen => Agrees r (e.read array) e.len ∧ e.len ≤ r.attributes.length ∧ k ≤ e.len ∧ seen = (r.attributes.take k).map some
  | .done seen => e.len ≤ r.attributes.length ∧ seen = (r.attributes.take e.len).map some

/-- At least `n` elements are, or will be, in the slice. -/
def AtLeast {α : Type} (n : Nat) (r : PRec α) (e : Reader α) : Prop :=
  match e.act with
  | .waiting => False
  | .idle => n ≤ e.len + (e.todo.flatMap r.fetch).length
  | .writing xs _ => n ≤ e.len + xs.length + (e.todo.flatMap r.fetch).length
  | .growing xs _ _ _ => n ≤ e.len + xs.length + (e.todo.flatMap r.fetch).length
  | .scan _ _ => n ≤ e.len
  | .done _ => n ≤ e.len

theorem agrees_note {α : Type} {r r' : PRec α} {p : Option α} (hadd : r'.attributes = r.attributes ++ p.toList) {a : Nat → Option α} {n : Nat} (hn : n ≤ r.attributes.length) (h : Agrees r a n) : Agrees r' a n := by
  intro k hk
  rw [h k hk, hadd, List.getElem?_append_left (by omega)]

theorem fine_note {α : Type} {r r' : PRec α} {p : Option α} (h : Note r p r') (ha : r.Arranged) {array : Nat → Option α} {e : Reader α} (hf : Fine r array e) : Fine r' array e := by
  obtain ⟨-, -, hadd⟩ := note_adds h ha
  have hle : ∀ n, n ≤ r.attributes.length → n ≤ r'.attributes.length := by
    intro n hn
    rw [hadd, List.length_append]
    omega
  have hxs : ∀ (xs : List α) (n : Nat), n + xs.length ≤ r.attributes.length → (∀ j < xs.length, xs[j]? = r.attributes[n + j]?) → ∀ j < xs.length, xs[j]? = r'.attributes[n + j]? := by
    intro xs n hn hx j hj
    rw [hx j hj, hadd, List.getElem?_append_left (by omega)]
  have htake : ∀ n, n ≤ r.attributes.length → r'.attributes.take n = r.attributes.take n := by
    intro n hn
    rw [hadd, List.take_append_of_le_length hn]
  unfold Fine at hf ⊢
  cases hact : e.act with
  | waiting => trivial
  | idle =>
    rw [hact] at hf
    exact ⟨agrees_note hadd hf.2.room hf.1, (pending_note h ha hf.2).1⟩
  | writing xs k =>
    rw [hact] at hf
    obtain ⟨h1, h2, h3, h4⟩ := hf
    exact ⟨agrees_note hadd (Nat.le_trans (Nat.add_le_add_left h4 _) h2.room) h1, (pending_note h ha h2).1, hxs _ _ h2.room h3, h4⟩
  | growing xs arr c k =>
    rw [hact] at hf
    obtain ⟨h1, h2, h3, h4, h5⟩ := hf
    have hl : e.len ≤ r.attributes.length := Nat.le_trans (Nat.le_add_right _ _) h2.room
    exact ⟨agrees_note hadd hl h1, (pending_note h ha h2).1, hxs _ _ h2.room h3, h4, agrees_note hadd (Nat.le_trans h4 hl) h5⟩
  | scan k seen =>
    rw [hact] at hf
    obtain ⟨h1, h2, h3, h4⟩ := hf
    exact ⟨agrees_note hadd h2 h1, hle _ h2, h3, by rw [htake _ (Nat.le_trans h3 h2)]; exact h4⟩
  | done seen =>
    rw [hact] at hf
    exact ⟨hle _ hf.1, by rw [htake _ hf.1]; exact hf.2⟩

theorem atLeast_note {α : Type} {r r' : PRec α} {p : Option α} (h : Note r p r') (ha : r.Arranged) {array : Nat → Option α} {e : Reader α} (hf : Fine r array e) {n : Nat} (hn : AtLeast n r e) : AtLeast n r' e := by
  unfold AtLeast at hn ⊢
  unfold Fine at hf
  cases hact : e.act with
  | waiting => rw [hact] at hn; exact hn
  | idle =>
    rw [hact] at hf hn
    have := (pending_note h ha hf.2).2
    exact Nat.le_trans hn (Nat.add_le_add_left this _)
  | writing xs k =>
    rw [hact] at hf hn
    have := (pending_note h ha hf.2.1).2
    exact Nat.le_trans hn (Nat.add_le_add_left this _)
  | growing xs arr c k =>
    rw [hact] at hf hn
    have := (pending_note h ha hf.2.1).2
    exact Nat.le_trans hn (Nat.add_le_add_left this _)
  | scan k seen => rw [hact] at hn; exact hn
  | done seen => rw [hact] at hn; exact hn

/-- Whatever an evaluation writes to the shared array is what the others expect there. -/
theorem fine_other {α : Type} {r : PRec α} {array a : Nat → Option α} {e : Reader α} (ha : ∀ k, a k = array k ∨ a k = r.attributes[k]?) (hf : Fine r array e) : Fine r a e := by
  have hr : ∀ n, Agrees r (e.read array) n → Agrees r (e.read a) n := by
    intro n h k hk
    have := h k hk
    unfold Reader.read at this ⊢
    cases hp : e.place with
    | own => rw [hp] at this; exact this
    | resource =>
      rw [hp] at this
      rcases ha k with q | q
      · exact q.trans this
      · exact q
  unfold Fine at hf ⊢
  cases hact : e.act with
  | waiting => trivial
  | idle => rw [hact] at hf; exact ⟨hr _ hf.1, hf.2⟩
  | writing xs k => rw [hact] at hf; exact ⟨hr _ hf.1, hf.2⟩
  | growing xs arr c k => rw [hact] at hf; exact ⟨hr _ hf.1, hf.2⟩
  | scan k seen => rw [hact] at hf; exact ⟨hr _ hf.1, hf.2⟩
  | done seen => rw [hact] at hf; exact hf

theorem fine_step {α : Type} {room : Nat} {grow : Nat → Nat → Nat} {r : PRec α} (ha : r.Arranged) {array : Nat → Option α} (hbase : Agrees r array r.base.length) {e : Reader α} (hf : Fine r array e) {e' : Reader α}
    {a : Nat → Option α} (hs : e.step room grow r array = some (e', a)) :
    Fine r a e' ∧ (∀ k, a k = array k ∨ a k = r.attributes[k]?) ∧ (∀ n, AtLeast n r e → AtLeast n r e') ∧ (e.act = .waiting → AtLeast r.attributes.length r e') := by
  unfold Reader.step at hs
  unfold Fine at hf
  cases hact : e.act with
  | waiting =>
    rw [hact] at hs
    cases hs
    obtain ⟨h1, h2⟩ := pending_begin r ha
    refine ⟨⟨hbase, h1⟩, fun k => .inl rfl, fun n hn => ?_, fun _ => ?_⟩
    · unfold AtLeast at hn
      rw [hact] at hn
      exact hn.elim
    · exact Nat.le_of_eq h2.symm
  | idle =>
    rw [hact] at hs hf
    dsimp only at hs hf
    cases htodo : e.todo with
    | nil =>
      rw [htodo] at hs
      cases hs
      refine ⟨⟨hf.1, hf.2.room, Nat.zero_le _, rfl⟩, fun k => .inl rfl, fun n hn => ?_, fun h => by cases h⟩
      unfold AtLeast at hn
      rw [hact] at hn
      dsimp only at hn
      rw [htodo] at hn
      exact hn
    | cons f rest =>
      rw [htodo] at hs hf
      dsimp only at hs
      obtain ⟨h1, h2⟩ := pending_fetch hf.2
      have hn' : ∀ n, AtLeast n r e → n ≤ e.len + (r.fetch f).length + (rest.flatMap r.fetch).length := by
        intro n hn
        unfold AtLeast at hn
        rw [hact] at hn
        dsimp only at hn
        rw [htodo, List.flatMap_cons, List.length_append] at hn
        omega
      split at hs
      · cases hs
        exact ⟨⟨hf.1, h1, h2, Nat.zero_le _⟩, fun k => .inl rfl, hn', fun h => by cases h⟩
      · cases hs
        exact ⟨⟨hf.1, h1, h2, Nat.zero_le _, fun k hk => absurd hk (Nat.not_lt_zero _)⟩, fun k => .inl rfl, hn', fun h => by cases h⟩
  | writing xs k =>
    rw [hact] at hs hf
    dsimp only at hs hf
    obtain ⟨h1, h2, h3, h4⟩ := hf
    have hn' : ∀ n, AtLeast n r e → n ≤ e.len + xs.length + (e.todo.flatMap r.fetch).length := by
      intro n hn
      unfold AtLeast at hn
      rw [hact] at hn
      exact hn
    cases hx : xs[k]? with
    | some x =>
      rw [hx] at hs
      dsimp only at hs
      have hk : k < xs.length := (List.getElem?_eq_some_iff.1 hx).1
      have hval : r.attributes[e.len + k]? = some x := by rw [← h3 k hk, hx]
      have hag : ∀ b : Nat → Option α, Agrees r b (e.len + k) → Agrees r (assign b (e.len + k) (some x)) (e.len + (k + 1)) := by
        intro b hb j hj
        unfold assign
        split
        · rename_i hj'
          rw [hj', hval]
        · exact hb j (by omega)
      cases hp : e.place with
      | resource =>
        rw [hp] at hs
        cases hs
        refine ⟨⟨?_, h2, h3, hk⟩, ?_, hn', fun h => by cases h⟩
        · have : Agrees r array (e.len + k) := by
            intro j hj
            have := h1 j hj
            unfold Reader.read at this
            rw [hp] at this
            exact this
          have := hag _ this
          intro j hj
          exact this j hj
        · intro j
          unfold assign
          split
          · rename_i hj'
            exact .inr (by rw [hj', hval])
          · exact .inl rfl
      | own =>
        rw [hp] at hs
        cases hs
        refine ⟨⟨?_, h2, h3, hk⟩, fun k => .inl rfl, hn', fun h => by cases h⟩
        have : Agrees r e.own (e.len + k) := by
          intro j hj
          have := h1 j hj
          unfold Reader.read at this
          rw [hp] at this
          exact this
        have := hag _ this
        intro j hj
        exact this j hj
    | none =>
      rw [hx] at hs
      cases hs
      have hk : xs.length ≤ k := List.getElem?_eq_none_iff.1 hx
      have hk : k = xs.length := Nat.le_antisymm h4 hk
      rw [hk] at h1
      exact ⟨⟨h1, h2⟩, fun k => .inl rfl, hn', fun h => by cases h⟩
  | growing xs arr c k =>
    rw [hact] at hs hf
    dsimp only at hs hf
    obtain ⟨h1, h2, h3, h4, h5⟩ := hf
    have hn' : ∀ n, AtLeast n r e → n ≤ e.len + xs.length + (e.todo.flatMap r.fetch).length := by
      intro n hn
      unfold AtLeast at hn
      rw [hact] at hn
      exact hn
    split at hs
    · rename_i hk
      cases hs
      refine ⟨⟨h1, h2, h3, hk, ?_⟩, fun k => .inl rfl, hn', fun h => by cases h⟩
      intro j hj
      unfold assign
      split
      · rename_i hj'
        rw [hj']
        exact h1 k hk
      · exact h5 j (by omega)
    · rename_i hk
      cases hs
      have hk : k = e.len := by omega
      rw [hk] at h5
      exact ⟨⟨h5, h2, h3, Nat.zero_le _⟩, fun k => .inl rfl, hn', fun h => by cases h⟩
  | scan k seen =>
    rw [hact] at hs hf
    dsimp only at hs hf
    obtain ⟨h1, h2, h3, h4⟩ := hf
    have hn' : ∀ n, AtLeast n r e → n ≤ e.len := by
      intro n hn
      unfold AtLeast at hn
      rw [hact] at hn
      exact hn
    split at hs
    · rename_i hk
      cases hs
      refine ⟨⟨h1, h2, hk, ?_⟩, fun k => .inl rfl, hn', fun h => by cases h⟩
      rw [h4, h1 k hk, List.take_succ, List.map_append, List.getElem?_eq_getElem (by omega)]
      rfl
    · rename_i hk
      cases hs
      have hk : k = e.len := by omega
      rw [hk] at h4
      exact ⟨⟨h2, h4⟩, fun k => .inl rfl, hn', fun h => by cases h⟩
  | done seen =>
    rw [hact] at hs
    cases hs

/-- What is true of the whole memory. -/
structure Sound {α : Type} (m : Mem α) : Prop where
  arranged : m.record.Arranged
  base : Agrees m.record m.array m.record.base.length
  fine : ∀ i, Fine m.record m.array (m.readers i)

theorem base_attributes {α : Type} (r : PRec α) {k : Nat} (hk : k < r.base.length) : r.attributes[k]? = r.base[k]? := by
  unfold PRec.attributes
  rw [List.getElem?_append_left hk]

theorem starts_sound {α : Type} {m : Mem α} (h : Starts m) (ha : m.record.Arranged) : Sound m := by
  refine ⟨ha, fun k hk => ?_, fun i => ?_⟩
  · rw [h.array k hk, base_attributes _ hk]
  · unfold Fine
    rw [h.waiting i]
    trivial

theorem run_sound {α : Type} {room : Nat} {grow : Nat → Nat → Nat} {new : α → Prop} {m m' : Mem α} (h : Run room grow new m m') (hs : Sound m) : Sound m' := by
  induction h with
  | refl => exact hs
  | step i e a _ hstep ih =>
    obtain ⟨h1, h2, -, -⟩ := fine_step ih.arranged ih.base (ih.fine i) hstep
    refine ⟨ih.arranged, fun k hk => ?_, fun j => ?_⟩
    · rcases h2 k with q | q
      · exact q.trans (ih.base k hk)
      · exact q
    · dsimp only
      split
      · exact h1
      · exact fine_other h2 (ih.fine j)
  | note p r _ hnote _ ih =>
    obtain ⟨q1, q2, q3⟩ := note_adds hnote ih.arranged
    refine ⟨q1, ?_, fun j => fine_note hnote ih.arranged (ih.fine j)⟩
    have hl := (pending_begin _ ih.arranged).1.room
    change Agrees r _ r.base.length
    rw [q2]
    exact agrees_note q3 hl ih.base

theorem run_adds {α : Type} {room : Nat} {grow : Nat → Nat → Nat} {new : α → Prop} {m m' : Mem α} (h : Run room grow new m m') (hs : Sound m) :
    ∃ xs, m'.record.attributes = m.record.attributes ++ xs ∧ ∀ x ∈ xs, new x := by
  induction h with
  | refl => exact ⟨[], (List.append_nil _).symm, fun x hx => by cases hx⟩
  | step i e a _ _ ih => exact ih
  | note p r hrun hnote hnew ih =>
    obtain ⟨xs, h1, h2⟩ := ih
    refine ⟨xs ++ p.toList, ?_, ?_⟩
    · change r.attributes = _
      rw [(note_adds hnote (run_sound hrun hs).arranged).2.2, h1, List.append_assoc]
    · intro x hx
      rcases List.mem_append.1 hx with hx | hx
      · exact h2 x hx
      · cases p with
        | none => cases hx
        | some y =>
          have := List.mem_singleton.1 (by exact hx)
          exact hnew x (by rw [this])

theorem run_atLeast {α : Type} {room : Nat} {grow : Nat → Nat → Nat} {new : α → Prop} {m m' : Mem α} (h : Run room grow new m m') (hs : Sound m) {i n : Nat} (hn : AtLeast n m.record (m.readers i)) :
    AtLeast n m'.record (m'.readers i) := by
  induction h with
  | refl => exact hn
  | step j e a hrun hstep ih =>
    dsimp only
    split
    · rename_i hij
      rw [hij] at ih
      have hs' := run_sound hrun hs
      exact (fine_step hs'.arranged hs'.base (hs'.fine j) hstep).2.2.1 n ih
    · exact ih
  | note p r hrun hnote _ ih =>
    have hs' := run_sound hrun hs
    exact atLeast_note hnote hs'.arranged (hs'.fine i) ih

/-! ### C124 -/

/-- **C124** Engines that share a record, in which the processor's scope, if any, comes last, do not disturb each other's reading, although all of them write to the memory behind the resource's attributes:
an evaluation that begins at some moment and is done at a later one has read a list that begins with all attributes that the record had at the first moment and whose elements, in their order, are the first
of those it has at the second; what was added in between is what engines noted. -/
theorem shared_reading {α : Type} {room : Nat} {grow : Nat → Nat → Nat} {new : α → Prop} {m0 m1 m2 : Mem α} (hstart : Starts m0) (ha : m0.record.Arranged) (h1 : Run room grow new m0 m1) {i : Nat}
    (hw : (m1.readers i).act = .waiting) {e : Reader α} {a : Nat → Option α} (hstep : (m1.readers i).step room grow m1.record m1.array = some (e, a))
    (h2 : Run room grow new { m1 with array := a, readers := fun j => if j = i then e else m1.readers j } m2) {seen : List (Option α)} (hd : (m2.readers i).act = .done seen) :
    ∃ more rest, seen = (m1.record.attributes ++ more).map some ∧ m2.record.attributes = m1.record.attributes ++ more ++ rest ∧ ∀ x ∈ more ++ rest, new x := by
  have s1 := run_sound h1 (starts_sound hstart ha)
  have s1' : Sound { m1 with array := a, readers := fun j => if j = i then e else m1.readers j } := run_sound (Run.step (new := new) i e a .refl hstep) s1
  have s2 := run_sound h2 s1'
  have hle : AtLeast m1.record.attributes.length m2.record (m2.readers i) := by
    refine run_atLeast h2 s1' ?_
    dsimp only
    rw [if_pos rfl]
    exact (fine_step s1.arranged s1.base (s1.fine i) hstep).2.2.2 hw
  unfold AtLeast at hle
  rw [hd] at hle
  have hf := s2.fine i
  unfold Fine at hf
  rw [hd] at hf
  obtain ⟨f1, f2⟩ := hf
  obtain ⟨xs, g1, g2⟩ := run_adds h2 s1'
  have g1 : m2.record.attributes = m1.record.attributes ++ xs := g1
  dsimp only at hle
  refine ⟨xs.take ((m2.readers i).len - m1.record.attributes.length), xs.drop ((m2.readers i).len - m1.record.attributes.length), ?_, ?_, ?_⟩
  · rw [f2, g1, List.take_append, List.take_of_length_le hle]
  · rw [List.append_assoc, List.take_append_drop]
    exact g1
  · rw [List.take_append_drop]
    exact g2

end Verif.Shared.Gather
