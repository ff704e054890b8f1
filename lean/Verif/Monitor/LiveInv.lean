import Verif.Monitor.Live
/-! Proofs for C99: the invariant of the policy monitor's goroutine. -/
namespace Verif.Monitor.Live
open Verif.Monitor

variable {B C P : Type}

/-! ### Listings and lookups -/

theorem yaml_iff (p : Str) : hasSuffix p ".yaml".toList = true ↔ Yaml p := by
  unfold hasSuffix Yaml
  exact List.isSuffixOf_iff_suffix

theorem look_mem {d : List (FileEnt B)} (hn : (d.map (·.path)).Nodup) {f : FileEnt B} (hf : f ∈ d) : look d f.path = some f.content := by
  induction d with
  | nil => cases hf
  | cons g d ih =>
    unfold look
    rw [List.map_cons, List.nodup_cons] at hn
    rcases List.mem_cons.1 hf with rfl | hf
    · rw [List.find?_cons_of_pos (by simp)]; rfl
    · have hne : g.path ≠ f.path := fun e => hn.1 (e ▸ List.mem_map_of_mem hf)
      rw [List.find?_cons_of_neg (by simpa using hne)]
      exact ih hn.2 hf

theorem mem_look {d : List (FileEnt B)} {p : Str} {v : Option B} (h : look d p = some v) : ∃ f ∈ d, f.path = p ∧ f.content = v := by
  unfold look at h
  obtain ⟨f, hf, hv⟩ := Option.map_eq_some_iff.1 h
  exact ⟨f, List.mem_of_find?_eq_some hf, by simpa using List.find?_some hf, hv⟩

theorem mem_list {d : List (FileEnt B)} (hd : Plain d) (p : Str) : p ∈ (listFilePaths d).map (·.path) ↔ Yaml p ∧ look d p ≠ none := by
  constructor
  · intro h
    obtain ⟨f, hf, rfl⟩ := List.mem_map.1 h
    obtain ⟨h1, h2⟩ := List.mem_filter.1 hf
    rw [Bool.and_eq_true] at h2
    exact ⟨(yaml_iff _).1 h2.2, by rw [look_mem hd.nodup h1]; exact fun h => by cases h⟩
  · rintro ⟨hy, hl⟩
    obtain ⟨v, hv⟩ := Option.ne_none_iff_exists'.1 hl
    obtain ⟨f, hf, rfl, -⟩ := mem_look hv
    refine List.mem_map_of_mem (List.mem_filter.2 ⟨hf, ?_⟩)
    rw [Bool.and_eq_true, beq_iff_eq]
    exact ⟨(hd.flat f hf (.inl hy)).1, (yaml_iff _).2 hy⟩

theorem mem_listRec {d : List (FileEnt B)} (hd : Plain d) (p : Str) : p ∈ (listRecursiveFilePaths d).map (·.path) ↔ Yaml p ∧ look d p ≠ none := by
  constructor
  · intro h
    obtain ⟨f, hf, rfl⟩ := List.mem_map.1 h
    obtain ⟨h1, h2⟩ := List.mem_filter.1 hf
    rw [Bool.or_eq_true] at h2
    have : Yaml f.path ∨ ".yml".toList <:+ f.path := h2.imp (yaml_iff _).1 List.isSuffixOf_iff_suffix.1
    exact ⟨(hd.flat f h1 this).2, by rw [look_mem hd.nodup h1]; exact fun h => by cases h⟩
  · rintro ⟨hy, hl⟩
    obtain ⟨v, hv⟩ := Option.ne_none_iff_exists'.1 hl
    obtain ⟨f, hf, rfl, -⟩ := mem_look hv
    refine List.mem_map_of_mem (List.mem_filter.2 ⟨hf, ?_⟩)
    rw [Bool.or_eq_true]
    exact .inl ((yaml_iff _).2 hy)

theorem list_nodup {d : List (FileEnt B)} (hd : Plain d) : ((listFilePaths d).map (·.path)).Nodup := ((List.filter_sublist).map _).nodup hd.nodup

theorem listRec_nodup {d : List (FileEnt B)} (hd : Plain d) : ((listRecursiveFilePaths d).map (·.path)).Nodup := ((List.filter_sublist).map _).nodup hd.nodup

theorem lookup_snoc {V : Type} (l : List (Str × V)) (k p : Str) (v : V) : (l ++ [(k, v)]).lookup p = if (l.lookup p).isSome then l.lookup p else if p = k then some v else none := by
  induction l with
  | nil =>
    rw [List.nil_append, List.lookup_cons]
    change _ = if p = k then some v else none
    by_cases h : p = k
    · rw [if_pos h, show (p == k) = true by simpa using h]
    · rw [if_neg h, show (p == k) = false by simpa using h]; rfl
  | cons a l ih =>
    rw [List.cons_append, List.lookup_cons, List.lookup_cons]
    cases p == a.1 with
    | true => rfl
    | false => exact ih

theorem lookup_none_iff {V : Type} (l : List (Str × V)) (p : Str) : l.lookup p = none ↔ p ∉ l.map Prod.fst := by
  induction l with
  | nil => simp
  | cons a l ih =>
    rw [List.lookup_cons, List.map_cons, List.mem_cons]
    cases h : p == a.1 with
    | true =>
      constructor
      · intro h; cases h
      · intro h'; exact absurd (.inl (by simpa using h)) h'
    | false =>
      change l.lookup p = none ↔ _
      rw [ih]
      have : p ≠ a.1 := by simpa using h
      constructor
      · rintro h1 (h2 | h2)
        · exact this h2
        · exact h1 h2
      · intro h1 h2; exact h1 (.inr h2)

/-! ### The invariant -/

section
variable (sha : B → C) (age : Str → Option (Option B) → Nat)

/-- `rc` is what the remembered checksums are of. -/
def Knows (pol : List (Str × C)) (rc : Str → Option (Option B)) : Prop := ∀ p, Yaml p → rc p ≠ some none ∧ pol.lookup p = (rc p).join.map sha

/-- `gc` is what the paths held when read for the compiler, except those of `todo`; each was listed before. -/
structure GotBut (todo : List Str) (rc gc : Str → Option (Option B)) (dir : List (FileEnt B)) (got : List (Str × Option B)) : Prop where
  nodup : (got.map Prod.fst).Nodup
  tnodup : todo.Nodup
  yaml : ∀ e ∈ got, Yaml e.1
  left : ∀ p ∈ todo, Yaml p ∧ got.lookup p = none ∧ ∃ x, x ≠ none ∧ age p (rc p) ≤ age p x ∧ age p x ≤ age p (look dir p)
  done : ∀ p, Yaml p → p ∉ todo → age p (rc p) ≤ age p (gc p) ∧ age p (gc p) ≤ age p (look dir p) ∧
    (∀ v, got.lookup p = some v → v = (gc p).join ∧ ∃ x, x ≠ none ∧ age p (rc p) ≤ age p x ∧ age p x ≤ age p (gc p)) ∧ (got.lookup p = none → gc p = none)

/-- The checksums just taken. -/
structure Fresh (dir : List (FileEnt B)) (q : List FsEvent) (pol : List (Str × C)) (rc : Str → Option (Option B)) : Prop where
  knows : Knows sha pol rc
  some : ∃ p, Yaml p ∧ rc p ≠ none
  order : ∀ p, Yaml p → age p (rc p) ≤ age p (look dir p)
  calm : Calm q → ∀ p, Yaml p → rc p = look dir p

/-- Checksums being taken. -/
structure Sums (dir : List (FileEnt B)) (q : List FsEvent) (pol : List (Str × C)) (todo : List Str) (ch : Bool) (new : List (Str × C)) (rc : Str → Option (Option B)) : Prop where
  done : ∀ p, Yaml p → p ∉ todo → rc p ≠ some none ∧ new.lookup p = (rc p).join.map sha ∧ age p (rc p) ≤ age p (look dir p) ∧ (Calm q → rc p = look dir p)
  left : ∀ p ∈ todo, Yaml p ∧ new.lookup p = none ∧ (Calm q → look dir p ≠ none)
  nodup : (new.map Prod.fst).Nodup
  tnodup : todo.Nodup
  yaml : ∀ e ∈ new, Yaml e.1
  flag : ch = false → ∀ e ∈ new, pol.lookup e.1 = some e.2
  ne : todo ≠ [] ∨ new ≠ []

/-- Between rounds: nothing remembered; or something remembered that some file has left for good; or what was remembered is older than what the latest run of the compiler read. -/
def Att (tr : List (Obs B P)) (dir : List (FileEnt B)) (pol : List (Str × C)) : Prop :=
  pol = [] ∨ (∃ rc, Knows sha pol rc ∧ ∃ p, Yaml p ∧ age p (rc p) < age p (look dir p)) ∨
    ∃ rc gc got r room, Knows sha pol rc ∧ lastAttempt tr = some (got, r, room) ∧ GotBut age [] rc gc dir got

/-- With no event waiting, what is remembered is up to date. -/
def Quiet (tr : List (Obs B P)) (dir : List (FileEnt B)) (q : List FsEvent) (pol : List (Str × C)) : Prop :=
  Obs.listed ∈ tr → Calm q → ¬ Usable dir ∨ ∀ p, Yaml p → pol.lookup p = (look dir p).join.map sha

/-- After an error. -/
def Failed (dir : List (FileEnt B)) (q : List FsEvent) (pol : List (Str × C)) : Prop := pol = [] ∧ (Calm q → ¬ Usable dir)

def PhaseInv (tr : List (Obs B P)) (dir : List (FileEnt B)) (q : List FsEvent) (pol : List (Str × C)) : Phase B C → Prop
  | .off => Att sha age tr dir pol ∧ Quiet sha tr dir q pol
  | .idle => Att sha age tr dir pol ∧ Quiet sha tr dir q pol
  | .draining _ y => Att sha age tr dir pol ∧ (y = 0 → Quiet sha tr dir q pol)
  | .listing => Att sha age tr dir pol
  | .summing todo ch new => Att sha age tr dir pol ∧ ∃ rc, Sums sha age dir q pol todo ch new rc
  | .asking => Failed dir q pol ∨ ∃ rc, Fresh sha age dir q pol rc
  | .opening => Failed dir q pol ∨ ∃ rc, Fresh sha age dir q pol rc
  | .reading todo got => Failed dir q pol ∨ ∃ rc, Fresh sha age dir q pol rc ∧ ∃ gc, GotBut age todo rc gc dir got
  | .ended => True

/-- Before the directory is watched nothing happens. -/
def Asleep (tr : List (Obs B P)) (s : LSt B C P) : Prop :=
  Obs.listed ∉ tr ∧ s.queue = [] ∧ s.policies = [] ∧ (s.phase = .off ∨ s.phase = .idle ∨ s.phase = .ended)

structure Inv (tr : List (Obs B P)) (s : LSt B C P) : Prop where
  plain : Plain s.dir
  nodup : (s.policies.map Prod.fst).Nodup
  asleep : s.watching = false → Asleep tr s
  phase : PhaseInv sha age tr s.dir s.queue s.policies s.phase

end

variable {sha : B → C} {age : Str → Option (Option B) → Nat}

/-! ### Changes of the directory -/

theorem relevant {e : FsEvent} (hy : Yaml e.name) (ho : e.op = opCreate ∨ e.op = opWrite ∨ e.op = opRemove ∨ e.op = opRename) : hasModifiedYaml e = true := by
  unfold hasModifiedYaml
  rw [(yaml_iff _).2 hy]
  rcases ho with h | h | h | h <;> rw [h] <;> rfl

theorem calm_same {d d' : List (FileEnt B)} {q es : List FsEvent} (hr : Reported d d' es) (hc : Calm (q ++ es)) : Calm q ∧ ∀ p, Yaml p → look d p = look d' p := by
  refine ⟨fun e he => hc e (List.mem_append_left _ he), fun p hp => Classical.byContradiction fun hne => ?_⟩
  obtain ⟨e, he, rfl, ho⟩ := hr p hp hne
  have := hc e (List.mem_append_right _ he)
  rw [relevant hp ho] at this
  cases this

theorem usable_same {d d' : List (FileEnt B)} (h : ∀ p, Yaml p → look d p = look d' p) : Usable d ↔ Usable d' := by
  constructor
  · rintro ⟨⟨p, b, hy, hl⟩, hr⟩
    exact ⟨⟨p, b, hy, (h p hy).symm.trans hl⟩, fun p hy => by rw [← h p hy]; exact hr p hy⟩
  · rintro ⟨⟨p, b, hy, hl⟩, hr⟩
    exact ⟨⟨p, b, hy, (h p hy).trans hl⟩, fun p hy => by rw [h p hy]; exact hr p hy⟩

theorem gotBut_change {d d' : List (FileEnt B)} (hf : Forward age d d') {todo : List Str} {rc gc : Str → Option (Option B)} {got : List (Str × Option B)} (h : GotBut age todo rc gc d got) :
    GotBut age todo rc gc d' got := by
  refine ⟨h.nodup, h.tnodup, h.yaml, ?_, ?_⟩
  · intro p hp
    obtain ⟨h1, h2, x, h3, h4, h5⟩ := h.left p hp
    exact ⟨h1, h2, x, h3, h4, Nat.le_trans h5 (hf p h1)⟩
  · intro p hy hp
    obtain ⟨h1, h2, h3⟩ := h.done p hy hp
    exact ⟨h1, Nat.le_trans h2 (hf p hy), h3⟩

theorem fresh_change {d d' : List (FileEnt B)} {q es : List FsEvent} (hr : Reported d d' es) (hf : Forward age d d') {pol : List (Str × C)} {rc : Str → Option (Option B)}
    (h : Fresh sha age d q pol rc) : Fresh sha age d' (q ++ es) pol rc := by
  refine ⟨h.knows, h.some, fun p hy => Nat.le_trans (h.order p hy) (hf p hy), fun hc p hy => ?_⟩
  obtain ⟨h1, h2⟩ := calm_same hr hc
  exact (h.calm h1 p hy).trans (h2 p hy)

theorem failed_change {d d' : List (FileEnt B)} {q es : List FsEvent} (hr : Reported d d' es) {pol : List (Str × C)} (h : Failed d q pol) : Failed d' (q ++ es) pol := by
  refine ⟨h.1, fun hc => ?_⟩
  obtain ⟨h1, h2⟩ := calm_same hr hc
  rw [← usable_same h2]
  exact h.2 h1

theorem sums_change {d d' : List (FileEnt B)} {q es : List FsEvent} (hr : Reported d d' es) (hf : Forward age d d') {pol : List (Str × C)} {todo : List Str} {ch : Bool} {new : List (Str × C)}
    {rc : Str → Option (Option B)} (h : Sums sha age d q pol todo ch new rc) : Sums sha age d' (q ++ es) pol todo ch new rc := by
  refine ⟨?_, ?_, h.nodup, h.tnodup, h.yaml, h.flag, h.ne⟩
  · intro p hy hp
    obtain ⟨h1, h2, h3, h4⟩ := h.done p hy hp
    refine ⟨h1, h2, Nat.le_trans h3 (hf p hy), fun hc => ?_⟩
    obtain ⟨c1, c2⟩ := calm_same hr hc
    exact (h4 c1).trans (c2 p hy)
  · intro p hp
    obtain ⟨h1, h2, h3⟩ := h.left p hp
    refine ⟨h1, h2, fun hc => ?_⟩
    obtain ⟨c1, c2⟩ := calm_same hr hc
    rw [← c2 p h1]
    exact h3 c1

theorem last_other {tr : List (Obs B P)} {o : Obs B P} (ho : ∀ got r room, o ≠ .attempted got r room) : lastAttempt (tr ++ [o]) = lastAttempt tr := by
  have : attemptOf o = none := by
    cases o with
    | attempted got r room => exact absurd rfl (ho got r room)
    | _ => rfl
  unfold lastAttempt
  rw [List.filterMap_append, List.filterMap_cons_none this, List.filterMap_nil, List.append_nil]

theorem last_attempted {tr : List (Obs B P)} {got : List (Str × Option B)} {r : Option P} {room : Bool} : lastAttempt (tr ++ [.attempted got r room]) = some (got, r, room) := by
  unfold lastAttempt
  rw [List.filterMap_append]
  change (_ ++ [(got, r, room)]).getLast? = _
  rw [List.getLast?_concat]

theorem att_change {tr : List (Obs B P)} {d d' : List (FileEnt B)} (es : List FsEvent) (hf : Forward age d d') {pol : List (Str × C)} (h : Att sha age tr d pol) :
    Att sha age (tr ++ [.changed d d' es]) d' pol := by
  rcases h with h | ⟨rc, h1, p, h2, h3⟩ | ⟨rc, gc, got, r, room, h1, h2, h3⟩
  · exact .inl h
  · exact .inr (.inl ⟨rc, h1, p, h2, Nat.lt_of_lt_of_le h3 (hf p h2)⟩)
  · refine .inr (.inr ⟨rc, gc, got, r, room, h1, ?_, gotBut_change hf h3⟩)
    rw [last_other (fun _ _ _ h => by cases h)]
    exact h2

theorem quiet_change {tr : List (Obs B P)} {d d' : List (FileEnt B)} {q es : List FsEvent} (hr : Reported d d' es) {pol : List (Str × C)} (h : Quiet sha tr d q pol) :
    Quiet sha (tr ++ [.changed d d' es]) d' (q ++ es) pol := by
  intro hl hc
  obtain ⟨c1, c2⟩ := calm_same hr hc
  have hl : Obs.listed ∈ tr := by
    rcases List.mem_append.1 hl with hl | hl
    · exact hl
    · cases List.mem_singleton.1 hl
  rcases h hl c1 with h | h
  · exact .inl (by rw [← usable_same c2]; exact h)
  · refine .inr fun p hy => ?_
    rw [← c2 p hy]
    exact h p hy

theorem att_other {tr : List (Obs B P)} {o : Obs B P} (ho : ∀ got r room, o ≠ .attempted got r room) {d : List (FileEnt B)} {pol : List (Str × C)} (h : Att sha age tr d pol) :
    Att sha age (tr ++ [o]) d pol := by
  rcases h with h | h | ⟨rc, gc, got, r, room, h1, h2, h3⟩
  · exact .inl h
  · exact .inr (.inl h)
  · exact .inr (.inr ⟨rc, gc, got, r, room, h1, (last_other ho).trans h2, h3⟩)

theorem quiet_other {tr : List (Obs B P)} {o : Obs B P} (ho : o ≠ .listed) {d : List (FileEnt B)} {q : List FsEvent} {pol : List (Str × C)} (h : Quiet sha tr d q pol) :
    Quiet sha (tr ++ [o]) d q pol := by
  intro hl
  refine h ?_
  rcases List.mem_append.1 hl with hl | hl
  · exact hl
  · exact absurd (List.mem_singleton.1 hl).symm ho

theorem phaseInv_change {tr : List (Obs B P)} {d d' : List (FileEnt B)} {q es : List FsEvent} (hr : Reported d d' es) (hf : Forward age d d') {pol : List (Str × C)} {ph : Phase B C}
    (h : PhaseInv sha age tr d q pol ph) : PhaseInv sha age (tr ++ [.changed d d' es]) d' (q ++ es) pol ph := by
  cases ph with
  | off => exact ⟨att_change es hf h.1, quiet_change hr h.2⟩
  | idle => exact ⟨att_change es hf h.1, quiet_change hr h.2⟩
  | draining i y => exact ⟨att_change es hf h.1, fun hy => quiet_change hr (h.2 hy)⟩
  | listing => exact att_change es hf h
  | summing todo ch new =>
    obtain ⟨h1, rc, h2⟩ := h
    exact ⟨att_change es hf h1, rc, sums_change hr hf h2⟩
  | asking =>
    rcases h with h | ⟨rc, h⟩
    · exact .inl (failed_change hr h)
    · exact .inr ⟨rc, fresh_change hr hf h⟩
  | opening =>
    rcases h with h | ⟨rc, h⟩
    · exact .inl (failed_change hr h)
    · exact .inr ⟨rc, fresh_change hr hf h⟩
  | reading todo got =>
    rcases h with h | ⟨rc, h, gc, h'⟩
    · exact .inl (failed_change hr h)
    · exact .inr ⟨rc, fresh_change hr hf h, gc, gotBut_change hf h'⟩
  | ended => trivial

/-- Other observations that are neither listings nor runs of the compiler. -/
theorem phaseInv_other {tr : List (Obs B P)} {o : Obs B P} (ho : ∀ got r room, o ≠ .attempted got r room) (ho' : o ≠ .listed) {d : List (FileEnt B)} {q : List FsEvent} {pol : List (Str × C)}
    {ph : Phase B C} (h : PhaseInv sha age tr d q pol ph) : PhaseInv sha age (tr ++ [o]) d q pol ph := by
  cases ph with
  | off => exact ⟨att_other ho h.1, quiet_other ho' h.2⟩
  | idle => exact ⟨att_other ho h.1, quiet_other ho' h.2⟩
  | draining i y => exact ⟨att_other ho h.1, fun hy => quiet_other ho' (h.2 hy)⟩
  | listing => exact att_other ho h
  | summing todo ch new => exact ⟨att_other ho h.1, h.2⟩
  | asking => exact h
  | opening => exact h
  | reading todo got => exact h
  | ended => trivial

/-! ### Steps of the goroutine -/

theorem calm_cons {e : FsEvent} {q : List FsEvent} : Calm (e :: q) ↔ hasModifiedYaml e = false ∧ Calm q := by
  unfold Calm
  simp

theorem count_zero {e : FsEvent} {n : Nat} (h : count e n = 0) : hasModifiedYaml e = false ∧ n = 0 := by
  unfold count at h
  split at h
  · cases h
  · rename_i h'
    exact ⟨by simpa using h', h⟩

theorem quiet_recv {tr : List (Obs B P)} {d : List (FileEnt B)} {e : FsEvent} {q : List FsEvent} {pol : List (Str × C)} (he : hasModifiedYaml e = false) (h : Quiet sha tr d (e :: q) pol) :
    Quiet sha (tr ++ [.received e]) d q pol := by
  intro hl hc
  refine h ?_ (calm_cons.2 ⟨he, hc⟩)
  rcases List.mem_append.1 hl with hl | hl
  · exact hl
  · cases List.mem_singleton.1 hl

theorem fresh_knows {d : List (FileEnt B)} {q : List FsEvent} {pol : List (Str × C)} {rc : Str → Option (Option B)} (h : Fresh sha age d q pol rc) (tr : List (Obs B P)) : Quiet sha tr d q pol := by
  intro _ hc
  refine .inr fun p hy => ?_
  rw [(h.knows p hy).2, h.calm hc p hy]

theorem failed_quiet {d : List (FileEnt B)} {q : List FsEvent} {pol : List (Str × C)} (h : Failed d q pol) (tr : List (Obs B P)) : Quiet sha tr d q pol := fun _ hc => .inl (h.2 hc)

/-- A directory without policy files makes a fresh set of checksums obsolete. -/
theorem fresh_empty (inj : ∀ p x y, age p x = age p y → x = y) {d : List (FileEnt B)} {q : List FsEvent} {pol : List (Str × C)} {rc : Str → Option (Option B)} (h : Fresh sha age d q pol rc)
    (he : ∀ p, Yaml p → look d p = none) (tr : List (Obs B P)) : Att sha age tr d pol := by
  obtain ⟨p, hy, hp⟩ := h.some
  refine .inr (.inl ⟨rc, h.knows, p, hy, ?_⟩)
  refine Nat.lt_of_le_of_ne (h.order p hy) fun e => ?_
  exact hp ((inj p _ _ e).trans (he p hy))

theorem sums_read {d : List (FileEnt B)} {q : List FsEvent} {pol : List (Str × C)} {p : Str} {ps : List Str} {ch : Bool} {new : List (Str × C)} {rc : Str → Option (Option B)} [DecidableEq C]
    (h : Sums sha age d q pol (p :: ps) ch new rc) {b : B} (hb : look d p = some (some b)) :
    ∃ rc', Sums sha age d q pol ps (flagAfter pol p (sha b) ch) (new ++ [(p, sha b)]) rc' := by
  obtain ⟨hy, hnew, -⟩ := h.left p List.mem_cons_self
  have hnd := List.nodup_cons.1 h.tnodup
  classical
  refine ⟨fun k => if k = p then look d p else rc k, ⟨?_, ?_, ?_, hnd.2, ?_, ?_, .inr (by simp)⟩⟩
  · intro k hk hkt
    by_cases e : k = p
    · subst e
      rw [if_pos rfl, hb, lookup_snoc, hnew, if_neg (by simp), if_pos rfl]
      exact ⟨fun h => by simp at h, rfl, Nat.le_refl _, fun _ => rfl⟩
    · obtain ⟨h1, h2, h3, h4⟩ := h.done k hk (fun hm => (List.mem_cons.1 hm).elim e hkt)
      rw [if_neg e, lookup_snoc, if_neg e]
      refine ⟨h1, ?_, h3, h4⟩
      rw [← h2]
      cases new.lookup k <;> rfl
  · intro k hk
    obtain ⟨h1, h2, h3⟩ := h.left k (List.mem_cons_of_mem _ hk)
    refine ⟨h1, ?_, h3⟩
    rw [lookup_snoc, h2, if_neg (by simp), if_neg]
    intro e
    exact hnd.1 (e ▸ hk)
  · rw [List.map_append, List.map_cons, List.map_nil]
    refine List.nodup_append.2 ⟨h.nodup, by simp, ?_⟩
    intro a ha b' hb' e
    rw [List.mem_singleton.1 hb'] at e
    subst e
    exact (lookup_none_iff _ _).1 hnew ha
  · intro e he
    rcases List.mem_append.1 he with he | he
    · exact h.yaml e he
    · rw [List.mem_singleton.1 he]; exact hy
  · intro hf e he
    have hp : ch = false ∧ pol.lookup p = some (sha b) := by
      unfold flagAfter at hf
      cases hl : pol.lookup p with
      | none => rw [hl] at hf; cases hf
      | some v =>
        rw [hl] at hf
        dsimp only at hf
        split at hf
        · cases hf
        · rename_i hv
          exact ⟨hf, by rw [Classical.not_not.1 hv]⟩
    rcases List.mem_append.1 he with he | he
    · exact h.flag hp.1 e he
    · rw [List.mem_singleton.1 he]; exact hp.2

theorem sums_done [DecidableEq C] {d : List (FileEnt B)} {q : List FsEvent} {pol : List (Str × C)} {ch : Bool} {new : List (Str × C)} {rc : Str → Option (Option B)} (h : Sums sha age d q pol [] ch new rc) :
    Fresh sha age d q new rc := by
  have hk : Knows sha new rc := fun p hy => ⟨(h.done p hy (by simp)).1, (h.done p hy (by simp)).2.1⟩
  refine ⟨hk, ?_, fun p hy => (h.done p hy (by simp)).2.2.1, fun hc p hy => (h.done p hy (by simp)).2.2.2 hc⟩
  rcases h.ne with h' | h'
  · exact absurd rfl h'
  · obtain ⟨e, he⟩ := List.exists_mem_of_ne_nil _ h'
    refine ⟨e.1, h.yaml e he, fun hn => ?_⟩
    have := (hk e.1 (h.yaml e he)).2
    rw [lookup_of_mem h.nodup he, hn] at this
    cases this

theorem got_read {d : List (FileEnt B)} {rc gc : Str → Option (Option B)} {p : Str} {ps : List Str} {got : List (Str × Option B)} (ho : ∀ k, Yaml k → age k (rc k) ≤ age k (look d k))
    (h : GotBut age (p :: ps) rc gc d got) : ∃ gc', GotBut age ps rc gc' d (got ++ [(p, (look d p).join)]) := by
  obtain ⟨hy, hgot, x, hx, hx1, hx2⟩ := h.left p List.mem_cons_self
  have hnd := List.nodup_cons.1 h.tnodup
  classical
  refine ⟨fun k => if k = p then look d p else gc k, ⟨?_, hnd.2, ?_, ?_, ?_⟩⟩
  · rw [List.map_append, List.map_cons, List.map_nil]
    refine List.nodup_append.2 ⟨h.nodup, by simp, ?_⟩
    intro a ha b' hb' e
    rw [List.mem_singleton.1 hb'] at e
    subst e
    exact (lookup_none_iff _ _).1 hgot ha
  · intro e he
    rcases List.mem_append.1 he with he | he
    · exact h.yaml e he
    · rw [List.mem_singleton.1 he]; exact hy
  · intro k hk
    obtain ⟨h1, h2, h3⟩ := h.left k (List.mem_cons_of_mem _ hk)
    refine ⟨h1, ?_, h3⟩
    rw [lookup_snoc, h2, if_neg (by simp), if_neg]
    intro e
    exact hnd.1 (e ▸ hk)
  · intro k hk hkt
    by_cases e : k = p
    · subst e
      rw [if_pos rfl, lookup_snoc, hgot, if_neg (by simp), if_pos rfl]
      refine ⟨ho k hk, Nat.le_refl _, ?_, fun h => by cases h⟩
      intro v hv
      exact ⟨(Option.some.inj hv).symm, x, hx, hx1, hx2⟩
    · have := h.done k hk (fun hm => (List.mem_cons.1 hm).elim e hkt)
      rw [if_neg e, lookup_snoc, if_neg e]
      have e2 : (if (got.lookup k).isSome = true then got.lookup k else none) = got.lookup k := by
        cases got.lookup k <;> rfl
      rw [e2]
      exact this

theorem same_lookup [DecidableEq C] {pol new : List (Str × C)} (h1 : (pol.map Prod.fst).Nodup) (h2 : (new.map Prod.fst).Nodup) (hin : ∀ e ∈ new, pol.lookup e.1 = some e.2) (hl : pol.length = new.length) :
    ∀ k, pol.lookup k = new.lookup k := by
  exact (sameMap_iff h1 h2).2 ⟨hin, hl⟩

theorem knows_same {pol new : List (Str × C)} (h : ∀ k, pol.lookup k = new.lookup k) {rc : Str → Option (Option B)} (hk : Knows sha pol rc) : Knows sha new rc :=
  fun p hy => ⟨(hk p hy).1, (h p).symm.trans (hk p hy).2⟩

theorem att_same {pol new : List (Str × C)} (h : ∀ k, pol.lookup k = new.lookup k) (hl : pol.length = new.length) {tr : List (Obs B P)} {d : List (FileEnt B)} (ha : Att sha age tr d pol) :
    Att sha age tr d new := by
  rcases ha with ha | ⟨rc, h1, h2⟩ | ⟨rc, gc, got, r, room, h1, h2, h3⟩
  · rw [ha] at hl
    exact .inl (List.length_eq_zero_iff.1 hl.symm)
  · exact .inr (.inl ⟨rc, knows_same h h1, h2⟩)
  · exact .inr (.inr ⟨rc, gc, got, r, room, knows_same h h1, h2, h3⟩)

theorem inv_step [DecidableEq C] (compile : List (Str × Option B) → Option P) (inj : ∀ p x y, age p x = age p y → x = y) {tr : List (Obs B P)} {s s' : LSt B C P} {l : Label B} {os : List (Obs B P)}
    (hi : Inv sha age tr s) (hs : step sha compile s l = some (s', os)) (hreg : Regular age (tr ++ os)) : Inv sha age (tr ++ os) s' := by
  cases l with
  | change d es =>
    cases hs
    obtain ⟨h1, h2, h3⟩ := hreg _ _ _ (List.mem_append_right _ (List.mem_singleton.2 rfl))
    cases hw : s.watching with
    | true =>
      have hp := phaseInv_change h2 h3 hi.phase
      refine ⟨h1, hi.nodup, (fun h => by cases h), ?_⟩
      exact hp
    | false =>
      obtain ⟨a1, a2, a3, a4⟩ := hi.asleep hw
      have hl : Obs.listed ∉ tr ++ [Obs.changed s.dir d es] := by
        intro hm
        rcases List.mem_append.1 hm with hm | hm
        · exact a1 hm
        · cases List.mem_singleton.1 hm
      refine ⟨h1, hi.nodup, fun _ => ⟨hl, ?_, a3, a4⟩, ?_⟩
      · change s.queue ++ _ = []
        rw [a2]; rfl
      · dsimp only
        rcases a4 with a4 | a4 | a4 <;> rw [a4, a3]
        · exact ⟨.inl rfl, fun h => absurd h hl⟩
        · exact ⟨.inl rfl, fun h => absurd h hl⟩
        · trivial
  | start =>
    unfold step at hs
    cases hp : s.phase with
    | off =>
      rw [hp] at hs; cases hs
      have := hi.phase; rw [hp] at this
      rw [List.append_nil]
      refine ⟨hi.plain, hi.nodup, fun h => ?_, this⟩
      obtain ⟨a1, a2, a3, -⟩ := hi.asleep h
      exact ⟨a1, a2, a3, .inr (.inl rfl)⟩
    | _ => rw [hp] at hs; cases hs
  | add =>
    unfold step at hs
    dsimp only at hs
    split at hs
    · cases hs
      rw [List.append_nil]
      exact ⟨hi.plain, hi.nodup, fun h => by (cases h), hi.phase⟩
    · cases hs
  | recv =>
    unfold step at hs
    cases hp : s.phase with
    | idle =>
      cases hq : s.queue with
      | nil => rw [hp, hq] at hs; cases hs
      | cons e q =>
        rw [hp, hq] at hs; cases hs
        have h := hi.phase; rw [hp, hq] at h
        refine ⟨hi.plain, hi.nodup, fun hw => ?_, ?_⟩
        · have := (hi.asleep hw).2.1; rw [hq] at this; cases this
        · exact ⟨att_other (fun _ _ _ h => by cases h) h.1, fun h0 => quiet_recv (count_zero h0).1 h.2⟩
    | _ => cases hq : s.queue <;> rw [hp, hq] at hs <;> cases hs
  | drain =>
    unfold step at hs
    cases hp : s.phase with
    | draining i y =>
      cases hq : s.queue with
      | nil => rw [hp, hq] at hs; cases hs
      | cons e q =>
        rw [hp, hq] at hs; cases hs
        have h := hi.phase; rw [hp, hq] at h
        refine ⟨hi.plain, hi.nodup, fun hw => ?_, ?_⟩
        · have := (hi.asleep hw).2.1; rw [hq] at this; cases this
        · exact ⟨att_other (fun _ _ _ h => by cases h) h.1, fun h0 => quiet_recv (count_zero h0).1 (h.2 (count_zero h0).2)⟩
    | _ => cases hq : s.queue <;> rw [hp, hq] at hs <;> cases hs
  | poll =>
    unfold step at hs
    cases hp : s.phase with
    | draining i y =>
      rw [hp] at hs; cases hs
      have h := hi.phase; rw [hp] at h
      refine ⟨hi.plain, hi.nodup, fun hw => ?_, ?_⟩
      · rcases (hi.asleep hw).2.2.2 with h | h | h <;> rw [hp] at h <;> cases h
      · dsimp only
        have ha : Att sha age (tr ++ [Obs.polled]) s.dir s.policies := att_other (fun _ _ _ h => by cases h) h.1
        split
        · exact ⟨ha, fun h0 => quiet_other (fun h => by cases h) (h.2 h0)⟩
        · split
          · exact ha
          · rename_i hy
            exact ⟨ha, quiet_other (fun h => by cases h) (h.2 (by omega))⟩
    | _ => rw [hp] at hs; cases hs
  | list =>
    unfold step at hs
    cases hp : s.phase with
    | listing =>
      rw [hp] at hs; dsimp only at hs
      have h := hi.phase; rw [hp] at h
      have hw : s.watching = false → False := fun hw => by rcases (hi.asleep hw).2.2.2 with h | h | h <;> rw [hp] at h <;> cases h
      have hm := mem_list hi.plain
      have hnd := list_nodup hi.plain
      cases hl : (listFilePaths s.dir).map (·.path) with
      | nil =>
        rw [hl] at hs hm; cases hs
        refine ⟨hi.plain, List.nodup_nil, fun h => (hw h).elim, .inl rfl, fun _ _ => .inl ?_⟩
        rintro ⟨⟨p, b, hy, hb⟩, -⟩
        have := (hm p).2 ⟨hy, by rw [hb]; exact fun h => by cases h⟩
        cases this
      | cons p ps =>
        rw [hl] at hs hm hnd; cases hs
        refine ⟨hi.plain, hi.nodup, fun h => (hw h).elim, att_other (fun _ _ _ h => by cases h) h, fun _ => none, ⟨?_, ?_, List.nodup_nil, hnd, ?_, ?_, .inl (by simp)⟩⟩
        · intro k hk hkt
          have hn : look s.dir k = none := Classical.byContradiction fun hne => hkt ((hm k).2 ⟨hk, hne⟩)
          rw [hn]
          exact ⟨(fun h => by cases h), rfl, Nat.le_refl _, fun _ => rfl⟩
        · intro k hk
          exact ⟨((hm k).1 hk).1, rfl, fun _ => ((hm k).1 hk).2⟩
        · intro e he; cases he
        · intro _ e he; cases he
    | _ => rw [hp] at hs; cases hs
  | sum =>
    unfold step at hs
    cases hp : s.phase with
    | summing todo ch new =>
      rw [hp] at hs
      have h := hi.phase; rw [hp] at h
      obtain ⟨ha, rc, hsum⟩ := h
      have hw : s.watching = false → False := fun hw => by rcases (hi.asleep hw).2.2.2 with h | h | h <;> rw [hp] at h <;> cases h
      cases todo with
      | nil =>
        cases hs
        rw [List.append_nil]
        have hf := sums_done hsum
        refine ⟨hi.plain, hsum.nodup, fun h => (hw h).elim, ?_⟩
        dsimp only
        split
        · exact .inr ⟨rc, hf⟩
        · rename_i hn
          have hlen : s.policies.length = new.length := Classical.byContradiction fun h => hn (.inl h)
          have hch : ch = false := by
            cases ch with
            | false => rfl
            | true => exact absurd (.inr rfl) hn
          have hsame := same_lookup hi.nodup hsum.nodup (hsum.flag hch) hlen
          exact ⟨att_same hsame hlen ha, fresh_knows hf tr⟩
      | cons p ps =>
        dsimp only at hs
        have hy := hsum.left p List.mem_cons_self
        cases hl : look s.dir p with
        | none =>
          rw [hl] at hs; cases hs
          rw [List.append_nil]
          refine ⟨hi.plain, List.nodup_nil, fun h => (hw h).elim, .inl ⟨rfl, fun hc => ?_⟩⟩
          exact absurd hl (hy.2.2 hc)
        | some v =>
          cases v with
          | none =>
            rw [hl] at hs; cases hs
            rw [List.append_nil]
            refine ⟨hi.plain, List.nodup_nil, fun h => (hw h).elim, .inl ⟨rfl, fun hc hu => ?_⟩⟩
            exact hu.2 p hy.1 hl
          | some b =>
            rw [hl] at hs; cases hs
            rw [List.append_nil]
            refine ⟨hi.plain, hi.nodup, fun h => (hw h).elim, ha, ?_⟩
            exact sums_read hsum hl
    | _ => rw [hp] at hs; cases hs
  | ask =>
    unfold step at hs
    cases hp : s.phase with
    | asking =>
      rw [hp] at hs; cases hs
      have h := hi.phase; rw [hp] at h
      rw [List.append_nil]
      have hw : s.watching = false → False := fun hw => by rcases (hi.asleep hw).2.2.2 with h | h | h <;> rw [hp] at h <;> cases h
      refine ⟨hi.plain, hi.nodup, fun h => (hw h).elim, ?_⟩
      dsimp only
      split
      · rename_i he
        have he : ∀ p, Yaml p → look s.dir p = none := by
          intro p hy
          refine Classical.byContradiction fun hne => ?_
          have := (mem_list hi.plain p).2 ⟨hy, hne⟩
          rw [List.isEmpty_iff.1 he] at this
          cases this
        rcases h with h | ⟨rc, h⟩
        · exact ⟨.inl h.1, failed_quiet h tr⟩
        · exact ⟨fresh_empty inj h he tr, fresh_knows h tr⟩
      · exact h
    | _ => rw [hp] at hs; cases hs
  | opens =>
    unfold step at hs
    cases hp : s.phase with
    | opening =>
      rw [hp] at hs; dsimp only at hs
      have h := hi.phase; rw [hp] at h
      have hw : s.watching = false → False := fun hw => by rcases (hi.asleep hw).2.2.2 with h | h | h <;> rw [hp] at h <;> cases h
      have hm := mem_listRec hi.plain
      have hnd := listRec_nodup hi.plain
      cases hl : (listRecursiveFilePaths s.dir).map (·.path) with
      | nil =>
        rw [hl] at hs hm; cases hs
        rw [List.append_nil]
        have he : ∀ p, Yaml p → look s.dir p = none := by
          intro p hy
          refine Classical.byContradiction fun hne => ?_
          have := (hm p).2 ⟨hy, hne⟩
          cases this
        refine ⟨hi.plain, hi.nodup, fun h => (hw h).elim, ?_⟩
        rcases h with h | ⟨rc, h⟩
        · exact ⟨.inl h.1, failed_quiet h tr⟩
        · exact ⟨fresh_empty inj h he tr, fresh_knows h tr⟩
      | cons p ps =>
        rw [hl] at hs hm hnd; cases hs
        rw [List.append_nil]
        refine ⟨hi.plain, hi.nodup, fun h => (hw h).elim, ?_⟩
        rcases h with h | ⟨rc, h⟩
        · exact .inl h
        · refine .inr ⟨rc, h, fun _ => none, ⟨List.nodup_nil, hnd, (fun e he => by cases he), ?_, ?_⟩⟩
          · intro k hk
            exact ⟨((hm k).1 hk).1, rfl, look s.dir k, ((hm k).1 hk).2, h.order k ((hm k).1 hk).1, Nat.le_refl _⟩
          · intro k hk hkt
            have hn : look s.dir k = none := Classical.byContradiction fun hne => hkt ((hm k).2 ⟨hk, hne⟩)
            have := h.order k hk
            rw [hn] at this ⊢
            exact ⟨this, Nat.le_refl _, (fun v hv => by cases hv), fun _ => rfl⟩
    | _ => rw [hp] at hs; cases hs
  | read =>
    unfold step at hs
    cases hp : s.phase with
    | reading todo got =>
      rw [hp] at hs
      have h := hi.phase; rw [hp] at h
      have hw : s.watching = false → False := fun hw => by rcases (hi.asleep hw).2.2.2 with h | h | h <;> rw [hp] at h <;> cases h
      cases todo with
      | nil =>
        have key : ∀ r room, Att sha age (tr ++ [.attempted got r room]) s.dir s.policies ∧ Quiet sha (tr ++ [.attempted got r room]) s.dir s.queue s.policies := by
          intro r room
          rcases h with h | ⟨rc, h, gc, h'⟩
          · exact ⟨.inl h.1, failed_quiet h _⟩
          · exact ⟨.inr (.inr ⟨rc, gc, got, r, room, h.knows, last_attempted, h'⟩), fresh_knows h _⟩
        dsimp only at hs
        cases hc : compile got with
        | none =>
          rw [hc] at hs; cases hs
          exact ⟨hi.plain, hi.nodup, fun h => (hw h).elim, key _ _⟩
        | some r =>
          rw [hc] at hs; dsimp only at hs
          split at hs
          · cases hs
            exact ⟨hi.plain, hi.nodup, fun h => (hw h).elim, key _ _⟩
          · cases hs
            exact ⟨hi.plain, hi.nodup, fun h => (hw h).elim, key _ _⟩
      | cons p ps =>
        cases hs
        rw [List.append_nil]
        refine ⟨hi.plain, hi.nodup, fun h => (hw h).elim, ?_⟩
        rcases h with h | ⟨rc, h, gc, h'⟩
        · exact .inl h
        · exact .inr ⟨rc, h, got_read h.order h'⟩
    | _ => rw [hp] at hs; cases hs
  | take =>
    unfold step at hs
    cases hc : s.chan with
    | nil => rw [hc] at hs; cases hs
    | cons r rs =>
      rw [hc] at hs; cases hs
      refine ⟨hi.plain, hi.nodup, fun hw => ?_, phaseInv_other (fun _ _ _ h => by cases h) (fun h => by cases h) hi.phase⟩
      obtain ⟨a1, a2, a3, a4⟩ := hi.asleep hw
      refine ⟨?_, a2, a3, a4⟩
      intro hm
      rcases List.mem_append.1 hm with hm | hm
      · exact a1 hm
      · cases List.mem_singleton.1 hm
  | stop =>
    unfold step at hs
    cases hp : s.phase with
    | idle =>
      rw [hp] at hs; cases hs
      refine ⟨hi.plain, hi.nodup, fun hw => ?_, trivial⟩
      obtain ⟨a1, a2, a3, a4⟩ := hi.asleep hw
      refine ⟨?_, a2, a3, .inr (.inr rfl)⟩
      intro hm
      rcases List.mem_append.1 hm with hm | hm
      · exact a1 hm
      · cases List.mem_singleton.1 hm
    | _ => rw [hp] at hs; cases hs

theorem inv_exec [DecidableEq C] {compile : List (Str × Option B) → Option P} (inj : ∀ p x y, age p x = age p y → x = y) {d : List (FileEnt B)} (hd : Plain d) {tr : List (Obs B P)} {s : LSt B C P}
    (h : Exec sha compile d tr s) (hreg : Regular age tr) : Inv sha age tr s := by
  induction h with
  | nil => exact ⟨hd, List.nodup_nil, fun _ => ⟨(fun h => by cases h), rfl, rfl, .inl rfl⟩, .inl rfl, (fun h => by cases h)⟩
  | snoc hx hs ih =>
    exact inv_step compile inj (ih (fun d d' es hm => hreg d d' es (List.mem_append_left _ hm))) hs hreg

end Verif.Monitor.Live
