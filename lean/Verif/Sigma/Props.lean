import Verif.Sigma.Model
import Verif.Policy.Props
import Verif.FlatRecord.Resolve
/-
C27-C30: the meaning of Sigma policies.
-/
namespace Verif.Sigma
open Verif.Decimal (Str)
open Verif.Policy
open Verif.FlatRecord (Built)

variable {R : Type u}

/-! ## C29: transformers -/

/-- C29: the flag set behaves as a set. -/
theorem flags_are_a_set (s f g : Flags) :
    ((s.set f).has g = (s.has g || f.has g)) ∧
    ((s.clear f).has f = false) ∧
    (f &&& g = NoFlags → (s.clear f).has g = s.has g ∧ (s.set f).has g = s.has g) ∧
    (f ≠ NoFlags → (s.set f).has f = true) := by
  have hset : (s.set f).has g = (s.has g || f.has g) := by
    unfold Flags.has Flags.set NoFlags
    by_cases h1 : s &&& g = 0
    · by_cases h2 : f &&& g = 0
      · have : (s ||| f) &&& g = 0 := by
          rw [BitVec.and_comm, BitVec.and_or_distrib_left, BitVec.and_comm g s, BitVec.and_comm g f, h1, h2]; rfl
        simp [h1, h2, this]
      · have : (s ||| f) &&& g = f &&& g := by
          rw [BitVec.and_comm, BitVec.and_or_distrib_left, BitVec.and_comm g s, BitVec.and_comm g f, h1]; simp
        simp [h1, this]
    · have : ¬ (s ||| f) &&& g = 0 := by
        intro h
        apply h1
        have h3 : g &&& s ||| g &&& f = 0 := by rw [← BitVec.and_or_distrib_left, BitVec.and_comm]; exact h
        ext i hi
        have := congrArg (fun x : BitVec 16 => x[i]) h3
        simp at this
        simp
        intro hs
        cases hg : g[i]
        · rfl
        · exact absurd (this.1 hg) (by simp [hs])
      simp only [bne_iff_ne, ne_eq, h1, this, not_false_eq_true, Bool.or_eq_true, true_or, bne, Bool.not_eq_true', beq_eq_false_iff_ne]
      have a : ((s ||| f) &&& g == 0) = false := by simpa using this
      have b : (s &&& g == 0) = false := by simpa using h1
      rw [a, b]; rfl
  refine ⟨hset, ?_, ?_, ?_⟩
  · unfold Flags.has Flags.clear NoFlags
    have : s &&& ~~~f &&& f = 0 := by
      ext i hi
      simp
    rw [this]; decide
  · intro h
    have hz : f.has g = false := by unfold Flags.has; rw [h]; decide
    refine ⟨?_, by rw [hset, hz]; simp⟩
    unfold Flags.has Flags.clear
    have : s &&& ~~~f &&& g = s &&& g := by
      ext i hi
      have := congrArg (fun x : BitVec 16 => x[i]) h
      simp [NoFlags] at this
      simp
      cases hs : s[i] <;> cases hf : f[i] <;> cases hg : g[i] <;> simp_all
    rw [this]
  · intro h
    unfold Flags.has Flags.set
    have : (s ||| f) &&& f = f := by
      ext i hi
      simp
      intro hf; exact .inr hf
    rw [this]; simpa using h

/-- The value with every dash replaced by a slash. -/
def Slashed (v w : Str) : Prop := w.length = v.length ∧ ∀ (i : Nat) (h : i < v.length) (h' : i < w.length),
  w[i] = if v[i] = '-' then '/' else v[i]

/-- C29: `windash` replaces every dash by a slash, nothing else, and leaves no dash. -/
theorem windash_spec (v : Str) : Slashed v (windash v) ∧ '-' ∉ windash v := by
  refine ⟨⟨by simp [windash], by intro i h h'; simp [windash]⟩, ?_⟩
  intro h
  obtain ⟨c, _, hc⟩ := List.mem_map.1 h
  split at hc
  · exact absurd hc (by decide)
  · rename_i hne; exact hne hc

/-- C29: the original value is recoverable from its base64 form: the form decodes to the value's bytes, and
different values have different forms. -/
theorem base64_recoverable (v w : Str) (h : base64 v 0 = some w) :
    Base64.decode w = some ((Utf8.bytes v).map UInt8.toNat) ∧ ∀ v', base64 v' 0 = some w → v' = v := by
  have hb : ∀ u : Str, base64 u 0 = some (Base64.encode ((Utf8.bytes u).map UInt8.toNat)) := by intro u; rfl
  have hd : ∀ u : Str, Base64.decode (Base64.encode ((Utf8.bytes u).map UInt8.toNat)) = some ((Utf8.bytes u).map UInt8.toNat) := by
    intro u
    apply Base64.decode_encode
    intro b hb
    obtain ⟨x, _, rfl⟩ := List.mem_map.1 hb
    exact x.toNat_lt
  rw [hb] at h
  have hw : w = Base64.encode ((Utf8.bytes v).map UInt8.toNat) := by simpa using h.symm
  refine ⟨by rw [hw]; exact hd v, ?_⟩
  intro v' h'
  rw [hb] at h'
  have hw' : Base64.encode ((Utf8.bytes v').map UInt8.toNat) = w := by simpa using h'
  have h1 := hd v'
  rw [hw', hw, hd v] at h1
  apply Utf8.bytes_injective
  have h2 : (Utf8.bytes v).map UInt8.toNat = (Utf8.bytes v').map UInt8.toNat := by simpa using h1
  exact ((List.map_inj_right (fun a b h => UInt8.toNat_inj.1 h)).1 h2).symm

/-- C29: base64 at any offset but 0 panics. -/
theorem base64_offset_panics (v : Str) (n : Nat) : base64 v n = none ↔ n ≠ 0 := by
  unfold base64
  cases n <;> simp

theorem transform_flag (v : Str) (f : Flags) (hf : f ∈ [NoFlags, Base64Flag, Base64OffsetFlag, WinDashFlag, CIDRFlag]) :
    transform v f = if f = NoFlags then some [v] else if f = WinDashFlag then some [windash v]
      else if f = Base64Flag then (base64 v 0).map (fun x => [x]) else none := by
  simp only [List.mem_cons, List.not_mem_nil, or_false] at hf
  rcases hf with rfl | rfl | rfl | rfl | rfl <;> rfl

/-- C29: the result of every combination of flags: a CIDR flag panics, WinDash is applied before base64,
and a base64 offset panics unless plain base64 is asked for too. -/
theorem transform_spec (v : Str) (f : Flags) :
    let w := if f.has WinDashFlag then windash v else v
    transform v f =
      if f.has CIDRFlag then none
      else if f.has Base64Flag then (base64 w 0).map (fun x => [x])
      else if f.has Base64OffsetFlag then none
      else some [w] := by
  intro w
  have hz : ∀ g : Flags, (NoFlags).has g = false := by
    intro g; unfold Flags.has NoFlags; simp
  have hoff : ∀ u : Str, base64Offsets u = none := by intro u; rfl
  unfold transform transformF
  by_cases h0 : f = NoFlags
  · subst h0
    simp [hz, w]
  · rw [if_neg h0]
    by_cases hw : f.has WinDashFlag = true
    · rw [if_pos hw]
      have hww : w = windash v := by simp [w, hw]
      have hc : ∀ g : Flags, WinDashFlag &&& g = NoFlags → (f.clear WinDashFlag).has g = f.has g :=
        fun g hg => ((flags_are_a_set f WinDashFlag g).2.2.1 hg).1
      have c1 := hc CIDRFlag (by decide)
      have c2 := hc Base64Flag (by decide)
      have c3 := hc Base64OffsetFlag (by decide)
      have c4 := (flags_are_a_set f WinDashFlag WinDashFlag).2.1
      unfold transformF
      by_cases h1 : f.clear WinDashFlag = NoFlags
      · rw [if_pos h1]
        rw [h1, hz] at c1 c2 c3
        rw [← c1, ← c2, ← c3, hww]
        simp
      · rw [if_neg h1, c4, c1, c2, c3, hoff, hww]
        simp
    · rw [if_neg hw]
      have hww : w = v := by simp [w, hw]
      rw [hoff, hww]

/-! ## C28: field matchers -/

/-- The comparator modifiers and the comparisons they name. -/
def comparatorTable : List (Str × Operator) :=
  [("contains".toList, .IContains), ("startswith".toList, .IStartswith), ("endswith".toList, .IEndswith),
   ("lt".toList, .Lt), ("lte".toList, .LEq), ("gt".toList, .Gt), ("gte".toList, .GEq)]

/-- The transformer modifiers that work. -/
def identityTransformers : List Str := ["utf16".toList, "utf16le".toList, "utf16be".toList, "wide".toList]

/-- `Form ms v w`: `w` is one of the forms in which value `v` is searched under the modifiers. -/
inductive Form (ms : List Str) (v : Str) : Str → Prop
  | plain : (∀ m ∈ ms, transformersOf m = none) → Form ms v v
  | base64 (w : Str) : "base64".toList ∈ ms → Verif.Sigma.base64 v 0 = some w → Form ms v w
  | same (m : Str) : m ∈ identityTransformers → m ∈ ms → Form ms v v
  | dashed : "windash".toList ∈ ms → Form ms v v
  | slashed (w : Str) : "windash".toList ∈ ms → Slashed v w → Form ms v w

/-- `Compares ops ms field w r`: the record's field compares with `w` as the modifiers say:
case-insensitive equality without comparator, all named comparisons otherwise. -/
def Compares (ops : Operations R) (ms : List Str) (field w : Str) (r : R) : Prop :=
  ((∀ m ∈ ms, ∀ p ∈ comparatorTable, p.1 ≠ m) → (ops.compare field w .IEq).eval r = true) ∧
  ∀ m ∈ ms, ∀ op, (m, op) ∈ comparatorTable → (ops.compare field w op).eval r = true

/-- The field actually read: the first target of the configured mapping, else the field itself. -/
def Target (fm : FieldMappings) (field t : Str) : Prop :=
  (fm.get field = none ∧ t = field) ∨ ∃ rest, fm.get field = some (t :: rest)

/-- The field of the matcher compares with some form of the value. -/
def ValueHolds (ops : Operations R) (fm : FieldMappings) (m : FieldMatcher) (r : R) (v : Str) : Prop :=
  ∃ w t, Form m.modifiers v w ∧ Target fm m.field t ∧ Compares ops m.modifiers t w r

/-- Meaning of one field matcher on a record. -/
def MatcherHolds (ops : Operations R) (fm : FieldMappings) (m : FieldMatcher) (r : R) : Prop :=
  if "all".toList ∈ m.modifiers then ∀ v ∈ m.values, ValueHolds ops fm m r v else ∃ v ∈ m.values, ValueHolds ops fm m r v

theorem comparatorOf_iff (m : Str) (op : Operator) : comparatorOf m = some op ↔ (m, op) ∈ comparatorTable := by
  constructor
  · intro h
    unfold comparatorOf at h
    split at h
    · rename_i hm; subst hm; cases h; decide
    split at h
    · rename_i hm; subst hm; cases h; decide
    split at h
    · rename_i hm; subst hm; cases h; decide
    split at h
    · rename_i hm; subst hm; cases h; decide
    split at h
    · rename_i hm; subst hm; cases h; decide
    split at h
    · rename_i hm; subst hm; cases h; decide
    split at h
    · rename_i hm; subst hm; cases h; decide
    · cases h
  · intro h
    exact (by decide : ∀ p ∈ comparatorTable, comparatorOf p.1 = some p.2) (m, op) h

/-- The transformer modifiers as a table (for the proofs). -/
def transformerTable : List (Str × List Flags) :=
  [("base64".toList, [Base64Flag]), ("base64Offset".toList, [Base64OffsetFlag]), ("utf16".toList, [NoFlags]),
   ("utf16le".toList, [NoFlags]), ("utf16be".toList, [NoFlags]), ("wide".toList, [NoFlags]),
   ("windash".toList, [NoFlags, WinDashFlag]), ("cidr".toList, [CIDRFlag])]

theorem transformersOf_iff (m : Str) (fs : List Flags) : transformersOf m = some fs ↔ (m, fs) ∈ transformerTable := by
  constructor
  · intro h
    unfold transformersOf at h
    split at h
    · rename_i hm; subst hm; cases h; decide
    split at h
    · rename_i hm; subst hm; cases h; decide
    split at h
    · rename_i hm; subst hm; cases h; decide
    split at h
    · rename_i hm; subst hm; cases h; decide
    split at h
    · rename_i hm; subst hm; cases h; decide
    split at h
    · rename_i hm; subst hm; cases h; decide
    split at h
    · rename_i hm; subst hm; cases h; decide
    split at h
    · rename_i hm; subst hm; cases h; decide
    · cases h
  · intro h
    exact (by decide : ∀ p ∈ transformerTable, transformersOf p.1 = some p.2) (m, fs) h

theorem mem_transformers (ms : List Str) (f : Flags) : f ∈ transformers ms ↔ ∃ m ∈ ms, ∃ fs, transformersOf m = some fs ∧ f ∈ fs := by
  unfold transformers
  rw [List.mem_flatten]
  constructor
  · rintro ⟨fs, hfs, hf⟩
    obtain ⟨m, hm, he⟩ := List.mem_filterMap.1 hfs
    exact ⟨m, hm, fs, he, hf⟩
  · rintro ⟨m, hm, fs, he, hf⟩
    exact ⟨fs, List.mem_filterMap.2 ⟨m, hm, he⟩, hf⟩

theorem transformers_nil_iff (ms : List Str) : transformers ms = [] ↔ ∀ m ∈ ms, transformersOf m = none := by
  constructor
  · intro h m hm
    cases ht : transformersOf m with
    | none => rfl
    | some fs =>
      have hmem := (transformersOf_iff m fs).1 ht
      have hne : fs ≠ [] := (by decide : ∀ p ∈ transformerTable, p.2 ≠ []) (m, fs) hmem
      obtain ⟨f, hf⟩ := List.exists_mem_of_ne_nil fs hne
      have : f ∈ transformers ms := (mem_transformers ms f).2 ⟨m, hm, fs, ht, hf⟩
      rw [h] at this; cases this
  · intro h
    cases ht : transformers ms with
    | nil => rfl
    | cons f fs =>
      have : f ∈ transformers ms := by rw [ht]; simp
      obtain ⟨m, hm, gs, hg, _⟩ := (mem_transformers ms f).1 this
      rw [h m hm] at hg; cases hg

theorem slashed_iff (v w : Str) : Slashed v w ↔ w = windash v := by
  constructor
  · rintro ⟨hl, h⟩
    apply List.ext_getElem
    · simp [windash, hl]
    · intro i h1 h2
      rw [h i (by simpa [windash] using h2) h1]
      simp [windash]
  · rintro rfl; exact (windash_spec v).1

/-- The forms computed are those of the specification. -/
theorem forms_iff (ms : List Str) (v : Str) (vss : List (List Str)) (hne : transformers ms ≠ [])
    (h : seqMap (fun t => transform v t) (transformers ms) = some vss) (w : Str) : w ∈ vss.flatten ↔ Form ms v w := by
  obtain ⟨h1, h2⟩ := seqMap_some _ _ _ h
  have hmem : w ∈ vss.flatten ↔ ∃ m ∈ ms, ∃ fs, (m, fs) ∈ transformerTable ∧ ∃ f ∈ fs, ∃ ws, transform v f = some ws ∧ w ∈ ws := by
    rw [List.mem_flatten, h1]
    constructor
    · rintro ⟨ws, hws, hw⟩
      obtain ⟨f, hf, he⟩ := List.mem_filterMap.1 hws
      obtain ⟨m, hm, fs, hfs, hff⟩ := (mem_transformers ms f).1 hf
      exact ⟨m, hm, fs, (transformersOf_iff m fs).1 hfs, f, hff, ws, he, hw⟩
    · rintro ⟨m, hm, fs, hfs, f, hff, ws, he, hw⟩
      exact ⟨ws, List.mem_filterMap.2 ⟨f, (mem_transformers ms f).2 ⟨m, hm, fs, (transformersOf_iff m fs).2 hfs, hff⟩, he⟩, hw⟩
  rw [hmem]
  constructor
  · rintro ⟨m, hm, fs, hfs, f, hf, ws, he, hw⟩
    unfold transformerTable at hfs
    simp only [List.mem_cons, List.not_mem_nil, or_false, Prod.mk.injEq] at hfs
    have hno : transform v NoFlags = some [v] := rfl
    rcases hfs with ⟨rfl, rfl⟩ | ⟨rfl, rfl⟩ | ⟨rfl, rfl⟩ | ⟨rfl, rfl⟩ | ⟨rfl, rfl⟩ | ⟨rfl, rfl⟩ | ⟨rfl, rfl⟩ | ⟨rfl, rfl⟩
    · have : f = Base64Flag := List.mem_singleton.1 hf
      subst this
      have he' : transform v Base64Flag = (base64 v 0).map (fun x => [x]) := rfl
      rw [he', Option.map_eq_some_iff] at he
      obtain ⟨x, hx, rfl⟩ := he
      have : w = x := List.mem_singleton.1 hw
      subst this
      exact .base64 w hm hx
    · have : f = Base64OffsetFlag := List.mem_singleton.1 hf
      subst this
      have he' : transform v Base64OffsetFlag = none := rfl
      rw [he'] at he; cases he
    all_goals first
      | (have : f = NoFlags := List.mem_singleton.1 hf
         subst this
         rw [hno] at he; cases he
         have : w = v := List.mem_singleton.1 hw
         subst this
         exact .same _ (by decide) hm)
      | skip
    · rcases List.mem_cons.1 hf with rfl | hf
      · rw [hno] at he; cases he
        have : w = v := List.mem_singleton.1 hw
        subst this
        exact .dashed hm
      · have : f = WinDashFlag := List.mem_singleton.1 hf
        subst this
        have he' : transform v WinDashFlag = some [windash v] := rfl
        rw [he'] at he; cases he
        have : w = windash v := List.mem_singleton.1 hw
        exact .slashed w hm ((slashed_iff v w).2 this)
    · have : f = CIDRFlag := List.mem_singleton.1 hf
      subst this
      have he' : transform v CIDRFlag = none := rfl
      rw [he'] at he; cases he
  · intro hf
    cases hf with
    | plain hp => exact absurd ((transformers_nil_iff ms).2 hp) hne
    | base64 _ hm hb =>
      refine ⟨_, hm, [Base64Flag], by decide, Base64Flag, by simp, [w], ?_, by simp⟩
      have he' : transform v Base64Flag = (base64 v 0).map (fun x => [x]) := rfl
      rw [he', hb]; rfl
    | same m hi hm =>
      have : ∀ m ∈ identityTransformers, (m, [NoFlags]) ∈ transformerTable := by decide
      exact ⟨m, hm, [NoFlags], this m hi, NoFlags, by simp, [v], rfl, by simp⟩
    | dashed hm => exact ⟨_, hm, [NoFlags, WinDashFlag], by decide, NoFlags, by simp, [v], rfl, by simp⟩
    | slashed _ hm hs =>
      exact ⟨_, hm, [NoFlags, WinDashFlag], by decide, WinDashFlag, by simp, [windash v], rfl, by
        rw [(slashed_iff v w).1 hs]; simp⟩

theorem target_of_mapField (fm : FieldMappings) (field t : Str) : mapField fm field = some t ↔ Target fm field t := by
  unfold mapField Target
  cases h : fm.get field with
  | none => simp [eq_comm]
  | some l =>
    cases l with
    | nil => simp
    | cons a as => simp [eq_comm]

theorem visitTerm_eval (ops : Operations R) (fm : FieldMappings) (ms : List Str) (field w : Str) (c : Criterion R)
    (h : visitTerm ops fm (comparators ms) field w = some c) (r : R) :
    c.eval r = true ↔ ∃ t, Target fm field t ∧ Compares ops ms t w r := by
  unfold visitTerm at h
  cases hm : mapField fm field with
  | none => simp [hm] at h
  | some t =>
    simp only [hm] at h
    have ht := (target_of_mapField fm field t).1 hm
    have huniq : ∀ t', Target fm field t' → t' = t := by
      intro t' ht'
      have := (target_of_mapField fm field t').2 ht'
      rw [hm] at this; simpa using this.symm
    have hex : (∃ t, Target fm field t ∧ Compares ops ms t w r) ↔ Compares ops ms t w r := by
      constructor
      · rintro ⟨t', ht', hc⟩; rw [← huniq t' ht']; exact hc
      · intro hc; exact ⟨t, ht, hc⟩
    rw [hex]
    have hnil : comparators ms = [] ↔ ∀ m ∈ ms, ∀ p ∈ comparatorTable, p.1 ≠ m := by
      unfold comparators
      rw [List.filterMap_eq_nil_iff]
      constructor
      · intro h m hm p hp heq
        have := (comparatorOf_iff m p.2).2 (by rw [← heq]; exact hp)
        rw [h m hm] at this; cases this
      · intro h m hm
        cases hc : comparatorOf m with
        | none => rfl
        | some op => exact absurd rfl (h m hm (m, op) ((comparatorOf_iff m op).1 hc))
    by_cases hn : comparators ms = []
    · rw [if_pos hn] at h
      simp only [Option.some.injEq] at h
      subst h
      have hn' := hnil.1 hn
      rw [all_eval_iff]
      constructor
      · intro hc
        refine ⟨fun _ => hc _ (by simp), ?_⟩
        intro m hm op hop
        exact absurd rfl (hn' m hm (m, op) hop)
      · intro hc d hd
        have : d = ops.compare t w .IEq := by simpa using hd
        subst this
        exact hc.1 hn'
    · rw [if_neg hn] at h
      simp only [Option.some.injEq] at h
      subst h
      rw [all_eval_iff]
      constructor
      · intro hc
        refine ⟨fun hh => absurd (hnil.2 hh) hn, ?_⟩
        intro m hm op hop
        exact hc _ (List.mem_map.2 ⟨op, List.mem_filterMap.2 ⟨m, hm, (comparatorOf_iff m op).2 hop⟩, rfl⟩)
      · intro hc d hd
        obtain ⟨op, hop, rfl⟩ := List.mem_map.1 hd
        obtain ⟨m, hm, hmo⟩ := List.mem_filterMap.1 hop
        exact hc.2 m hm op ((comparatorOf_iff m op).1 hmo)

theorem seqMap_mem {α β : Type _} (f : α → Option β) (as : List α) (bs : List β) (h : seqMap f as = some bs) (b : β) :
    b ∈ bs ↔ ∃ a ∈ as, f a = some b := by
  rw [(seqMap_some f as bs h).1, List.mem_filterMap]

theorem seqMap_val {α β : Type _} (f : α → Option β) (as : List α) (bs : List β) (h : seqMap f as = some bs) (a : α) (ha : a ∈ as) :
    ∃ b ∈ bs, f a = some b := by
  obtain ⟨b, hb⟩ := Option.isSome_iff_exists.1 ((seqMap_some f as bs h).2 a ha)
  exact ⟨b, (seqMap_mem f as bs h b).2 ⟨a, ha, hb⟩, hb⟩

theorem visitValue_eval (ops : Operations R) (fm : FieldMappings) (m : FieldMatcher) (v : Str) (c : Criterion R)
    (h : visitValue ops fm m v = some c) (r : R) : c.eval r = true ↔ ValueHolds ops fm m r v := by
  unfold visitValue at h
  by_cases hn : transformers m.modifiers = []
  · rw [if_neg (by simpa using hn)] at h
    rw [visitTerm_eval ops fm m.modifiers m.field v c h r]
    have hp := (transformers_nil_iff m.modifiers).1 hn
    constructor
    · rintro ⟨t, ht, hc⟩; exact ⟨v, t, .plain hp, ht, hc⟩
    · rintro ⟨w, t, hf, ht, hc⟩
      have : w = v := by
        cases hf with
        | plain _ => rfl
        | base64 _ hm _ => exact absurd (hp _ hm) (by decide)
        | same x hi hm =>
          have : ∀ m ∈ identityTransformers, transformersOf m ≠ none := by decide
          exact absurd (hp _ hm) (this x hi)
        | dashed hm => exact absurd (hp _ hm) (by decide)
        | slashed _ hm _ => exact absurd (hp _ hm) (by decide)
      subst this
      exact ⟨t, ht, hc⟩
  · rw [if_pos hn] at h
    unfold visitTransformed at h
    cases hs : seqMap (fun t => transform v t) (transformers m.modifiers) with
    | none => simp [hs] at h
    | some vss =>
      simp only [hs, Option.map_eq_some_iff] at h
      obtain ⟨ds, hds, rfl⟩ := h
      have hforms := forms_iff m.modifiers v vss hn hs
      rw [any_eval_iff]
      constructor
      · rintro ⟨d, hd, hde⟩
        obtain ⟨w, hw, hdw⟩ := (seqMap_mem _ _ _ hds d).1 hd
        obtain ⟨t, ht, hc⟩ := (visitTerm_eval ops fm m.modifiers m.field w d hdw r).1 hde
        exact ⟨w, t, (hforms w).1 hw, ht, hc⟩
      · rintro ⟨w, t, hf, ht, hc⟩
        obtain ⟨d, hd, hdw⟩ := seqMap_val _ _ _ hds w ((hforms w).2 hf)
        exact ⟨d, hd, (visitTerm_eval ops fm m.modifiers m.field w d hdw r).2 ⟨t, ht, hc⟩⟩

/-- C28: a field matcher is true on a record exactly when some listed value (every one with the `all`
modifier) matches: some form of the value under the transformers compares with the mapped field as the
comparators say. -/
theorem sigma_matcher (ops : Operations R) (fm : FieldMappings) (m : FieldMatcher) (c : Criterion R)
    (h : visitMatcher ops fm m = some c) (r : R) : c.eval r = true ↔ MatcherHolds ops fm m r := by
  unfold visitMatcher at h
  rw [Option.map_eq_some_iff] at h
  obtain ⟨ds, hds, hc⟩ := h
  unfold MatcherHolds
  have hall : allModifier m.modifiers = true ↔ "all".toList ∈ m.modifiers := by
    unfold allModifier; rw [List.contains_iff_mem]
  by_cases ha : "all".toList ∈ m.modifiers
  · rw [if_pos (hall.2 ha)] at hc
    rw [if_pos ha, ← hc, all_eval_iff]
    constructor
    · intro hd v hv
      obtain ⟨d, hdm, hdv⟩ := seqMap_val _ _ _ hds v hv
      exact (visitValue_eval ops fm m v d hdv r).1 (hd d hdm)
    · intro hv d hd
      obtain ⟨v, hvm, hdv⟩ := (seqMap_mem _ _ _ hds d).1 hd
      exact (visitValue_eval ops fm m v d hdv r).2 (hv v hvm)
  · rw [if_neg (fun hh => ha (hall.1 hh))] at hc
    rw [if_neg ha, ← hc, any_eval_iff]
    constructor
    · rintro ⟨d, hd, hde⟩
      obtain ⟨v, hvm, hdv⟩ := (seqMap_mem _ _ _ hds d).1 hd
      exact ⟨v, hvm, (visitValue_eval ops fm m v d hdv r).1 hde⟩
    · rintro ⟨v, hv, hh⟩
      obtain ⟨d, hdm, hdv⟩ := seqMap_val _ _ _ hds v hv
      exact ⟨d, hdm, (visitValue_eval ops fm m v d hdv r).2 hh⟩

/-- Meaning of a search: every field matcher of every event matcher holds; a search with keywords is
never true. -/
def SearchHolds (ops : Operations R) (fm : FieldMappings) (s : Search) (r : R) : Prop :=
  s.keywords = [] ∧ ∀ em ∈ s.matchers, ∀ m ∈ em, MatcherHolds ops fm m r

/-- C28: a search evaluates to its meaning. -/
theorem sigma_search (ops : Operations R) (fm : FieldMappings) (s : Search) (c : Criterion R)
    (h : visitSearch ops fm s = some c) (r : R) : c.eval r = true ↔ SearchHolds ops fm s r := by
  unfold visitSearch at h
  by_cases hk : s.keywords = []
  · rw [if_neg (by simpa using hk), Option.map_eq_some_iff] at h
    obtain ⟨ds, hds, rfl⟩ := h
    rw [all_eval_iff]
    constructor
    · intro hd
      refine ⟨hk, ?_⟩
      intro em hem m hm
      obtain ⟨d, hdm, hdv⟩ := seqMap_val _ _ _ hds m (List.mem_flatten.2 ⟨em, hem, hm⟩)
      exact (sigma_matcher ops fm m d hdv r).1 (hd d hdm)
    · rintro ⟨_, hs⟩ d hd
      obtain ⟨m, hm, hdv⟩ := (seqMap_mem _ _ _ hds d).1 hd
      obtain ⟨em, hem, hmm⟩ := List.mem_flatten.1 hm
      exact (sigma_matcher ops fm m d hdv r).2 (hs em hem m hmm)
  · rw [if_pos hk] at h
    simp only [Option.some.injEq] at h
    subst h
    constructor
    · intro hh; cases hh
    · rintro ⟨hh, _⟩; exact absurd hh hk

/-! ## C27: conditions -/

/-- Meaning of a condition, given the meaning of a search on the record at hand. -/
def Holds (glob : Str → Str → Bool) (searches : GoMap Search) (H : Search → Prop) : SearchExpr → Prop
  | .ident n => ∃ s, (n, s) ∈ searches ∧ H s
  | .and es => ∀ e, ∀ _ : e ∈ es, Holds glob searches H e
  | .or es => ∃ e, ∃ _ : e ∈ es, Holds glob searches H e
  | .not e => ¬ Holds glob searches H e
  | .oneOfThem => ∃ n s, (n, s) ∈ searches ∧ H s
  | .oneOfPattern p => ∃ n s, (n, s) ∈ searches ∧ glob p n = true ∧ H s
  | .allOfThem => ∀ n s, (n, s) ∈ searches → H s
  | .allOfPattern p => ∀ n s, (n, s) ∈ searches → glob p n = true → H s
  | .other => False
termination_by e => sizeOf e

theorem get_of_mem_nodup {α : Type _} (m : GoMap α) (k : Str) (v : α) (hn : (m.map (·.1)).Nodup) (h : (k, v) ∈ m) : m.get k = some v := by
  induction m with
  | nil => cases h
  | cons p m ih =>
    obtain ⟨k', v'⟩ := p
    rw [GoMap.get]
    simp only [List.map_cons, List.nodup_cons] at hn
    rcases List.mem_cons.1 h with h | h
    · cases h; simp
    · have : k' ≠ k := by
        rintro rfl
        exact hn.1 (List.mem_map.2 ⟨_, h, rfl⟩)
      rw [if_neg this]
      exact ih hn.2 h

theorem visitExprs_some (ops : Operations R) (fm : FieldMappings) (glob : Str → Str → Bool) (S : GoMap Search) (es : List SearchExpr) :
    visitExprs ops fm glob S es = seqMap (visitExpr ops fm glob S) es := by
  induction es with
  | nil => rfl
  | cons e es ih =>
    rw [visitExprs, seqMap, ih]
    cases visitExpr ops fm glob S e with
    | none => rfl
    | some c =>
      cases seqMap (visitExpr ops fm glob S) es with
      | none => rfl
      | some cs => rfl

/-- C27: whatever the parsed searches, a condition that compiles evaluates on every record to its Boolean
meaning. (The names of a map are distinct.) -/
theorem sigma_condition (ops : Operations R) (fm : FieldMappings) (glob : Str → Str → Bool) (S : GoMap Search)
    (hS : (S.map (·.1)).Nodup) (r : R) : ∀ (e : SearchExpr) (c : Criterion R), visitExpr ops fm glob S e = some c →
    (c.eval r = true ↔ Holds glob S (fun s => SearchHolds ops fm s r) e)
  | .ident n, c, h => by
    rw [visitExpr] at h
    rw [Holds]
    cases hg : S.get n with
    | none =>
      simp only [hg, Option.some.injEq] at h
      subst h
      constructor
      · intro hh; cases hh
      · rintro ⟨s, hs, _⟩
        rw [get_of_mem_nodup S n s hS hs] at hg; cases hg
    | some s =>
      simp only [hg] at h
      rw [sigma_search ops fm s c h r]
      constructor
      · intro hs; exact ⟨s, get_mem S n s hg, hs⟩
      · rintro ⟨s', hs', hh⟩
        rw [get_of_mem_nodup S n s' hS hs'] at hg
        cases hg; exact hh
  | .and es, c, h => by
    rw [visitExpr, visitExprs_some, Option.map_eq_some_iff] at h
    obtain ⟨ds, hds, rfl⟩ := h
    rw [Holds, all_eval_iff]
    constructor
    · intro hd e he
      obtain ⟨d, hdm, hdv⟩ := seqMap_val _ _ _ hds e he
      exact (sigma_condition ops fm glob S hS r e d hdv).1 (hd d hdm)
    · intro hh d hd
      obtain ⟨e, he, hdv⟩ := (seqMap_mem _ _ _ hds d).1 hd
      exact (sigma_condition ops fm glob S hS r e d hdv).2 (hh e he)
  | .or es, c, h => by
    rw [visitExpr, visitExprs_some, Option.map_eq_some_iff] at h
    obtain ⟨ds, hds, rfl⟩ := h
    rw [Holds, any_eval_iff]
    constructor
    · rintro ⟨d, hd, hde⟩
      obtain ⟨e, he, hdv⟩ := (seqMap_mem _ _ _ hds d).1 hd
      exact ⟨e, he, (sigma_condition ops fm glob S hS r e d hdv).1 hde⟩
    · rintro ⟨e, he, hh⟩
      obtain ⟨d, hdm, hdv⟩ := seqMap_val _ _ _ hds e he
      exact ⟨d, hdm, (sigma_condition ops fm glob S hS r e d hdv).2 hh⟩
  | .not e, c, h => by
    rw [visitExpr, Option.map_eq_some_iff] at h
    obtain ⟨d, hd, rfl⟩ := h
    rw [Holds, ← sigma_condition ops fm glob S hS r e d hd]
    simp [Criterion.not, Criterion.eval]
  | .oneOfThem, c, h => by
    rw [visitExpr, Option.map_eq_some_iff] at h
    obtain ⟨ds, hds, rfl⟩ := h
    rw [Holds, any_eval_iff]
    constructor
    · rintro ⟨d, hd, hde⟩
      obtain ⟨p, hp, hdv⟩ := (seqMap_mem _ _ _ hds d).1 hd
      exact ⟨p.1, p.2, hp, (sigma_search ops fm p.2 d hdv r).1 hde⟩
    · rintro ⟨n, s, hp, hh⟩
      obtain ⟨d, hdm, hdv⟩ := seqMap_val _ _ _ hds (n, s) hp
      exact ⟨d, hdm, (sigma_search ops fm s d hdv r).2 hh⟩
  | .oneOfPattern pat, c, h => by
    rw [visitExpr, Option.map_eq_some_iff] at h
    obtain ⟨ds, hds, rfl⟩ := h
    rw [Holds, any_eval_iff]
    constructor
    · rintro ⟨d, hd, hde⟩
      obtain ⟨p, hp, hdv⟩ := (seqMap_mem _ _ _ hds d).1 hd
      obtain ⟨hp1, hp2⟩ := List.mem_filter.1 hp
      exact ⟨p.1, p.2, hp1, hp2, (sigma_search ops fm p.2 d hdv r).1 hde⟩
    · rintro ⟨n, s, hp, hg, hh⟩
      obtain ⟨d, hdm, hdv⟩ := seqMap_val _ _ _ hds (n, s) (List.mem_filter.2 ⟨hp, hg⟩)
      exact ⟨d, hdm, (sigma_search ops fm s d hdv r).2 hh⟩
  | .allOfThem, c, h => by
    rw [visitExpr, Option.map_eq_some_iff] at h
    obtain ⟨ds, hds, rfl⟩ := h
    rw [Holds, all_eval_iff]
    constructor
    · intro hd n s hp
      obtain ⟨d, hdm, hdv⟩ := seqMap_val _ _ _ hds (n, s) hp
      exact (sigma_search ops fm s d hdv r).1 (hd d hdm)
    · intro hh d hd
      obtain ⟨p, hp, hdv⟩ := (seqMap_mem _ _ _ hds d).1 hd
      exact (sigma_search ops fm p.2 d hdv r).2 (hh p.1 p.2 hp)
  | .allOfPattern pat, c, h => by
    rw [visitExpr, Option.map_eq_some_iff] at h
    obtain ⟨ds, hds, rfl⟩ := h
    rw [Holds, all_eval_iff]
    constructor
    · intro hd n s hp hg
      obtain ⟨d, hdm, hdv⟩ := seqMap_val _ _ _ hds (n, s) (List.mem_filter.2 ⟨hp, hg⟩)
      exact (sigma_search ops fm s d hdv r).1 (hd d hdm)
    · intro hh d hd
      obtain ⟨p, hp, hdv⟩ := (seqMap_mem _ _ _ hds d).1 hd
      obtain ⟨hp1, hp2⟩ := List.mem_filter.1 hp
      exact (sigma_search ops fm p.2 d hdv r).2 (hh p.1 p.2 hp1 hp2)
  | .other, c, h => by
    rw [visitExpr] at h
    simp only [Option.some.injEq] at h
    subst h
    rw [Holds]
    constructor
    · intro hh; cases hh
    · intro hh; cases hh
termination_by e => sizeOf e

theorem holds_congr (glob : Str → Str → Bool) (S S' : GoMap Search) (H : Search → Prop) (h : ∀ p, p ∈ S ↔ p ∈ S') :
    ∀ e : SearchExpr, Holds glob S H e ↔ Holds glob S' H e
  | .ident n => by simp only [Holds, h]
  | .and es => by
    simp only [Holds]
    exact ⟨fun hh e he => (holds_congr glob S S' H h e).1 (hh e he), fun hh e he => (holds_congr glob S S' H h e).2 (hh e he)⟩
  | .or es => by
    simp only [Holds]
    exact ⟨fun ⟨e, he, hh⟩ => ⟨e, he, (holds_congr glob S S' H h e).1 hh⟩, fun ⟨e, he, hh⟩ => ⟨e, he, (holds_congr glob S S' H h e).2 hh⟩⟩
  | .not e => by simp only [Holds, holds_congr glob S S' H h e]
  | .oneOfThem => by simp only [Holds, h]
  | .oneOfPattern p => by simp only [Holds, h]
  | .allOfThem => by simp only [Holds, h]
  | .allOfPattern p => by simp only [Holds, h]
  | .other => by simp only [Holds]
termination_by e => sizeOf e

/-- C27: the order in which Go happens to iterate the map of searches does not matter. -/
theorem sigma_order_independent (ops : Operations R) (fm : FieldMappings) (glob : Str → Str → Bool) (S S' : GoMap Search)
    (hS : (S.map (·.1)).Nodup) (hp : S.Perm S') (e : SearchExpr) (c c' : Criterion R)
    (h : visitExpr ops fm glob S e = some c) (h' : visitExpr ops fm glob S' e = some c') (r : R) : c.eval r = c'.eval r := by
  have h1 := sigma_condition ops fm glob S hS r e c h
  have h2 := sigma_condition ops fm glob S' ((hp.map _).nodup_iff.1 hS) r e c' h'
  rw [← holds_congr glob S S' _ (fun p => hp.mem_iff) e] at h2
  have := h1.trans h2.symm
  cases a : c.eval r <;> cases b : c'.eval r <;> simp_all

/-! ## C28: what is not supported -/

/-- C28 (finding): the items of a list of event matchers, which Sigma defines as alternatives, are all
required. -/
theorem sigma_list_of_maps_is_conjunction (ops : Operations R) (fm : FieldMappings) (a b : List FieldMatcher)
    (c ca cb : Criterion R) (h : visitSearch ops fm { matchers := [a, b] } = some c)
    (ha : visitSearch ops fm { matchers := [a] } = some ca) (hb : visitSearch ops fm { matchers := [b] } = some cb) (r : R) :
    c.eval r = (ca.eval r && cb.eval r) := by
  have h1 := sigma_search ops fm _ c h r
  have h2 := sigma_search ops fm _ ca ha r
  have h3 := sigma_search ops fm _ cb hb r
  simp only [SearchHolds, true_and, List.mem_cons, List.not_mem_nil, or_false, forall_eq_or_imp, forall_eq] at h1 h2 h3
  rw [← h2, ← h3] at h1
  clear h2 h3 h ha hb
  cases x : c.eval r <;> cases y : ca.eval r <;> cases z : cb.eval r <;> rw [x, y, z] at h1 <;> simp at h1 <;> rfl

/-- C28 (findings): the modifiers `re` and `base64offset` (the name Sigma uses) are silently ignored. -/
theorem sigma_ignored_modifiers (ops : Operations R) (fm : FieldMappings) (field : Str) (vs : List Str) (r : R) (c : Criterion R)
    (x : Str) (hx : x = "re".toList ∨ x = "base64offset".toList)
    (h : visitMatcher ops fm ⟨field, [x], vs⟩ = some c) :
    c.eval r = true ↔ ∃ v ∈ vs, ∃ t, Target fm field t ∧ (ops.compare t v .IEq).eval r = true := by
  rw [sigma_matcher ops fm _ c h r]
  unfold MatcherHolds
  have hall : "all".toList ∉ [x] := by rcases hx with rfl | rfl <;> decide
  have htr : ∀ m ∈ [x], transformersOf m = none := by rcases hx with rfl | rfl <;> decide
  have hcm : ∀ m ∈ [x], ∀ p ∈ comparatorTable, p.1 ≠ m := by rcases hx with rfl | rfl <;> decide
  rw [if_neg hall]
  constructor
  · rintro ⟨v, hv, w, t, hf, ht, hc⟩
    have : w = v := by
      cases hf with
      | plain _ => rfl
      | base64 _ hm _ => exact absurd (htr _ hm) (by decide)
      | same y hi hm =>
        have : ∀ m ∈ identityTransformers, transformersOf m ≠ none := by decide
        exact absurd (htr _ hm) (this y hi)
      | dashed hm => exact absurd (htr _ hm) (by decide)
      | slashed _ hm _ => exact absurd (htr _ hm) (by decide)
    subst this
    exact ⟨w, hv, t, ht, hc.1 hcm⟩
  · rintro ⟨v, hv, t, ht, hc⟩
    refine ⟨v, hv, v, t, .plain htr, ht, ⟨fun _ => hc, ?_⟩⟩
    intro m hm op hop
    exact absurd rfl (hcm m hm (m, op) hop)

/-- C28 (finding): chained transformers are alternatives, not a composition: with `wide|base64` the
untransformed value matches too. -/
theorem sigma_chained_transformers_are_alternatives (ops : Operations R) (fm : FieldMappings) (field t v : Str) (r : R)
    (c : Criterion R) (h : visitMatcher ops fm ⟨field, ["wide".toList, "base64".toList], [v]⟩ = some c) (ht : Target fm field t)
    (hm : (ops.compare t v .IEq).eval r = true) : c.eval r = true := by
  rw [sigma_matcher ops fm _ c h r]
  unfold MatcherHolds
  rw [if_neg (show "all".toList ∉ ["wide".toList, "base64".toList] by decide)]
  refine ⟨v, by simp, v, t, .same "wide".toList (by decide) (by simp), ht, fun _ => hm, ?_⟩
  intro m hmm op hop
  exact absurd hop ((by decide : ∀ m ∈ ["wide".toList, "base64".toList], ∀ p ∈ comparatorTable, (m ≠ p.1)) m hmm (m, op) · rfl)

/-- C28: with `windash` a value is matched in both spellings. -/
theorem sigma_windash_both (ops : Operations R) (fm : FieldMappings) (field v : Str) (r : R)
    (c : Criterion R) (h : visitMatcher ops fm ⟨field, ["windash".toList], [v]⟩ = some c) :
    c.eval r = true ↔ ∃ t, Target fm field t ∧ ((ops.compare t v .IEq).eval r = true ∨ (ops.compare t (windash v) .IEq).eval r = true) := by
  rw [sigma_matcher ops fm _ c h r]
  unfold MatcherHolds
  rw [if_neg (show "all".toList ∉ ["windash".toList] by decide)]
  have hcm : ∀ m ∈ ["windash".toList], ∀ p ∈ comparatorTable, p.1 ≠ m := by decide
  have hC : ∀ t w, Compares ops ["windash".toList] t w r ↔ (ops.compare t w .IEq).eval r = true := by
    intro t w
    constructor
    · intro hc; exact hc.1 hcm
    · intro hc
      refine ⟨fun _ => hc, ?_⟩
      intro m hm op hop
      exact absurd rfl (hcm m hm (m, op) hop)
  constructor
  · rintro ⟨v', hv', w, t, hf, ht, hc⟩
    have : v' = v := List.mem_singleton.1 hv'
    subst this
    refine ⟨t, ht, ?_⟩
    rw [hC] at hc
    cases hf with
    | plain hp => exact .inl hc
    | base64 _ hm _ => exact absurd (show "base64".toList ∈ ["windash".toList] from hm) (by decide)
    | same y hi hm => exact .inl hc
    | dashed hm => exact .inl hc
    | slashed _ hm hs => rw [(slashed_iff _ _).1 hs] at hc; exact .inr hc
  · rintro ⟨t, ht, hc | hc⟩
    · exact ⟨v, by simp, v, t, .dashed (by simp), ht, (hC _ _).2 hc⟩
    · exact ⟨v, by simp, windash v, t, .slashed _ (by simp) (windash_spec v).1, ht, (hC _ _).2 hc⟩

theorem seqMap_none_iff {α β : Type _} (f : α → Option β) (as : List α) : seqMap f as = none ↔ ∃ a ∈ as, f a = none := by
  constructor
  · intro h
    refine Classical.byContradiction fun hn => ?_
    have : ∀ a ∈ as, (f a).isSome := by
      intro a ha
      cases hf : f a with
      | none => exact absurd ⟨a, ha, hf⟩ hn
      | some b => rfl
    rw [seqMap_of_isSome f as this] at h; cases h
  · rintro ⟨a, ha, hf⟩
    cases hs : seqMap f as with
    | none => rfl
    | some bs =>
      have := (seqMap_some f as bs hs).2 a ha
      rw [hf] at this; cases this

theorem visitTerm_none_iff (ops : Operations R) (fm : FieldMappings) (cmps : List Operator) (field w : Str) :
    visitTerm ops fm cmps field w = none ↔ fm.get field = some [] := by
  have : mapField fm field = none ↔ fm.get field = some [] := by
    unfold mapField
    cases fm.get field with
    | none => simp
    | some l => cases l <;> simp
  unfold visitTerm
  rw [← this]
  cases mapField fm field with
  | none => simp
  | some t => simp only; split <;> simp

theorem transform_none_iff (v : Str) (m : Str) (fs : List Flags) (h : transformersOf m = some fs) (f : Flags) (hf : f ∈ fs) :
    transform v f = none ↔ (m = "base64Offset".toList ∨ m = "cidr".toList) := by
  have hmem := (transformersOf_iff m fs).1 h
  clear h
  have h1 : transform v NoFlags ≠ none := by intro h; cases h
  have h2 : transform v Base64Flag ≠ none := by intro h; cases h
  have h3 : transform v WinDashFlag ≠ none := by intro h; cases h
  have h4 : transform v Base64OffsetFlag = none := rfl
  have h5 : transform v CIDRFlag = none := rfl
  have d : "base64".toList ≠ "base64Offset".toList ∧ "base64".toList ≠ "cidr".toList ∧
    "utf16".toList ≠ "base64Offset".toList ∧ "utf16".toList ≠ "cidr".toList ∧
    "utf16le".toList ≠ "base64Offset".toList ∧ "utf16le".toList ≠ "cidr".toList ∧
    "utf16be".toList ≠ "base64Offset".toList ∧ "utf16be".toList ≠ "cidr".toList ∧
    "wide".toList ≠ "base64Offset".toList ∧ "wide".toList ≠ "cidr".toList ∧
    "windash".toList ≠ "base64Offset".toList ∧ "windash".toList ≠ "cidr".toList := by decide
  obtain ⟨d1, d2, d3, d4, d5, d6, d7, d8, d9, d10, d11, d12⟩ := d
  unfold transformerTable at hmem
  generalize "base64".toList = s1 at *
  generalize "base64Offset".toList = s2 at *
  generalize "utf16".toList = s3 at *
  generalize "utf16le".toList = s4 at *
  generalize "utf16be".toList = s5 at *
  generalize "wide".toList = s6 at *
  generalize "windash".toList = s7 at *
  generalize "cidr".toList = s8 at *
  generalize NoFlags = f1 at *
  generalize Base64Flag = f2 at *
  generalize Base64OffsetFlag = f3 at *
  generalize WinDashFlag = f4 at *
  generalize CIDRFlag = f5 at *
  simp only [List.mem_cons, List.not_mem_nil, or_false, Prod.mk.injEq] at hmem
  rcases hmem with ⟨rfl, rfl⟩ | ⟨rfl, rfl⟩ | ⟨rfl, rfl⟩ | ⟨rfl, rfl⟩ | ⟨rfl, rfl⟩ | ⟨rfl, rfl⟩ | ⟨rfl, rfl⟩ | ⟨rfl, rfl⟩ <;>
    simp only [List.mem_cons, List.not_mem_nil, or_false] at hf
  · subst hf; simp [h2, d1, d2]
  · subst hf; simp [h4]
  · subst hf; simp [h1, d3, d4]
  · subst hf; simp [h1, d5, d6]
  · subst hf; simp [h1, d7, d8]
  · subst hf; simp [h1, d9, d10]
  · rcases hf with rfl | rfl
    · simp [h1, d11, d12]
    · simp [h3, d11, d12]
  · subst hf; simp [h5]

theorem transforms_none_iff (ms : List Str) (v : Str) : seqMap (fun t => transform v t) (transformers ms) = none ↔
    ("base64Offset".toList ∈ ms ∨ "cidr".toList ∈ ms) := by
  rw [seqMap_none_iff]
  constructor
  · rintro ⟨f, hf, hn⟩
    obtain ⟨x, hx, fs, hfs, hff⟩ := (mem_transformers _ f).1 hf
    rcases (transform_none_iff v x fs hfs f hff).1 hn with rfl | rfl
    · exact .inl hx
    · exact .inr hx
  · rintro (hm | hm)
    · exact ⟨Base64OffsetFlag, (mem_transformers _ _).2 ⟨_, hm, [Base64OffsetFlag], rfl, .head _⟩, rfl⟩
    · exact ⟨CIDRFlag, (mem_transformers _ _).2 ⟨_, hm, [CIDRFlag], rfl, .head _⟩, rfl⟩

theorem transform_ne_nil (v : Str) (f : Flags) (ws : List Str) (h : transform v f = some ws) : ws ≠ [] := by
  intro he
  subst he
  have hsp := transform_spec v f
  rw [h] at hsp
  simp only at hsp
  split at hsp
  · cases hsp
  · split at hsp
    · cases hsp
    · split at hsp <;> cases hsp

theorem visitValue_none_iff (ops : Operations R) (fm : FieldMappings) (m : FieldMatcher) (v : Str) :
    visitValue ops fm m v = none ↔
      ("base64Offset".toList ∈ m.modifiers ∨ "cidr".toList ∈ m.modifiers ∨ fm.get m.field = some []) := by
  unfold visitValue
  have b1 : transformersOf "base64Offset".toList ≠ none := by decide
  have b2 : transformersOf "cidr".toList ≠ none := by decide
  have htrans := transforms_none_iff m.modifiers v
  generalize "base64Offset".toList = s1 at *
  generalize "cidr".toList = s2 at *
  by_cases hn : transformers m.modifiers = []
  · rw [if_neg (fun h => h hn), visitTerm_none_iff]
    have hp := (transformers_nil_iff m.modifiers).1 hn
    constructor
    · intro hh; exact .inr (.inr hh)
    · rintro (hm | hm | hm)
      · exact absurd (hp _ hm) b1
      · exact absurd (hp _ hm) b2
      · exact hm
  · rw [if_pos hn]
    unfold visitTransformed
    cases hs : seqMap (fun t => transform v t) (transformers m.modifiers) with
    | none =>
      simp only [true_iff]
      rcases htrans.1 hs with h | h
      · exact .inl h
      · exact .inr (.inl h)
    | some vss =>
      have hno : ¬ (s1 ∈ m.modifiers ∨ s2 ∈ m.modifiers) := by
        intro hh
        rw [htrans.2 hh] at hs; cases hs
      simp only [Option.map_eq_none_iff]
      rw [seqMap_none_iff]
      constructor
      · rintro ⟨w, _, hw⟩; exact .inr (.inr ((visitTerm_none_iff ops fm _ _ w).1 hw))
      · intro hh
        have hfm : fm.get m.field = some [] := by
          rcases hh with h | h | h
          · exact absurd (.inl h) hno
          · exact absurd (.inr h) hno
          · exact h
        obtain ⟨f, hf⟩ := List.exists_mem_of_ne_nil _ hn
        obtain ⟨ws, hws, hfw⟩ := seqMap_val _ _ _ hs f hf
        obtain ⟨w, hw⟩ := List.exists_mem_of_ne_nil _ (transform_ne_nil v f ws hfw)
        exact ⟨w, List.mem_flatten.2 ⟨ws, hws, hw⟩, (visitTerm_none_iff ops fm _ _ w).2 hfm⟩

/-- C28 (finding): compilation of a field matcher panics exactly when it lists a value and either uses the
unimplemented modifiers `base64Offset` or `cidr`, or its field is mapped to no target. -/
theorem sigma_matcher_panics_iff (ops : Operations R) (fm : FieldMappings) (m : FieldMatcher) :
    visitMatcher ops fm m = none ↔ m.values ≠ [] ∧
      ("base64Offset".toList ∈ m.modifiers ∨ "cidr".toList ∈ m.modifiers ∨ fm.get m.field = some []) := by
  unfold visitMatcher
  rw [Option.map_eq_none_iff, seqMap_none_iff]
  constructor
  · rintro ⟨v, hv, hh⟩
    exact ⟨List.ne_nil_of_mem hv, (visitValue_none_iff ops fm m v).1 hh⟩
  · rintro ⟨hne, hh⟩
    obtain ⟨v, hv⟩ := List.exists_mem_of_ne_nil _ hne
    exact ⟨v, hv, (visitValue_none_iff ops fm m v).2 hh⟩

/-! ## C30: rules -/

/-- C30: priority is the level's, compared case-insensitively; informational otherwise. -/
theorem sigma_priority (C : CaseLib) (level : Str) :
    (getPriority C level = .low ↔ C.lower level = "low".toList) ∧ (getPriority C level = .medium ↔ C.lower level = "medium".toList) ∧
    (getPriority C level = .high ↔ C.lower level = "high".toList) ∧ (getPriority C level = .critical ↔ C.lower level = "critical".toList) := by
  unfold getPriority
  generalize C.lower level = l
  have d : "informational".toList ≠ "low".toList ∧ "informational".toList ≠ "medium".toList ∧ "informational".toList ≠ "high".toList ∧
    "informational".toList ≠ "critical".toList ∧ "low".toList ≠ "medium".toList ∧ "low".toList ≠ "high".toList ∧ "low".toList ≠ "critical".toList ∧
    "medium".toList ≠ "high".toList ∧ "medium".toList ≠ "critical".toList ∧ "high".toList ≠ "critical".toList := by decide
  generalize "informational".toList = a at *
  generalize "low".toList = b at *
  generalize "medium".toList = c at *
  generalize "high".toList = e at *
  generalize "critical".toList = f at *
  obtain ⟨d1, d2, d3, d4, d5, d6, d7, d8, d9, d10⟩ := d
  by_cases h1 : l = a
  · subst h1; simp [d1, d2, d3, d4]
  by_cases h2 : l = b
  · subst h2; simp [h1, d5, d6, d7]
  by_cases h3 : l = c
  · subst h3; simp [h1, h2, d8, d9]
  by_cases h4 : l = e
  · subst h4; simp [h1, h2, h3, d10]
  by_cases h5 : l = f
  · subst h5; simp [h1, h2, h3, h4]
  simp [h1, h2, h3, h4, h5]

/-- The parsed rules, in file order. -/
def parsed : List RuleFile → List SigmaRule
  | [] => []
  | .ok r :: fs => r :: parsed fs
  | _ :: fs => parsed fs

theorem readRules_eq (files : List RuleFile) (rs : List SigmaRule) (h : readRules files = some rs) : rs = parsed files := by
  induction files generalizing rs with
  | nil => simp [readRules] at h; simp [h, parsed]
  | cons f fs ih =>
    cases f with
    | unreadable => simp [readRules] at h
    | unparsable => simp only [readRules] at h; exact ih rs h
    | ok r =>
      simp only [readRules, Option.map_eq_some_iff] at h
      obtain ⟨rs', h1, rfl⟩ := h
      rw [parsed, ih rs' h1]

/-- C30: when compilation succeeds, the engine rules are exactly one per condition of each parsed rule, in
order: `(rule, condition)` number `i` gives engine rule number `i`, named by the rule's id, enabled, without
actions or prefilter, with the rule's priority and tags, its condition compiled with the configured field
mappings. -/
theorem sigma_rules (C : CaseLib) (ops : Operations R) (glob : Str → Str → Bool) (files : List RuleFile) (cfg : ConfigFile)
    (out : List (Rule R)) (h : compile C ops glob files cfg = some (some out)) :
    ∃ fm, readConfig cfg = some fm ∧
    let sites := (parsed files).flatMap (fun r => r.conditions.map (fun e => (r, e)))
    out.length = sites.length ∧
    ∀ (i : Nat) (r : SigmaRule) (e : SearchExpr), sites[i]? = some (r, e) → ∃ rule, out[i]? = some rule ∧
      rule.name = r.id ∧ rule.desc = r.description ∧ rule.enabled = true ∧ rule.actions = [] ∧ rule.prefilter = [] ∧
      rule.tags = r.tags.map (fun t => [t]) ∧ rule.priority = getPriority C r.level ∧
      visitExpr ops fm glob r.searches e = some rule.condition := by
  unfold compile at h
  cases hr : readRules files with
  | none => simp [hr] at h
  | some rs =>
    simp only [hr] at h
    cases hc : readConfig cfg with
    | none => simp [hc] at h
    | some fm =>
      simp only [hc, Option.map_eq_some_iff, Option.some.injEq] at h
      obtain ⟨outs, ho, rfl⟩ := h
      refine ⟨fm, rfl, ?_⟩
      rw [← readRules_eq files rs hr]
      clear hr hc
      induction rs generalizing outs with
      | nil =>
        simp only [seqMap, Option.some.injEq] at ho
        subst ho
        simp
      | cons r rs ih =>
        rw [seqMap] at ho
        cases h1 : compileRule C ops fm glob r with
        | none => simp [h1] at ho
        | some o =>
          cases h2 : seqMap (compileRule C ops fm glob) rs with
          | none => simp [h1, h2] at ho
          | some os =>
            simp only [h1, h2, Option.some.injEq] at ho
            subst ho
            obtain ⟨i1, i2⟩ := ih os h2
            unfold compileRule at h1
            rw [Option.map_eq_some_iff] at h1
            obtain ⟨cs, hcs, rfl⟩ := h1
            have key : ∀ (es : List SearchExpr) (cs : List (Criterion R)), seqMap (visitExpr ops fm glob r.searches) es = some cs →
                cs.length = es.length ∧ ∀ (i : Nat) (e : SearchExpr), es[i]? = some e → ∃ c, cs[i]? = some c ∧ visitExpr ops fm glob r.searches e = some c := by
              intro es
              induction es with
              | nil => intro cs h; simp only [seqMap, Option.some.injEq] at h; subst h; simp
              | cons e es ihe =>
                intro cs h
                rw [seqMap] at h
                cases h3 : visitExpr ops fm glob r.searches e with
                | none => simp [h3] at h
                | some c =>
                  cases h4 : seqMap (visitExpr ops fm glob r.searches) es with
                  | none => simp [h3, h4] at h
                  | some cs' =>
                    simp only [h3, h4, Option.some.injEq] at h
                    subst h
                    obtain ⟨j1, j2⟩ := ihe cs' h4
                    refine ⟨by simp [j1], ?_⟩
                    intro i e' he'
                    cases i with
                    | zero => simp at he'; subst he'; exact ⟨c, by simp, h3⟩
                    | succ i => simp at he'; simpa using j2 i e' he'
            obtain ⟨k1, k2⟩ := key r.conditions cs hcs
            simp only [List.flatMap_cons, List.flatten_cons]
            refine ⟨by simp [k1, i1], ?_⟩
            intro i r' e he
            by_cases hi : i < r.conditions.length
            · rw [List.getElem?_append_left (by simpa using hi)] at he
              rw [List.getElem?_append_left (by simpa [k1] using hi)]
              rw [List.getElem?_map, Option.map_eq_some_iff] at he
              obtain ⟨e', he', heq⟩ := he
              cases heq
              obtain ⟨c, hc, hv⟩ := k2 i e he'
              exact ⟨mkRule C r c, by simp [hc], rfl, rfl, rfl, rfl, rfl, rfl, rfl, hv⟩
            · rw [List.getElem?_append_right (by simpa using hi)] at he
              rw [List.getElem?_append_right (by simpa [k1] using hi)]
              simp only [List.length_map, k1] at he ⊢
              exact i2 _ r' e he

/-- C30: a file that does not parse contributes nothing and does not affect the others. -/
theorem sigma_unparsable_ignored (C : CaseLib) (ops : Operations R) (glob : Str → Str → Bool) (a b : List RuleFile) (cfg : ConfigFile) :
    compile C ops glob (a ++ .unparsable :: b) cfg = compile C ops glob (a ++ b) cfg := by
  have : readRules (a ++ .unparsable :: b) = readRules (a ++ b) := by
    induction a with
    | nil => rfl
    | cons f a ih => cases f <;> simp [readRules, ih]
  unfold compile
  rw [this]

/-- C30: an unreadable rule file or a configuration that cannot be read or parsed fails the whole
compilation. -/
theorem sigma_errors (C : CaseLib) (ops : Operations R) (glob : Str → Str → Bool) (files : List RuleFile) (cfg : ConfigFile) :
    (compile C ops glob files cfg = some none) ↔ (.unreadable ∈ files ∨ cfg = .unreadable ∨ cfg = .malformed) := by
  have hr : readRules files = none ↔ .unreadable ∈ files := by
    induction files with
    | nil => simp [readRules]
    | cons f fs ih => cases f <;> simp [readRules, ih]
  have hc : readConfig cfg = none ↔ (cfg = .unreadable ∨ cfg = .malformed) := by cases cfg <;> simp [readConfig]
  rw [← hr, ← hc]
  unfold compile
  cases readRules files with
  | none => simp
  | some rs =>
    cases readConfig cfg with
    | none => simp
    | some fm => simp

/-! ## Compiled conditions are built from the source's operations -/

theorem term_built (ops : Operations R) (fm : FieldMappings) (cmps : List Operator) (attr v : Str) (c : Criterion R)
    (h : visitTerm ops fm cmps attr v = some c) : Built ops c := by
  unfold visitTerm at h
  cases hm : mapField fm attr with
  | none => simp [hm] at h
  | some t =>
    simp only [hm] at h
    split at h
    · simp only [Option.some.injEq] at h; subst h
      refine Built.all _ ?_
      intro d hd
      have : d = ops.compare t v .IEq := by simpa using hd
      subst this; exact .compare ..
    · simp only [Option.some.injEq] at h; subst h
      refine Built.all _ ?_
      intro d hd
      obtain ⟨op, _, rfl⟩ := List.mem_map.1 hd
      exact .compare ..

theorem search_built (ops : Operations R) (fm : FieldMappings) (s : Search) (c : Criterion R) (h : visitSearch ops fm s = some c) :
    Built ops c := by
  unfold visitSearch at h
  split at h
  · simp only [Option.some.injEq] at h; subst h; exact .ff
  · rw [Option.map_eq_some_iff] at h
    obtain ⟨ds, hds, rfl⟩ := h
    refine Built.all _ fun d hd => ?_
    obtain ⟨m, _, hm⟩ := (seqMap_mem _ _ _ hds d).1 hd
    unfold visitMatcher at hm
    rw [Option.map_eq_some_iff] at hm
    obtain ⟨vs, hvs, rfl⟩ := hm
    have hv : ∀ x ∈ vs, Built ops x := by
      intro x hx
      obtain ⟨v, _, hv⟩ := (seqMap_mem _ _ _ hvs x).1 hx
      unfold visitValue at hv
      split at hv
      · unfold visitTransformed at hv
        cases hs : seqMap (fun t => transform v t) (transformers m.modifiers) with
        | none => simp [hs] at hv
        | some vss =>
          simp only [hs, Option.map_eq_some_iff] at hv
          obtain ⟨ts, hts, rfl⟩ := hv
          refine Built.any _ fun y hy => ?_
          obtain ⟨w, _, hw⟩ := (seqMap_mem _ _ _ hts y).1 hy
          exact term_built ops fm _ _ _ _ hw
      · exact term_built ops fm _ _ _ _ hv
    split
    · exact Built.all _ hv
    · exact Built.any _ hv

/-- C27: a compiled Sigma condition uses only the source's operations and Boolean connectives. -/
theorem sigma_built (ops : Operations R) (fm : FieldMappings) (glob : Str → Str → Bool) (S : GoMap Search) :
    ∀ (e : SearchExpr) (c : Criterion R), visitExpr ops fm glob S e = some c → Built ops c
  | .ident n, c, h => by
    rw [visitExpr] at h
    cases hg : S.get n with
    | none => simp only [hg, Option.some.injEq] at h; subst h; exact .ff
    | some s => simp only [hg] at h; exact search_built ops fm s c h
  | .and es, c, h => by
    rw [visitExpr, visitExprs_some, Option.map_eq_some_iff] at h
    obtain ⟨ds, hds, rfl⟩ := h
    refine Built.all _ fun d hd => ?_
    obtain ⟨e, he, hdv⟩ := (seqMap_mem _ _ _ hds d).1 hd
    exact sigma_built ops fm glob S e d hdv
  | .or es, c, h => by
    rw [visitExpr, visitExprs_some, Option.map_eq_some_iff] at h
    obtain ⟨ds, hds, rfl⟩ := h
    refine Built.any _ fun d hd => ?_
    obtain ⟨e, he, hdv⟩ := (seqMap_mem _ _ _ hds d).1 hd
    exact sigma_built ops fm glob S e d hdv
  | .not e, c, h => by
    rw [visitExpr, Option.map_eq_some_iff] at h
    obtain ⟨d, hd, rfl⟩ := h
    exact .not _ (sigma_built ops fm glob S e d hd)
  | .oneOfThem, c, h => by
    rw [visitExpr, Option.map_eq_some_iff] at h
    obtain ⟨ds, hds, rfl⟩ := h
    refine Built.any _ fun d hd => ?_
    obtain ⟨p, _, hdv⟩ := (seqMap_mem _ _ _ hds d).1 hd
    exact search_built ops fm _ d hdv
  | .oneOfPattern pat, c, h => by
    rw [visitExpr, Option.map_eq_some_iff] at h
    obtain ⟨ds, hds, rfl⟩ := h
    refine Built.any _ fun d hd => ?_
    obtain ⟨p, _, hdv⟩ := (seqMap_mem _ _ _ hds d).1 hd
    exact search_built ops fm _ d hdv
  | .allOfThem, c, h => by
    rw [visitExpr, Option.map_eq_some_iff] at h
    obtain ⟨ds, hds, rfl⟩ := h
    refine Built.all _ fun d hd => ?_
    obtain ⟨p, _, hdv⟩ := (seqMap_mem _ _ _ hds d).1 hd
    exact search_built ops fm _ d hdv
  | .allOfPattern pat, c, h => by
    rw [visitExpr, Option.map_eq_some_iff] at h
    obtain ⟨ds, hds, rfl⟩ := h
    refine Built.all _ fun d hd => ?_
    obtain ⟨p, _, hdv⟩ := (seqMap_mem _ _ _ hds d).1 hd
    exact search_built ops fm _ d hdv
  | .other, c, h => by
    rw [visitExpr] at h
    simp only [Option.some.injEq] at h
    subst h; exact .ff
termination_by e => sizeOf e

end Verif.Sigma
