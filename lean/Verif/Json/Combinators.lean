import Verif.Json.EscapeProps
/-
When the reader accepts a composed text: lemmas used for the encoder.
-/
namespace Verif.Json

/-- Nothing that could continue a number follows. -/
def Delim (rest : Bytes) : Prop := ∀ c, rest.head? = some c → isNumChar c = false

theorem delim_nil : Delim [] := fun _ h => by cases h
theorem delim_cons (c : UInt8) (r : Bytes) (h : isNumChar c = false) : Delim (c :: r) := by
  intro d hd; simp only [List.head?_cons, Option.some.injEq] at hd; subst hd; exact h

/-- `b` is the text of the value `v`, whatever follows. -/
def Reads (b : Bytes) (v : JVal) : Prop :=
  ∀ f rest, b.length < f → Delim rest → readVal f (b ++ rest) = some (v, rest)

/-- `b` is the text of the member `(k, v)` of an object. -/
def ReadsMember (b : Bytes) (m : List Nat × JVal) : Prop :=
  ∃ kb vb, b = kb ++ 0x3A :: vb ∧ (∀ rest, readString (kb ++ rest) = some (m.1, rest)) ∧ Reads vb m.2

/-- The first bytes that the reader dispatches on. -/
theorem reads_str (s : Bytes) (n : List Nat) (h : ∀ rest, readString (s ++ rest) = some (n, rest)) : Reads s (.str n) := by
  intro f rest hf _
  cases f with
  | zero => omega
  | succ f =>
    have h' := h rest
    cases hs : s ++ rest with
    | nil => rw [hs] at h'; cases h'
    | cons c r =>
      have hc : c = 0x22 := by
        rw [hs] at h'
        unfold readString at h'
        split at h'
        · rename_i heq; cases heq; rfl
        · cases h'
      subst hc
      rw [hs] at h'
      simp only [readVal, if_true, h']

theorem reads_quote (s : Bytes) : Reads (quote s) (.str (runes s)) := reads_str _ _ (string_round_trip s)

theorem reads_text (s : Verif.Decimal.Str) : Reads (quote (Utf8.bytes s)) (.str (cps s)) := reads_str _ _ (text_round_trip s)

theorem reads_true : Reads tTrue (.bool true) := by
  intro f rest hf _
  cases f with
  | zero => omega
  | succ f =>
    simp only [tTrue, List.cons_append, List.nil_append]
    unfold readVal
    simp [lit, tTrue]

theorem reads_false : Reads tFalse (.bool false) := by
  intro f rest hf _
  cases f with
  | zero => omega
  | succ f =>
    simp only [tFalse, List.cons_append, List.nil_append]
    unfold readVal
    simp [lit, tFalse]

/-- number characters are none of the other openers -/
theorem numChar_facts (c : UInt8) (h : isNumChar c = true) :
    c ≠ 0x22 ∧ c ≠ 0x5B ∧ c ≠ 0x7B ∧ c ≠ 0x74 ∧ c ≠ 0x66 ∧ c ≠ 0x6E := by
  refine ⟨?_, ?_, ?_, ?_, ?_, ?_⟩ <;> intro hc <;> subst hc <;> revert h <;> decide

theorem takeWhile_append_all {α : Type} (p : α → Bool) (a b : List α) (ha : ∀ x ∈ a, p x = true)
    (hb : ∀ x, b.head? = some x → p x = false) : (a ++ b).takeWhile p = a := by
  induction a with
  | nil =>
    cases b with
    | nil => rfl
    | cons y ys => simp [hb y rfl]
  | cons x xs ih =>
    simp only [List.cons_append, List.takeWhile_cons, ha x (.head _), if_true]
    rw [ih (fun z hz => ha z (.tail _ hz))]

theorem isNumber_ne_nil (t : Bytes) (h : isNumber t = true) : t ≠ [] := by
  intro ht; subst ht; revert h; decide

theorem reads_num (t : Bytes) (hall : ∀ c ∈ t, isNumChar c = true) (hn : isNumber t = true) : Reads t (.num t) := by
  intro f rest hf hd
  cases f with
  | zero => omega
  | succ f =>
    cases ht : t with
    | nil => exact absurd ht (isNumber_ne_nil t hn)
    | cons c r =>
      subst ht
      obtain ⟨h1, h2, h3, h4, h5, h6⟩ := numChar_facts c (hall c (.head _))
      have hr : readNumber (c :: (r ++ rest)) = some (c :: r, rest) := by
        unfold readNumber
        have := takeWhile_append_all isNumChar (c :: r) rest hall hd
        simp only [List.cons_append] at this
        simp only [this, hn, if_true, List.length_cons, List.drop_succ_cons]
        rw [List.drop_append_of_le_length (by simp), List.drop_of_length_le (by simp), List.nil_append]
      simp only [List.cons_append, readVal]
      rw [if_neg h1, if_neg h2, if_neg h3, if_neg h4, if_neg h5, if_neg h6, hr]

/-! ### Arrays and objects -/

/-- Elements with commas between them. -/
def commas : List Bytes → Bytes
  | [] => []
  | [b] => b
  | b :: bs => b ++ 0x2C :: commas bs

theorem commas_cons_cons (b c : Bytes) (bs : List Bytes) : commas (b :: c :: bs) = b ++ 0x2C :: commas (c :: bs) := rfl

inductive AllReads : List Bytes → List JVal → Prop
  | nil : AllReads [] []
  | cons {b v bs vs} : Reads b v → AllReads bs vs → AllReads (b :: bs) (v :: vs)

inductive AllMembers : List Bytes → List (List Nat × JVal) → Prop
  | nil : AllMembers [] []
  | cons {b m bs ms} : ReadsMember b m → AllMembers bs ms → AllMembers (b :: bs) (m :: ms)

theorem AllMembers.append {bs ms bs' ms'} (h : AllMembers bs ms) (h' : AllMembers bs' ms') :
    AllMembers (bs ++ bs') (ms ++ ms') := by
  induction h with
  | nil => exact h'
  | cons hm _ ih => exact .cons hm ih

theorem AllReads.append {bs ms bs' ms'} (h : AllReads bs ms) (h' : AllReads bs' ms') :
    AllReads (bs ++ bs') (ms ++ ms') := by
  induction h with
  | nil => exact h'
  | cons hm _ ih => exact .cons hm ih

theorem allReads_map {A : Type} (f : A → Bytes) (g : A → JVal) (l : List A) (h : ∀ a ∈ l, Reads (f a) (g a)) :
    AllReads (l.map f) (l.map g) := by
  induction l with
  | nil => exact .nil
  | cons a l ih => exact .cons (h a (.head _)) (ih (fun x hx => h x (.tail _ hx)))

theorem allMembers_map {A : Type} (f : A → Bytes) (g : A → List Nat × JVal) (l : List A)
    (h : ∀ a ∈ l, ReadsMember (f a) (g a)) : AllMembers (l.map f) (l.map g) := by
  induction l with
  | nil => exact .nil
  | cons a l ih => exact .cons (h a (.head _)) (ih (fun x hx => h x (.tail _ hx)))

theorem readElems_commas (b : Bytes) (v : JVal) (bs : List Bytes) (vs : List JVal) (hb : Reads b v) (h : AllReads bs vs)
    (f : Nat) (rest : Bytes) (hf : (commas (b :: bs)).length + 1 < f) :
    readElems f (commas (b :: bs) ++ 0x5D :: rest) = some (v :: vs, rest) := by
  induction h generalizing b v f with
  | nil =>
    simp only [commas] at hf ⊢
    cases f with
    | zero => omega
    | succ f =>
      simp only [readElems]
      rw [hb f _ (by omega) (delim_cons _ _ (by decide))]
      rfl
  | @cons b' v' bs' vs' hb' ht ih =>
    rw [commas_cons_cons] at hf ⊢
    simp only [List.length_append, List.length_cons] at hf
    cases f with
    | zero => omega
    | succ f =>
      simp only [readElems, List.append_assoc, List.cons_append]
      rw [hb f _ (by omega) (delim_cons _ _ (by decide))]
      simp only
      rw [ih b' v' hb' f (by omega)]

theorem reads_nonempty {b : Bytes} {v : JVal} (h : Reads b v) : ∃ c r, b = c :: r ∧ c ≠ 0x5D ∧ c ≠ 0x7D := by
  cases b with
  | nil =>
    have := h 1 [] (by simp) delim_nil
    simp [readVal] at this
  | cons c r =>
    refine ⟨c, r, rfl, ?_, ?_⟩
    · intro hc; subst hc
      have := h ((0x5D :: r).length + 1) [] (by simp) delim_nil
      simp [readVal, readNumber, isNumChar, isNumber, isDigit, unsigned, intPart, digits1] at this
    · intro hc; subst hc
      have := h ((0x7D :: r).length + 1) [] (by simp) delim_nil
      simp [readVal, readNumber, isNumChar, isNumber, isDigit, unsigned, intPart, digits1] at this

theorem commas_head {b : Bytes} (bs : List Bytes) {c : UInt8} {r : Bytes} (h : b = c :: r) :
    ∃ r', commas (b :: bs) = c :: r' := by
  subst h
  cases bs with
  | nil => exact ⟨r, rfl⟩
  | cons d ds => exact ⟨_, rfl⟩

theorem reads_arr (bs : List Bytes) (vs : List JVal) (h : AllReads bs vs) :
    Reads (0x5B :: commas bs ++ [0x5D]) (.arr vs) := by
  intro f rest hf hd
  cases f with
  | zero => omega
  | succ f =>
    cases h with
    | nil => simp [commas, readVal]
    | @cons b v bs vs hb ht =>
      obtain ⟨c, r, hbc, hc, -⟩ := reads_nonempty hb
      obtain ⟨r', hr'⟩ := commas_head bs hbc
      have hl : (commas (b :: bs)).length + 1 < f := by
        simp only [List.cons_append, List.length_cons, List.length_append, List.length_nil] at hf; omega
      have := readElems_commas b v bs vs hb ht f rest hl
      simp only [List.cons_append, List.append_assoc, List.nil_append, readVal]
      rw [if_neg (by decide), if_pos trivial]
      rw [hr'] at this ⊢
      simp only [List.cons_append] at this ⊢
      split
      · rename_i heq; cases heq; exact absurd rfl hc
      · rw [this]

theorem readMembers_commas (b : Bytes) (m : List Nat × JVal) (bs : List Bytes) (ms : List (List Nat × JVal))
    (hb : ReadsMember b m) (h : AllMembers bs ms) (f : Nat) (rest : Bytes) (hf : (commas (b :: bs)).length + 1 < f) :
    readMembers f (commas (b :: bs) ++ 0x7D :: rest) = some (m :: ms, rest) := by
  induction h generalizing b m f with
  | nil =>
    obtain ⟨kb, vb, rfl, hk, hv⟩ := hb
    simp only [commas, List.length_append, List.length_cons] at hf ⊢
    cases f with
    | zero => omega
    | succ f =>
      simp only [readMembers, List.append_assoc, List.cons_append]
      rw [hk]
      simp only
      rw [hv f _ (by omega) (delim_cons _ _ (by decide))]
      rfl
  | @cons b' m' bs' ms' hb' ht ih =>
    obtain ⟨kb, vb, rfl, hk, hv⟩ := hb
    rw [commas_cons_cons] at hf ⊢
    simp only [List.length_append, List.length_cons] at hf
    cases f with
    | zero => omega
    | succ f =>
      simp only [readMembers, List.append_assoc, List.cons_append]
      rw [hk]
      simp only
      rw [hv f _ (by omega) (delim_cons _ _ (by decide))]
      simp only
      rw [ih b' m' hb' f (by omega)]

theorem member_nonempty {b : Bytes} {m : List Nat × JVal} (h : ReadsMember b m) : ∃ r, b = 0x22 :: r := by
  obtain ⟨kb, vb, rfl, hk, -⟩ := h
  have h0 := hk (0x3A :: vb)
  cases hkb : kb ++ 0x3A :: vb with
  | nil => simp at hkb
  | cons c r =>
    rw [hkb] at h0
    unfold readString at h0
    split at h0
    · rename_i heq; cases heq; exact ⟨_, rfl⟩
    · cases h0

theorem reads_obj (bs : List Bytes) (ms : List (List Nat × JVal)) (h : AllMembers bs ms) :
    Reads (0x7B :: commas bs ++ [0x7D]) (.obj ms) := by
  intro f rest hf hd
  cases f with
  | zero => omega
  | succ f =>
    cases h with
    | nil => simp [commas, readVal]
    | @cons b m bs ms hb ht =>
      obtain ⟨r, hbc⟩ := member_nonempty hb
      obtain ⟨r', hr'⟩ := commas_head bs hbc
      have hl : (commas (b :: bs)).length + 1 < f := by
        simp only [List.cons_append, List.length_cons, List.length_append, List.length_nil] at hf; omega
      have := readMembers_commas b m bs ms hb ht f rest hl
      simp only [List.cons_append, List.append_assoc, List.nil_append, readVal]
      rw [if_neg (by decide), if_neg (by decide), if_pos trivial]
      rw [hr'] at this ⊢
      simp only [List.cons_append] at this ⊢
      split
      · rename_i heq; cases heq
      · rw [this]

theorem read_of_reads {b : Bytes} {v : JVal} (h : Reads b v) : read b = some v := by
  have := h (b.length + 1) [] (by omega) delim_nil
  rw [List.append_nil] at this
  simp only [read, this]

/-! ### Failing texts -/

/-- No value can be read at the front of `b`. -/
def Stuck (b : Bytes) : Prop := ∀ f, readVal f b = none

/-- Good members, then a member whose value cannot be read. -/
theorem readMembers_stuck (bs : List Bytes) (ms : List (List Nat × JVal)) (h : AllMembers bs ms) (kb vb : Bytes) (k : List Nat)
    (hk : ∀ rest, readString (kb ++ rest) = some (k, rest)) (hv : Stuck vb) (f : Nat)
    (hf : ((bs.flatMap (fun b => b ++ [0x2C]))).length < f) :
    readMembers f (bs.flatMap (fun b => b ++ [0x2C]) ++ (kb ++ 0x3A :: vb)) = none := by
  induction h generalizing f with
  | nil =>
    simp only [List.flatMap_nil, List.nil_append]
    cases f with
    | zero => rfl
    | succ f =>
      simp only [readMembers]
      rw [hk]
      simp only [hv f]
  | @cons b m bs ms hb _ ih =>
    obtain ⟨kb', vb', rfl, hk', hv'⟩ := hb
    simp only [List.flatMap_cons, List.append_assoc, List.cons_append, List.nil_append, List.length_append, List.length_cons, List.length_nil] at hf ⊢
    cases f with
    | zero => omega
    | succ f =>
      simp only [readMembers]
      rw [hk']
      simp only
      rw [hv' f _ (by omega) (delim_cons _ _ (by decide))]
      simp only
      rw [ih f (by omega)]

theorem stuck_comma (r : Bytes) : Stuck (0x2C :: r) := by
  intro f
  cases f with
  | zero => rfl
  | succ f =>
    simp [readVal, readNumber, isNumChar, isNumber, isDigit, unsigned, intPart, digits1]

end Verif.Json
