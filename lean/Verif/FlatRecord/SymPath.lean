import Verif.FlatRecord.Record
import Verif.Base.Space
/-
Paths of links: `parseSymPath`, with the Go library's `fmt.Sscanf` for the two formats it uses.
Sources: /repo/core/policyengine/source/flatrecord/utils.go, fieldmapper.go
-/
namespace Verif.FlatRecord.SymPath
open Verif.Decimal (Str)
open Verif.Strings (isSpace whiteSpace)

/-! ### Model -/

/-- The digits that `%x` accepts (fmt/scan.go, `hexadecimalDigits`), with their values. -/
def hexVal (c : Char) : Option Nat :=
  if '0' ≤ c ∧ c ≤ '9' then some (c.toNat - 48)
  else if 'a' ≤ c ∧ c ≤ 'f' then some (c.toNat - 87)
  else if 'A' ≤ c ∧ c ≤ 'F' then some (c.toNat - 55)
  else none

/-- `strconv.ParseUint(tok, 16, _)` on hexadecimal digits, before the range check. -/
def hexNumber (tok : Str) : Nat := tok.foldl (fun n c => n * 16 + (hexVal c).getD 0) 0

/-- `SkipSpace` of the scanner (fmt/scan.go) when newlines count, as in `Sscanf`: `none` is the error at a newline. -/
def skipSpace : Str → Option Str
  | [] => some []
  | c :: s => if c = '\n' then none else if isSpace c then skipSpace s else some (c :: s)

/-- The verb `%x` for a `uint64` (fmt/scan.go, `scanUint`, `scanNumber`): digits as long as there are any; no digit, or a number that does not fit, is an error. -/
def scanHex (s : Str) : Option (Nat × Str) :=
  (skipSpace s).bind fun t =>
    let tok := t.takeWhile (fun c => (hexVal c).isSome)
    if tok = [] then none
    else if hexNumber tok < 2 ^ 64 then some (hexNumber tok, t.dropWhile (fun c => (hexVal c).isSome)) else none

/-- Literal characters of the format (fmt/scan.go, `advance`). -/
def literal : Str → Str → Option Str
  | [], s => some s
  | _ :: _, [] => none
  | l :: ls, c :: s => if l = c then literal ls s else none

/-- A space in the format (fmt/scan.go, `advance`): at least one space that is no newline, or the end. -/
def formatSpace : Str → Option Str
  | [] => some []
  | c :: s => if isSpace c ∧ c ≠ '\n' then some (s.dropWhile (fun c => isSpace c && c != '\n')) else none

/-- The verb `%s` (fmt/scan.go, `convertString`): the next word. What follows it is left. -/
def scanWord (s : Str) : Option Str :=
  (skipSpace s).bind fun t => if t = [] then none else some (t.takeWhile (fun c => !isSpace c))

/-- `fmt.Sscanf(orig, "%x<sep>%x %s", &src, &dst, &targetPath)`; `none` is an error. -/
def sscan (sep s : Str) : Option (Nat × Nat × Str) :=
  (scanHex s).bind fun a => (literal sep a.2).bind fun t => (scanHex t).bind fun b => (formatSpace b.2).bind fun u => (scanWord u).map fun w => (a.1, b.1, w)

/-- `fmt.Sprintf("%x", n)`. -/
def hex (n : Nat) : Str := Nat.toDigits 16 n

def arrow : Str := "->".toList
def escaped : Str := "-\\u".toList

/-- `parseSymPath` (utils.go:29-42) on the stored path. -/
def parseSymPath (orig : Str) : Str × Str :=
  match sscan arrow orig with
  | some (src, dst, path) => (path, hex src ++ arrow ++ hex dst)
  | none =>
    match sscan escaped orig with
    | some (src, dst, path) => (path, hex src ++ escaped ++ hex dst)
    | none => (orig, [])

/-! ### Specification -/

/-- Blank: white space without line breaks. -/
def Blank (s : Str) : Prop := ∀ c ∈ s, c.toNat ∈ whiteSpace ∧ c ≠ '\n'

/-- A hexadecimal digit, upper or lower case. -/
def hexDigits : Str := "0123456789abcdefABCDEF".toList

/-- A number in hexadecimal below 2⁶⁴. -/
structure Hex (s : Str) (n : Nat) : Prop where
  some : s ≠ []
  digits : ∀ c ∈ s, c ∈ hexDigits
  val : hexNumber s = n
  small : n < 2 ^ 64

/-- `p` reads: blanks, a number, the separator, blanks, a number, at least one blank, a word; then the end or a space and anything. -/
def Form (sep p : Str) (a b : Nat) (w : Str) : Prop :=
  ∃ s0 h1 s1 h2 s2 rest, p = s0 ++ (h1 ++ (sep ++ (s1 ++ (h2 ++ (s2 ++ (w ++ rest)))))) ∧ Blank s0 ∧ Hex h1 a ∧ Blank s1 ∧ Hex h2 b ∧ (s2 ≠ [] ∧ Blank s2) ∧
    (w ≠ [] ∧ ∀ c ∈ w, c.toNat ∉ whiteSpace) ∧ (∀ c, rest.head? = some c → c.toNat ∈ whiteSpace)

/-! ### Proofs -/

theorem hexVal_iff (c : Char) : (hexVal c).isSome = true ↔ c ∈ hexDigits := by
  have hle : ∀ a b : Char, a ≤ b ↔ a.toNat ≤ b.toNat := fun a b => Iff.rfl
  have hn : ∀ n : Nat, ∀ h : n.isValidChar, (c = Char.ofNatAux n h ↔ c.toNat = n) := by
    intro n h
    constructor
    · intro e; subst e; rfl
    · intro e; apply Char.ext; apply UInt32.toNat_inj.1; exact e
  unfold hexVal hexDigits
  have key : c ∈ "0123456789abcdefABCDEF".toList ↔ c.toNat ∈ "0123456789abcdefABCDEF".toList.map Char.toNat := by
    rw [List.mem_map]
    constructor
    · intro h; exact ⟨c, h, rfl⟩
    · rintro ⟨d, hd, e⟩
      have : d = c := by apply Char.ext; apply UInt32.toNat_inj.1; exact e
      rw [← this]; exact hd
  rw [key]
  have hm : "0123456789abcdefABCDEF".toList.map Char.toNat = [48,49,50,51,52,53,54,55,56,57,97,98,99,100,101,102,65,66,67,68,69,70] := by decide +kernel
  rw [hm]
  simp only [hle]
  have e1 : '0'.toNat = 48 := rfl
  have e2 : '9'.toNat = 57 := rfl
  have e3 : 'a'.toNat = 97 := rfl
  have e4 : 'f'.toNat = 102 := rfl
  have e5 : 'A'.toNat = 65 := rfl
  have e6 : 'F'.toNat = 70 := rfl
  rw [e1, e2, e3, e4, e5, e6]
  simp only [List.mem_cons, List.not_mem_nil, or_false]
  split
  · simp; omega
  · split
    · simp; omega
    · split
      · simp; omega
      · simp; omega

theorem hex_not_space (c : Char) (h : c ∈ hexDigits) : isSpace c = false := by
  have : ∀ d ∈ hexDigits, isSpace d = false := by decide +kernel
  exact this c h

theorem space_not_hex (c : Char) (h : isSpace c = true) : hexVal c = none := by
  cases hv : hexVal c with
  | none => rfl
  | some n =>
    have := hex_not_space c ((hexVal_iff c).1 (by rw [hv]; rfl))
    rw [h] at this
    cases this

theorem skipSpace_iff (s t : Str) : skipSpace s = some t ↔ ∃ b, s = b ++ t ∧ Blank b ∧ (∀ c, t.head? = some c → c.toNat ∉ whiteSpace) := by
  induction s with
  | nil =>
    constructor
    · intro h; cases h; exact ⟨[], rfl, fun c hc => (by cases hc), fun c hc => (by cases hc)⟩
    · rintro ⟨b, h, -, -⟩
      rw [List.nil_eq, List.append_eq_nil_iff] at h
      rw [h.2]; rfl
  | cons c s ih =>
    unfold skipSpace
    have hsp := Strings.isSpace_iff c
    have hnl : isSpace '\n' = true := by decide
    constructor
    · intro h
      split at h
      · cases h
      · rename_i hc
        split at h
        · rename_i hs
          obtain ⟨b, h1, h2, h3⟩ := ih.1 h
          refine ⟨c :: b, by rw [h1]; rfl, ?_, h3⟩
          intro d hd
          rcases List.mem_cons.1 hd with rfl | hd
          · exact ⟨hsp.1 hs, hc⟩
          · exact h2 d hd
        · rename_i hs
          cases h
          refine ⟨[], rfl, fun c hc => (by cases hc), ?_⟩
          intro d hd
          cases hd
          exact fun h => hs (hsp.2 h)
    · rintro ⟨b, h1, h2, h3⟩
      cases b with
      | nil =>
        rw [List.nil_append] at h1
        subst h1
        have := h3 c rfl
        have hs : isSpace c = false := by
          cases hb : isSpace c with
          | false => rfl
          | true => exact absurd (hsp.1 hb) this
        rw [if_neg (by intro e; subst e; rw [hnl] at hs; cases hs), if_neg (by rw [hs]; exact Bool.false_ne_true)]
      | cons d b =>
        rw [List.cons_append, List.cons.injEq] at h1
        obtain ⟨rfl, h1⟩ := h1
        obtain ⟨k1, k2⟩ := h2 c List.mem_cons_self
        rw [if_neg k2, if_pos (hsp.2 k1)]
        exact ih.2 ⟨b, h1, fun d hd => h2 d (List.mem_cons_of_mem _ hd), h3⟩

/-- Splitting at the first character that fails a test. -/
theorem span_iff (q : Char → Bool) (t a r : Str) :
    (t.takeWhile q = a ∧ t.dropWhile q = r) ↔ (t = a ++ r ∧ (∀ c ∈ a, q c = true) ∧ (∀ c, r.head? = some c → q c = false)) := by
  constructor
  · rintro ⟨rfl, rfl⟩
    refine ⟨(List.takeWhile_append_dropWhile).symm, fun c hc => ?_, fun c hc => ?_⟩
    · induction t with
      | nil => cases hc
      | cons d t ih =>
        by_cases hd : q d = true
        · rw [List.takeWhile_cons_of_pos hd] at hc
          rcases List.mem_cons.1 hc with rfl | hc
          · exact hd
          · exact ih hc
        · rw [List.takeWhile_cons_of_neg hd] at hc
          cases hc
    · obtain ⟨-, -, -, h⟩ := Strings.dropWhile_split q t
      exact h c hc
  · rintro ⟨rfl, h1, h2⟩
    induction a with
    | nil =>
      cases r with
      | nil => exact ⟨rfl, rfl⟩
      | cons c r =>
        have := h2 c rfl
        simp [this]
    | cons c a ih =>
      have hc := h1 c List.mem_cons_self
      obtain ⟨i1, i2⟩ := ih (fun d hd => h1 d (List.mem_cons_of_mem _ hd))
      rw [List.cons_append, List.takeWhile_cons_of_pos hc, List.dropWhile_cons_of_pos hc, i1, i2]
      exact ⟨rfl, rfl⟩

theorem scanHex_iff (s : Str) (n : Nat) (r : Str) :
    scanHex s = some (n, r) ↔ ∃ b h, s = b ++ (h ++ r) ∧ Blank b ∧ Hex h n ∧ (∀ c, r.head? = some c → c ∉ hexDigits) := by
  unfold scanHex
  rw [Option.bind_eq_some_iff]
  have hh : ∀ c, (hexVal c).isSome = false ↔ c ∉ hexDigits := by
    intro c
    rw [← hexVal_iff, Bool.not_eq_true]
  constructor
  · rintro ⟨t, ht, h⟩
    obtain ⟨b, hb, k1, -⟩ := (skipSpace_iff s t).1 ht
    dsimp only at h
    split at h
    · cases h
    · rename_i hne
      split at h
      · rename_i hsm
        simp only [Option.some.injEq, Prod.mk.injEq] at h
        obtain ⟨hn, hr⟩ := h
        obtain ⟨e1, e2, e3⟩ := (span_iff _ t _ r).1 ⟨rfl, hr⟩
        exact ⟨b, _, by rw [hb, ← e1], k1, ⟨hne, fun c hc => (hexVal_iff c).1 (e2 c hc), hn, hn ▸ hsm⟩, fun c hc => (hh c).1 (e3 c hc)⟩
      · cases h
  · rintro ⟨b, h, rfl, hb, hx, hr⟩
    refine ⟨h ++ r, (skipSpace_iff _ _).2 ⟨b, rfl, hb, ?_⟩, ?_⟩
    · intro c hc
      cases h with
      | nil => exact absurd rfl hx.some
      | cons d h =>
        cases hc
        exact Strings.isSpace_false _ (hex_not_space _ (hx.digits _ List.mem_cons_self))
    · obtain ⟨e1, e2⟩ := (span_iff (fun c => (hexVal c).isSome) (h ++ r) h r).2 ⟨rfl, fun c hc => (hexVal_iff c).2 (hx.digits c hc), fun c hc => (hh c).2 (hr c hc)⟩
      dsimp only
      rw [e1, e2, if_neg hx.some, hx.val, if_pos hx.small]

theorem literal_iff (l s r : Str) : literal l s = some r ↔ s = l ++ r := by
  induction l generalizing s with
  | nil => unfold literal; rw [Option.some.injEq, List.nil_append]
  | cons c l ih =>
    cases s with
    | nil => unfold literal; simp
    | cons d s =>
      unfold literal
      rw [List.cons_append, List.cons.injEq]
      by_cases e : c = d
      · rw [if_pos e, ih]
        exact ⟨fun h => ⟨e.symm, h⟩, fun h => h.2⟩
      · rw [if_neg e]
        exact ⟨fun h => (by cases h), fun h => absurd h.1.symm e⟩

theorem blank_not_newline {c : Char} : (isSpace c && c != '\n') = true ↔ c.toNat ∈ whiteSpace ∧ c ≠ '\n' := by
  rw [Bool.and_eq_true, Strings.isSpace_iff, bne_iff_ne]

/-- A space of the format followed by `%s`. -/
theorem word_iff (s w : Str) : ((formatSpace s).bind scanWord = some w) ↔
    ∃ b rest, s = b ++ (w ++ rest) ∧ (b ≠ [] ∧ Blank b) ∧ (w ≠ [] ∧ ∀ c ∈ w, c.toNat ∉ whiteSpace) ∧ (∀ c, rest.head? = some c → c.toNat ∈ whiteSpace) := by
  have hsp := Strings.isSpace_iff
  rw [Option.bind_eq_some_iff]
  constructor
  · rintro ⟨u, hu, hw⟩
    unfold scanWord at hw
    rw [Option.bind_eq_some_iff] at hw
    obtain ⟨t, ht, hw⟩ := hw
    split at hw
    · cases hw
    · rename_i hne
      simp only [Option.some.injEq] at hw
      obtain ⟨b2, hb2, k1, k2⟩ := (skipSpace_iff u t).1 ht
      obtain ⟨e1, e2, e3⟩ := (span_iff (fun c => !isSpace c) t w _).1 ⟨hw, rfl⟩
      have hwne : w ≠ [] := by
        intro e
        cases t with
        | nil => exact hne rfl
        | cons c t =>
          have hc : isSpace c = false := by
            cases hb : isSpace c with
            | false => rfl
            | true => exact absurd ((hsp c).1 hb) (k2 c rfl)
          rw [List.takeWhile_cons_of_pos (by simp [hc])] at hw
          rw [← hw] at e
          cases e
      have hw2 : ∀ c ∈ w, c.toNat ∉ whiteSpace := by
        intro c hc
        apply Strings.isSpace_false
        have := e2 c hc
        simpa using this
      have hr : ∀ c, (t.dropWhile (fun c => !isSpace c)).head? = some c → c.toNat ∈ whiteSpace := by
        intro c hc
        have := e3 c hc
        exact (hsp c).1 (by simpa using this)
      cases s with
      | nil =>
        unfold formatSpace at hu
        cases hu
        have := List.append_eq_nil_iff.1 hb2.symm
        exact absurd this.2 hne
      | cons c s =>
        unfold formatSpace at hu
        dsimp only at hu
        split at hu
        · rename_i hc
          simp only [Option.some.injEq] at hu
          obtain ⟨f1, f2, f3⟩ := (span_iff (fun c => isSpace c && c != '\n') s _ u).1 ⟨rfl, hu⟩
          refine ⟨c :: (s.takeWhile (fun c => isSpace c && c != '\n') ++ b2), t.dropWhile (fun c => !isSpace c), ?_, ⟨by simp, ?_⟩, ⟨hwne, hw2⟩, hr⟩
          · rw [← e1, List.cons_append, List.append_assoc, ← hb2, ← f1]
          · intro d hd
            rcases List.mem_cons.1 hd with rfl | hd
            · exact ⟨(hsp _).1 hc.1, hc.2⟩
            · rcases List.mem_append.1 hd with hd | hd
              · exact blank_not_newline.1 (f2 d hd)
              · exact k1 d hd
        · cases hu
  · rintro ⟨b, rest, rfl, ⟨hb, hbl⟩, ⟨hwne, hw⟩, hr⟩
    have hns : ∀ c ∈ w, isSpace c = false := by
      intro c hc
      cases hb : isSpace c with
      | false => rfl
      | true => exact absurd ((hsp c).1 hb) (hw c hc)
    have hhead : ∀ c, (w ++ rest).head? = some c → isSpace c = false := by
      intro c hc
      cases w with
      | nil => exact absurd rfl hwne
      | cons d w => cases hc; exact hns _ List.mem_cons_self
    cases b with
    | nil => exact absurd rfl hb
    | cons c b =>
      obtain ⟨k1, k2⟩ := hbl c List.mem_cons_self
      obtain ⟨-, e2⟩ := (span_iff (fun c => isSpace c && c != '\n') (b ++ (w ++ rest)) b (w ++ rest)).2
        ⟨rfl, fun d hd => blank_not_newline.2 (hbl d (List.mem_cons_of_mem _ hd)), fun d hd => by rw [hhead d hd]; rfl⟩
      refine ⟨w ++ rest, ?_, ?_⟩
      · rw [List.cons_append]
        unfold formatSpace
        dsimp only
        rw [if_pos ⟨(hsp c).2 k1, k2⟩, e2]
      · unfold scanWord
        have hs : skipSpace (w ++ rest) = some (w ++ rest) :=
          (skipSpace_iff _ _).2 ⟨[], rfl, fun c hc => (by cases hc), fun d hd => Strings.isSpace_false d (hhead d hd)⟩
        rw [hs, Option.bind_some]
        obtain ⟨e1, -⟩ := (span_iff (fun c => !isSpace c) (w ++ rest) w rest).2
          ⟨rfl, fun d hd => by rw [hns d hd]; rfl, fun d hd => by rw [(hsp d).2 (hr d hd)]; rfl⟩
        rw [e1, if_neg]
        intro e
        exact hwne (List.append_eq_nil_iff.1 e).1

/-- **C110** What a format finds in a path. The separator begins with no hexadecimal digit. -/
theorem sscan_iff (sep p : Str) (hs : ∃ c l, sep = c :: l ∧ c ∉ hexDigits) (a b : Nat) (w : Str) : sscan sep p = some (a, b, w) ↔ Form sep p a b w := by
  obtain ⟨c0, l0, rfl, hc0⟩ := hs
  have hblank : ∀ c : Char, c.toNat ∈ whiteSpace → c ∉ hexDigits := by
    intro c hc hd
    have := hex_not_space c hd
    rw [(Strings.isSpace_iff c).2 hc] at this
    cases this
  unfold sscan
  rw [Option.bind_eq_some_iff]
  constructor
  · rintro ⟨⟨n, r⟩, h1, h⟩
    obtain ⟨s0, x1, rfl, hb0, hx1, -⟩ := (scanHex_iff p n r).1 h1
    rw [Option.bind_eq_some_iff] at h
    obtain ⟨t, h2, h⟩ := h
    have h2 := (literal_iff _ _ _).1 h2
    dsimp only at h2
    subst h2
    rw [Option.bind_eq_some_iff] at h
    obtain ⟨⟨m, u⟩, h3, h⟩ := h
    obtain ⟨s1, x2, rfl, hb1, hx2, -⟩ := (scanHex_iff t m u).1 h3
    rw [Option.bind_eq_some_iff] at h
    obtain ⟨v, h4, h⟩ := h
    rw [Option.map_eq_some_iff] at h
    obtain ⟨w', h5, h⟩ := h
    cases h
    obtain ⟨s2, rest, k1, k2, k3, k4⟩ := (word_iff u w).1 (by dsimp only at h4; rw [h4]; exact h5)
    subst k1
    exact ⟨s0, x1, s1, x2, s2, rest, rfl, hb0, hx1, hb1, hx2, k2, k3, k4⟩
  · rintro ⟨s0, h1, s1, h2, s2, rest, rfl, hb0, hx1, hb1, hx2, k2, k3, k4⟩
    refine ⟨(a, _), (scanHex_iff _ _ _).2 ⟨s0, h1, rfl, hb0, hx1, ?_⟩, ?_⟩
    · intro c hc
      cases hc
      exact hc0
    · dsimp only
      rw [(literal_iff (c0 :: l0) _ _).2 rfl, Option.bind_some]
      have : scanHex (s1 ++ (h2 ++ (s2 ++ (w ++ rest)))) = some (b, s2 ++ (w ++ rest)) := by
        refine (scanHex_iff _ _ _).2 ⟨s1, h2, rfl, hb1, hx2, ?_⟩
        intro c hc
        cases s2 with
        | nil => exact absurd rfl k2.1
        | cons d s2 => cases hc; exact hblank _ (k2.2 _ List.mem_cons_self).1
      rw [this, Option.bind_some]
      dsimp only
      have := (word_iff (s2 ++ (w ++ rest)) w).2 ⟨s2, rest, rfl, k2, k3, k4⟩
      rw [Option.bind_eq_some_iff] at this
      obtain ⟨u, e1, e2⟩ := this
      rw [e1, Option.bind_some, e2]
      rfl

theorem arrow_sep : ∃ c l, arrow = c :: l ∧ c ∉ hexDigits := ⟨'-', ['>'], by decide, by decide +kernel⟩
theorem escaped_sep : ∃ c l, escaped = c :: l ∧ c ∉ hexDigits := ⟨'-', ['\\', 'u'], by decide, by decide +kernel⟩

/-- **C110** A stored path of the form "source->destination target" yields the target and the link. -/
theorem link_split (p : Str) (a b : Nat) (w : Str) (h : Form arrow p a b w) : parseSymPath p = (w, hex a ++ "->".toList ++ hex b) := by
  unfold parseSymPath
  rw [(sscan_iff arrow p arrow_sep a b w).2 h]
  rfl

/-- **C110** A stored path that has neither form is the path, and there is no link. -/
theorem other_path_kept (p : Str) (h : ∀ sep a b w, sep = "->".toList ∨ sep = "-\\u".toList → ¬ Form sep p a b w) : parseSymPath p = (p, []) := by
  have key : ∀ sep, (∃ c l, sep = c :: l ∧ c ∉ hexDigits) → (sep = "->".toList ∨ sep = "-\\u".toList) → sscan sep p = none := by
    intro sep hs he
    cases hq : sscan sep p with
    | none => rfl
    | some x => exact absurd ((sscan_iff sep p hs x.1 x.2.1 x.2.2).1 hq) (h sep _ _ _ he)
  unfold parseSymPath
  rw [key arrow arrow_sep (.inl rfl), key escaped escaped_sep (.inr rfl)]

/-- **C110** So every absolute path, and every path that does not begin with blanks or a hexadecimal digit, is kept. -/
theorem absolute_path_kept (p : Str) (h : ∀ c, p.head? = some c → c.toNat ∉ whiteSpace ∧ c ∉ "0123456789abcdefABCDEF".toList) : parseSymPath p = (p, []) := by
  apply other_path_kept
  rintro sep a b w - ⟨s0, h1, s1, h2, s2, rest, rfl, hb0, hx1, -⟩
  cases s0 with
  | cons c s0 => exact (h c rfl).1 (hb0 c List.mem_cons_self).1
  | nil =>
    cases h1 with
    | nil => exact hx1.some rfl
    | cons c h1 => exact (h c rfl).2 (hx1.digits c List.mem_cons_self)

/-- **C110** So is every path without "->" and "-\u". -/
theorem path_without_arrow_kept (p : Str) (h1 : ¬ "->".toList <:+: p) (h2 : ¬ "-\\u".toList <:+: p) : parseSymPath p = (p, []) := by
  apply other_path_kept
  rintro sep a b w hs ⟨s0, h1', s1, h2', s2, rest, hp, -⟩
  have : sep <:+: p := ⟨s0 ++ h1', s1 ++ (h2' ++ (s2 ++ (w ++ rest))), by rw [hp]; simp only [List.append_assoc]⟩
  rcases hs with rfl | rfl
  · exact h1 this
  · exact h2 this

/-- The value of a sequence of digits grows with each digit. -/
theorem hexNumber_append (a b : Str) : hexNumber (a ++ b) = hexNumber a * 16 ^ b.length + hexNumber b := by
  have key : ∀ (b : Str) (n : Nat), b.foldl (fun n c => n * 16 + (hexVal c).getD 0) n = n * 16 ^ b.length + b.foldl (fun n c => n * 16 + (hexVal c).getD 0) 0 := by
    intro b
    induction b with
    | nil => intro n; simp
    | cons c b ih =>
      intro n
      rw [List.foldl_cons, List.foldl_cons, ih (n * 16 + _), ih (0 * 16 + _), List.length_cons, Nat.pow_succ, Nat.zero_mul, Nat.zero_add, Nat.add_mul]
      rw [Nat.mul_assoc, Nat.mul_comm 16 (16 ^ b.length)]
      omega
  unfold hexNumber
  rw [List.foldl_append, key]

/-- **C110**, finding: the second form is meant for an arrow escaped as `\u003e` before a 64-bit address (utils.go:37-40), but the digits `003e` are read as part of the address, which then never fits:
a path in which the arrow is escaped that way before an address of sixteen digits is not split at all. -/
theorem escaped_arrow_never_splits (h1 h2 rest : Str) (hd1 : ∀ c ∈ h1, c ∈ hexDigits) (hd2 : ∀ c ∈ h2, c ∈ hexDigits) (hl : h2.length = 16) (hr : ∀ c, rest.head? = some c → c ∉ hexDigits) :
    parseSymPath (h1 ++ "-\\u003e".toList ++ h2 ++ rest) = (h1 ++ "-\\u003e".toList ++ h2 ++ rest, []) := by
  -- the first number ends at the '-'
  have hminus : '-' ∉ hexDigits := by decide +kernel
  have split1 : ∀ sep a b w, Form sep (h1 ++ "-\\u003e".toList ++ h2 ++ rest) a b w → (∃ l, sep = '-' :: l) →
      ∃ s1 x2 s2 rest', "-\\u003e".toList ++ (h2 ++ rest) = sep ++ (s1 ++ (x2 ++ (s2 ++ (w ++ rest')))) ∧ Blank s1 ∧ Hex x2 b ∧ (s2 ≠ [] ∧ Blank s2) := by
    rintro sep a b w ⟨s0, x1, s1, x2, s2, rest', hp, hb0, hx1, hb1, hx2, k2, -⟩ ⟨l, rfl⟩
    have hs0 : s0 = [] := by
      cases s0 with
      | nil => rfl
      | cons c s0 =>
        exfalso
        have hc : c.toNat ∈ whiteSpace := (hb0 c List.mem_cons_self).1
        cases h1 with
        | nil =>
          have := congrArg List.head? hp
          simp only [List.nil_append, List.cons_append, List.head?_cons, List.append_assoc] at this
          have e : c = '-' := by
            have h3 : ("-\\u003e".toList ++ (h2 ++ rest)).head? = some '-' := rfl
            rw [h3] at this
            exact (Option.some.inj this).symm
          subst e
          revert hc; decide
        | cons d h1 =>
          rw [List.cons_append, List.cons_append, List.cons_append, List.cons_append, List.cons.injEq] at hp
          have := hex_not_space d (hd1 d List.mem_cons_self)
          rw [hp.1, (Strings.isSpace_iff c).2 hc] at this
          cases this
    subst hs0
    rw [List.nil_append] at hp
    obtain ⟨e1, e2⟩ := (span_iff (fun c => (hexVal c).isSome) (h1 ++ "-\\u003e".toList ++ h2 ++ rest) h1 ("-\\u003e".toList ++ (h2 ++ rest))).2
      ⟨by simp only [List.append_assoc], fun c hc => (hexVal_iff c).2 (hd1 c hc), fun c hc => by cases hc; decide +kernel⟩
    obtain ⟨f1, f2⟩ := (span_iff (fun c => (hexVal c).isSome) (h1 ++ "-\\u003e".toList ++ h2 ++ rest) x1 (('-' :: l) ++ (s1 ++ (x2 ++ (s2 ++ (w ++ rest')))))).2
      ⟨hp, fun c hc => (hexVal_iff c).2 (hx1.digits c hc), fun c hc => by cases hc; decide +kernel⟩
    exact ⟨s1, x2, s2, rest', by rw [← e2, f2], hb1, hx2, k2⟩
  apply other_path_kept
  intro sep a b w hsep hf
  obtain ⟨s1, x2, s2, rest', he, hb1, hx2, k2⟩ := split1 sep a b w hf (by rcases hsep with rfl | rfl <;> exact ⟨_, rfl⟩)
  rcases hsep with rfl | rfl
  · have h3 : ("-\\u003e".toList ++ (h2 ++ rest))[1]? = some '\\' := rfl
    rw [he] at h3
    have h4 : ("->".toList ++ (s1 ++ (x2 ++ (s2 ++ (w ++ rest')))))[1]? = some '>' := rfl
    rw [h4] at h3
    revert h3; decide
  · have h3 : "-\\u003e".toList ++ (h2 ++ rest) = "-\\u".toList ++ ("003e".toList ++ (h2 ++ rest)) := rfl
    rw [h3] at he
    have he := List.append_cancel_left he
    have hs1 : s1 = [] := by
      cases s1 with
      | nil => rfl
      | cons c s1 =>
        exfalso
        have e : '0' = c := by
          have h5 := congrArg List.head? he
          exact Option.some.inj h5
        subst e
        have := (hb1 '0' List.mem_cons_self).1
        revert this; decide
    subst hs1
    rw [List.nil_append] at he
    have hd3 : ∀ c ∈ "003e".toList ++ h2, (hexVal c).isSome = true := by
      intro c hc
      rcases List.mem_append.1 hc with hc | hc
      · have : ∀ c ∈ "003e".toList, (hexVal c).isSome = true := by decide +kernel
        exact this c hc
      · exact (hexVal_iff c).2 (hd2 c hc)
    obtain ⟨e1, -⟩ := (span_iff (fun c => (hexVal c).isSome) ("003e".toList ++ (h2 ++ rest)) ("003e".toList ++ h2) rest).2
      ⟨by simp only [List.append_assoc], hd3, fun c hc => by
        cases hv : (hexVal c).isSome with
        | false => rfl
        | true => exact absurd ((hexVal_iff c).1 hv) (hr c hc)⟩
    obtain ⟨f1, -⟩ := (span_iff (fun c => (hexVal c).isSome) ("003e".toList ++ (h2 ++ rest)) x2 (s2 ++ (w ++ rest'))).2
      ⟨he, fun c hc => (hexVal_iff c).2 (hx2.digits c hc), fun c hc => by
        cases s2 with
        | nil => exact absurd rfl k2.1
        | cons d s2 =>
          cases hc
          rw [space_not_hex c ((Strings.isSpace_iff c).2 (k2.2 c List.mem_cons_self).1)]
          rfl⟩
    have hx : x2 = "003e".toList ++ h2 := by rw [← f1, e1]
    have hv := hx2.val
    have hsm := hx2.small
    rw [hx, hexNumber_append, hl] at hv
    have h62 : hexNumber "003e".toList = 62 := by decide +kernel
    rw [h62] at hv
    have : (62 : Nat) * 16 ^ 16 ≤ b := by rw [← hv]; exact Nat.le_add_right _ _
    exact absurd hsm (by
      have h16 : (2 : Nat) ^ 64 ≤ 62 * 16 ^ 16 := by decide
      omega)

/-- **C110**, finding: a target path with a space is cut off at it. -/
theorem target_with_space_is_cut : parseSymPath "1f->2a /run/my socket".toList = ("/run/my".toList, "1f->2a".toList) := by decide +kernel

/-! ### Non-vacuity -/

example : parseSymPath "aabbccddeeff0011->AAbbccddeeff0011 /path/to/target.file".toList = ("/path/to/target.file".toList, "aabbccddeeff0011->aabbccddeeff0011".toList) := by decide +kernel
example : parseSymPath "12-\\u34 /x".toList = ("/x".toList, "12-\\u34".toList) := by decide +kernel
example : parseSymPath "ffff9ce02054c800-\\u003effff9ce02054c000 /sock/sysflow.sock".toList = ("ffff9ce02054c800-\\u003effff9ce02054c000 /sock/sysflow.sock".toList, []) := by decide +kernel
example : Form "->".toList "1->2 /x".toList 1 2 "/x".toList := (sscan_iff arrow _ arrow_sep 1 2 _).1 (by decide +kernel)

end Verif.FlatRecord.SymPath
