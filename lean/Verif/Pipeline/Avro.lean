import Verif.Base.AMap
/-
The Avro binary encoding, as far as SysFlow uses it (dependency github.com/actgardner/gogen-avro, package vm: `vm.Eval` at
/repo/driver/sysflow/streamingdriver.go:142; Avro 1.8 specification, "Binary encoding"). It is here to show that what C117 requires of a decoder
is met by the one the driver uses, and to exhibit what happens to packets that are cut off.
-/
namespace Verif.Avro

abbrev Byte := UInt8

/-- Avro schemas: a record is a nest of pairs; ints and enumerations are encoded like longs, strings like byte arrays. -/
inductive Schema where
  | null
  | bool
  | long
  | bytes
  | fixed (n : Nat)
  | pair (a b : Schema)
  | union (n : Nat) (f : Fin n → Schema)
  | array (a : Schema)

/-- The values of a schema. -/
def Schema.Val : Schema → Type
  | .null => Unit
  | .bool => Bool
  | .long => Int
  | .bytes => List Byte
  | .fixed n => { l : List Byte // l.length = n }
  | .pair a b => a.Val × b.Val
  | .union n f => (i : Fin n) × (f i).Val
  | .array a => List a.Val

/-! ### Encoding (Avro specification) -/

/-- Variable-length numbers: seven bits per byte, least significant first, the high bit set on all bytes but the last. -/
def varint (n : Nat) : List Byte :=
  if n < 128 then [UInt8.ofNat n] else UInt8.ofNat (n % 128 + 128) :: varint (n / 128)
termination_by n
decreasing_by omega

/-- Zig-zag. -/
def zigzag : Int → Nat
  | .ofNat n => 2 * n
  | .negSucc n => 2 * n + 1

/-- A long. -/
def encLong (n : Int) : List Byte := varint (zigzag n)

def encBool (b : Bool) : List Byte := [if b then 1 else 0]
def encBytes (l : List Byte) : List Byte := encLong l.length ++ l
/-- An array, in one block. -/
def encArray {α : Type} (e : α → List Byte) : List α → List Byte
  | [] => encLong 0
  | v :: vs => encLong (vs.length + 1 : Nat) ++ ((v :: vs).flatMap e ++ encLong 0)

/-- The encoding of a value. -/
def encode : (s : Schema) → s.Val → List Byte
  | .null, _ => []
  | .bool, b => encBool b
  | .long, n => encLong n
  | .bytes, l => encBytes l
  | .fixed _, l => l.1
  | .pair a b, v => encode a v.1 ++ encode b v.2
  | .union _ f, v => encLong v.1.val ++ encode (f v.1) v.2
  | .array a, vs => encArray (encode a) vs

/-! ### Decoding -/

/-- Reading a variable-length number. Simplified: numbers longer than 64 bits, which wrap around in the program, are read in full. -/
def readVarint : List Byte → Option (Nat × List Byte)
  | [] => none
  | b :: bs =>
    if b.toNat < 128 then some (b.toNat, bs)
    else
      match readVarint bs with
      | none => none
      | some (n, rest) => some (b.toNat - 128 + 128 * n, rest)

def unzigzag (n : Nat) : Int := if n % 2 = 0 then .ofNat (n / 2) else .negSucc (n / 2)

def readLong (bs : List Byte) : Option (Int × List Byte) := (readVarint bs).map (fun x => (unzigzag x.1, x.2))

/-- `n` items. -/
def readItems {α : Type} (d : List Byte → Option (α × List Byte)) : Nat → List Byte → Option (List α × List Byte)
  | 0, bs => some ([], bs)
  | n + 1, bs =>
    match d bs with
    | none => none
    | some (a, bs) =>
      match readItems d n bs with
      | none => none
      | some (as, bs) => some (a :: as, bs)

/-- The blocks of an array, up to the empty one; a negative count is followed by the size of the block. -/
def readBlocks {α : Type} (d : List Byte → Option (α × List Byte)) : Nat → List Byte → Option (List α × List Byte)
  | 0, _ => none
  | fuel + 1, bs =>
    match readLong bs with
    | none => none
    | some (c, bs) =>
      if c = 0 then some ([], bs)
      else
        match (if c < 0 then (readLong bs).map Prod.snd else some bs) with
        | none => none
        | some bs =>
          match readItems d c.natAbs bs with
          | none => none
          | some (as, bs) =>
            match readBlocks d fuel bs with
            | none => none
            | some (as', bs) => some (as ++ as', bs)

/-- Reading `n` bytes. -/
def readBytes (n : Nat) (bs : List Byte) : Option ({ l : List Byte // l.length = n } × List Byte) :=
  if h : n ≤ bs.length then some (⟨bs.take n, List.length_take_of_le h⟩, bs.drop n) else none

def readBool : List Byte → Option (Bool × List Byte)
  | [] => none
  | b :: bs => some (b == 1, bs)

/-- Reading a length and so many bytes. -/
def readSized (bs : List Byte) : Option (List Byte × List Byte) :=
  match readLong bs with
  | none => none
  | some (n, bs) => if n < 0 then none else (readBytes n.toNat bs).map (fun x => (x.1.1, x.2))

def readArray {α : Type} (d : List Byte → Option (α × List Byte)) (bs : List Byte) : Option (List α × List Byte) := readBlocks d (bs.length + 1) bs

/-- Reading a value; `none`: the bytes run out or do not fit. The bytes behind the value are not looked at. -/
def decode : (s : Schema) → List Byte → Option (s.Val × List Byte)
  | .null, bs => some ((), bs)
  | .bool, bs => readBool bs
  | .long, bs => readLong bs
  | .bytes, bs => readSized bs
  | .fixed n, bs => readBytes n bs
  | .pair a b, bs =>
    match decode a bs with
    | none => none
    | some (x, bs) => (decode b bs).map (fun y => ((x, y.1), y.2))
  | .union n f, bs =>
    match readLong bs with
    | none => none
    | some (i, bs) => if h : 0 ≤ i ∧ i.toNat < n then (decode (f ⟨i.toNat, h.2⟩) bs).map (fun x => (⟨⟨i.toNat, h.2⟩, x.1⟩, x.2)) else none
  | .array a, bs => readArray (decode a) bs

/-! ### Decoding reads back what was encoded, whatever comes behind it -/

theorem readVarint_varint (n : Nat) (rest : List Byte) : readVarint (varint n ++ rest) = some (n, rest) := by
  induction n using Nat.strongRecOn with
  | ind n ih =>
    rw [varint]
    by_cases h : n < 128
    · rw [if_pos h]
      have e : (UInt8.ofNat n).toNat = n := by
        rw [UInt8.toNat_ofNat']
        exact Nat.mod_eq_of_lt (by omega)
      show readVarint (UInt8.ofNat n :: rest) = _
      rw [readVarint, e, if_pos h]
    · rw [if_neg h]
      have e : (UInt8.ofNat (n % 128 + 128)).toNat = n % 128 + 128 := by
        rw [UInt8.toNat_ofNat']
        exact Nat.mod_eq_of_lt (by omega)
      show readVarint (UInt8.ofNat (n % 128 + 128) :: (varint (n / 128) ++ rest)) = _
      rw [readVarint, e, if_neg (by omega), ih (n / 128) (by omega)]
      dsimp only
      have : n % 128 + 128 - 128 + 128 * (n / 128) = n := by omega
      rw [this]

theorem unzigzag_zigzag (n : Int) : unzigzag (zigzag n) = n := by
  unfold unzigzag
  cases n with
  | ofNat n =>
    have h : zigzag (.ofNat n) = 2 * n := rfl
    rw [h, if_pos (by omega), show 2 * n / 2 = n by omega]
  | negSucc n =>
    have h : zigzag (.negSucc n) = 2 * n + 1 := rfl
    rw [h, if_neg (by omega), show (2 * n + 1) / 2 = n by omega]

theorem readLong_encLong (n : Int) (rest : List Byte) : readLong (encLong n ++ rest) = some (n, rest) := by
  unfold readLong encLong
  rw [readVarint_varint]
  show some (unzigzag (zigzag n), rest) = _
  rw [unzigzag_zigzag]

theorem readBytes_append (l rest : List Byte) : (readBytes l.length (l ++ rest)) = some (⟨l, rfl⟩, rest) := by
  unfold readBytes
  rw [dif_pos (by rw [List.length_append]; omega)]
  simp only [List.take_left, List.drop_left]

theorem readItems_flatMap {α : Type} (d : List Byte → Option (α × List Byte)) (e : α → List Byte) (h : ∀ a rest, d (e a ++ rest) = some (a, rest))
    (as : List α) (rest : List Byte) : readItems d as.length (as.flatMap e ++ rest) = some (as, rest) := by
  induction as with
  | nil => rfl
  | cons a as ih =>
    rw [List.flatMap_cons, List.append_assoc, List.length_cons, readItems, h]
    dsimp only
    rw [ih]

theorem readSized_encBytes (l rest : List Byte) : readSized (encBytes l ++ rest) = some (l, rest) := by
  unfold readSized encBytes
  rw [List.append_assoc, readLong_encLong]
  dsimp only
  rw [if_neg (by omega), Int.toNat_natCast, readBytes_append]
  rfl

theorem encLong_pos (n : Int) : 0 < (encLong n).length := by
  unfold encLong
  rw [varint]
  split
  · exact Nat.zero_lt_one
  · exact Nat.succ_pos _

theorem readBlocks_zero {α : Type} (d : List Byte → Option (α × List Byte)) (m : Nat) (rest : List Byte) :
    readBlocks d (m + 1) (encLong 0 ++ rest) = some ([], rest) := by
  rw [readBlocks, readLong_encLong]
  dsimp only
  rw [if_pos rfl]

theorem readArray_encArray {α : Type} (d : List Byte → Option (α × List Byte)) (e : α → List Byte) (h : ∀ a rest, d (e a ++ rest) = some (a, rest))
    (vs : List α) (rest : List Byte) : readArray d (encArray e vs ++ rest) = some (vs, rest) := by
  unfold readArray
  cases vs with
  | nil =>
    unfold encArray
    exact readBlocks_zero d _ rest
  | cons v vs =>
    have e0 : encArray e (v :: vs) ++ rest = encLong (vs.length + 1 : Nat) ++ ((v :: vs).flatMap e ++ (encLong 0 ++ rest)) := by
      unfold encArray
      rw [List.append_assoc, List.append_assoc]
    rw [e0]
    have hl : ∃ m, (encLong (vs.length + 1 : Nat) ++ ((v :: vs).flatMap e ++ (encLong 0 ++ rest))).length + 1 = m + 2 := by
      have := encLong_pos (vs.length + 1 : Nat)
      have h1 : 1 ≤ (encLong (vs.length + 1 : Nat) ++ ((v :: vs).flatMap e ++ (encLong 0 ++ rest))).length := by
        rw [List.length_append]
        omega
      exact ⟨_, (Nat.succ_inj.2 (Nat.sub_add_cancel h1)).symm⟩
    obtain ⟨m, hm⟩ := hl
    rw [hm, readBlocks, readLong_encLong]
    dsimp only
    rw [if_neg (by omega), if_neg (by omega)]
    dsimp only
    rw [Int.natAbs_natCast, show vs.length + 1 = (v :: vs).length from rfl, readItems_flatMap d e h]
    dsimp only
    rw [readBlocks_zero]
    dsimp only
    rw [List.append_nil]

/-- Decoding reads back what was encoded and leaves what comes behind it. -/
theorem decode_encode (s : Schema) : ∀ (v : s.Val) (rest : List Byte), decode s (encode s v ++ rest) = some (v, rest) := by
  induction s with
  | null => intro v rest; rfl
  | bool =>
    have h : ∀ (v : Bool) (rest : List Byte), readBool (encBool v ++ rest) = some (v, rest) := by
      intro v rest
      cases v <;> rfl
    exact h
  | long => intro v rest; exact readLong_encLong v rest
  | bytes => intro v rest; exact readSized_encBytes v rest
  | fixed n =>
    intro v rest
    obtain ⟨l, rfl⟩ := v
    exact readBytes_append l rest
  | pair a b iha ihb =>
    intro v rest
    show decode (.pair a b) (encode a v.1 ++ encode b v.2 ++ rest) = _
    rw [List.append_assoc]
    unfold decode
    rw [iha]
    dsimp only
    rw [ihb]
    rfl
  | union n f ih =>
    intro v rest
    obtain ⟨i, v⟩ := v
    show decode (.union n f) (encLong i.val ++ encode (f i) v ++ rest) = _
    rw [List.append_assoc]
    unfold decode
    rw [readLong_encLong]
    dsimp only
    have hi : (0 : Int) ≤ (i.val : Int) ∧ ((i.val : Int)).toNat < n := ⟨by omega, by rw [Int.toNat_natCast]; exact i.isLt⟩
    rw [dif_pos hi]
    have e : (⟨((i.val : Int)).toNat, hi.2⟩ : Fin n) = i := Fin.ext (Int.toNat_natCast _)
    revert e
    generalize (⟨((i.val : Int)).toNat, hi.2⟩ : Fin n) = j
    intro e
    subst e
    rw [ih]
    rfl
  | array a ih => intro vs rest; exact readArray_encArray (decode a) (encode a) ih vs rest

end Verif.Avro
