import Verif.FlatRecord.SymPath
import Verif.FlatRecord.Resolve
/-
Directories, names and identifiers of files and processes, with the Go library functions behind them.
Sources: /repo/core/policyengine/source/flatrecord/fieldmapper.go, utils.go; Go library: path/filepath on Unix, fmt
-/
namespace Verif.FlatRecord.SymPath
open Verif.Decimal (Str)
open Verif.Strings (isSpace whiteSpace)

/-! ### Hexadecimal numbers -/

theorem hexVal_digit (d : Nat) (h : d < 16) : hexVal (Nat.digitChar d) = some d ∧ Nat.digitChar d ∈ hexDigits := by
  have : ∀ d : Fin 16, hexVal (Nat.digitChar d.val) = some d.val ∧ Nat.digitChar d.val ∈ hexDigits := by decide +kernel
  exact this ⟨d, h⟩

/-- Reading back what `%x` prints gives the number. -/
theorem hex_value (n : Nat) : hexNumber (hex n) = n ∧ (∀ c ∈ hex n, c ∈ hexDigits) ∧ hex n ≠ [] := by
  unfold hex
  induction n using Nat.strongRecOn with
  | _ n ih =>
    by_cases h : n < 16
    · rw [Nat.toDigits_of_lt_base h]
      obtain ⟨h1, h2⟩ := hexVal_digit n h
      refine ⟨?_, ?_, by simp⟩
      · show 0 * 16 + (hexVal (Nat.digitChar n)).getD 0 = n
        rw [h1, Option.getD_some]
        omega
      · intro c hc
        rw [List.mem_singleton] at hc
        rw [hc]; exact h2
    · have hlt : n / 16 < n := by omega
      obtain ⟨i1, i2, i3⟩ := ih (n / 16) hlt
      rw [Nat.toDigits_of_base_le (by omega) (by omega)]
      obtain ⟨h1, h2⟩ := hexVal_digit (n % 16) (Nat.mod_lt _ (by omega))
      refine ⟨?_, ?_, by simp⟩
      · rw [hexNumber_append, i1]
        have : hexNumber [(n % 16).digitChar] = n % 16 := by
          show 0 * 16 + (hexVal (Nat.digitChar (n % 16))).getD 0 = n % 16
          rw [h1, Option.getD_some]
          omega
        rw [this]
        simp only [List.length_singleton, Nat.pow_one]
        omega
      · intro c hc
        rcases List.mem_append.1 hc with hc | hc
        · exact i2 c hc
        · rw [List.mem_singleton] at hc
          rw [hc]; exact h2

/-- The number with these digits, least significant first. -/
def positional : List (Fin 16) → Nat
  | [] => 0
  | d :: ds => d.val + 16 * positional ds

/-- **C110** The value of digits, in upper or lower case, is positional. -/
theorem hex_digits_value (ds : List (Bool × Fin 16)) :
    hexNumber (ds.reverse.map fun d => if d.1 then (Nat.digitChar d.2).toUpper else Nat.digitChar d.2) = positional (ds.map Prod.snd) := by
  have h1 : ∀ b : Bool, ∀ d : Fin 16, hexNumber [if b then (Nat.digitChar d).toUpper else Nat.digitChar d] = d.val := by decide +kernel
  induction ds with
  | nil => rfl
  | cons d ds ih =>
    rw [List.reverse_cons, List.map_append, hexNumber_append, ih, List.map_singleton, h1]
    show _ * 16 ^ 1 + _ = d.2.val + 16 * positional (ds.map Prod.snd)
    omega

theorem hex_ok (n : Nat) (h : n < 2 ^ 64) : Hex (hex n) n :=
  ⟨(hex_value n).2.2, (hex_value n).2.1, (hex_value n).1, h⟩

/-- **C110** A link as the collector writes it, two 64-bit addresses and a path without spaces, comes apart into exactly these. -/
theorem link_roundtrip (a b : Nat) (ha : a < 2 ^ 64) (hb : b < 2 ^ 64) (path : Str) (hne : path ≠ []) (hsp : ∀ c ∈ path, c.toNat ∉ whiteSpace) :
    parseSymPath (hex a ++ "->".toList ++ hex b ++ " ".toList ++ path) = (path, hex a ++ "->".toList ++ hex b) := by
  apply link_split
  refine ⟨[], hex a, [], hex b, [' '], [], ?_, (fun c hc => by cases hc), hex_ok a ha, (fun c hc => by cases hc), hex_ok b hb, ⟨by simp, ?_⟩, ⟨hne, hsp⟩, (fun c hc => by cases hc)⟩
  · simp only [List.append_assoc, List.nil_append, List.append_nil]
    rfl
  · intro c hc
    rw [List.mem_singleton] at hc
    subst hc
    exact ⟨by decide, by decide⟩

end Verif.FlatRecord.SymPath

namespace Verif.FlatRecord.Paths
open Verif.Decimal (Str)
open Verif.FlatRecord.SymPath (parseSymPath)

/-! ### Directories: model of the library functions -/

/-- One element of a path in `filepath.Clean` (Go library, Unix; path.go, `Clean`): the buffer is kept as its elements, last first. -/
def cleanStep (rooted : Bool) (out : List Str) (e : Str) : List Str :=
  if e = [] then out
  else if e = ['.'] then out
  else if e = ['.', '.'] then
    match out with
    | [] => if rooted then out else [e]
    | top :: below => if top = ['.', '.'] then e :: out else below
  else e :: out

/-- `filepath.Clean` (Go library, Unix). -/
def clean (path : Str) : Str :=
  if path = [] then ['.']
  else
    let rooted := path.head? == some '/'
    let out := (Strings.split '/' path).foldl (cleanStep rooted) []
    if rooted then '/' :: Strings.join '/' out.reverse
    else if out = [] then ['.'] else Strings.join '/' out.reverse

/-- Everything up to and including the last slash. -/
def uptoLastSlash (path : Str) : Str := (path.reverse.dropWhile (· != '/')).reverse

/-- `filepath.Dir` (Go library, Unix). -/
def dir (path : Str) : Str := clean (uptoLastSlash path)

/-! ### Specification -/

/-- A file name: not empty, without slashes, neither "." nor "..". -/
structure Name (n : Str) : Prop where
  some : n ≠ []
  slash : '/' ∉ n
  dot : n ≠ ".".toList
  dotdot : n ≠ "..".toList

/-- The absolute path through these directories. -/
def absolute : List Str → Str
  | [] => []
  | n :: ns => '/' :: n ++ absolute ns

/-! ### Proofs -/

theorem absolute_append (a b : List Str) : absolute (a ++ b) = absolute a ++ absolute b := by
  induction a with
  | nil => rfl
  | cons n a ih =>
    show '/' :: n ++ absolute (a ++ b) = ('/' :: n ++ absolute a) ++ absolute b
    rw [ih, List.append_assoc]

theorem absolute_join (ns : List Str) (h : ns ≠ []) : absolute ns = '/' :: Strings.join '/' ns := by
  induction ns with
  | nil => exact absurd rfl h
  | cons n ns ih =>
    cases ns with
    | nil => show '/' :: n ++ [] = '/' :: n; rw [List.append_nil]
    | cons m ns =>
      show '/' :: n ++ absolute (m :: ns) = '/' :: (n ++ '/' :: Strings.join '/' (m :: ns))
      rw [ih (by simp)]
      rfl

theorem uptoLastSlash_path (d n : Str) (hn : '/' ∉ n) : uptoLastSlash (d ++ '/' :: n) = d ++ ['/'] := by
  unfold uptoLastSlash
  rw [List.reverse_append, List.reverse_cons, List.append_assoc]
  have : ∀ (m r : Str), '/' ∉ m → (m ++ ('/' :: r)).dropWhile (· != '/') = '/' :: r := by
    intro m r hm
    induction m with
    | nil => rfl
    | cons c m ih =>
      have hc : c ≠ '/' := fun e => hm (by rw [e]; exact List.mem_cons_self)
      rw [List.cons_append, List.dropWhile_cons_of_pos (by simpa using hc)]
      exact ih (fun h => hm (List.mem_cons_of_mem _ h))
  rw [List.singleton_append, this _ _ (by simpa using hn)]
  rw [List.reverse_cons, List.reverse_reverse]

theorem clean_names (rooted : Bool) (ns out : List Str) (h : ∀ n ∈ ns, Name n) : ns.foldl (cleanStep rooted) out = ns.reverse ++ out := by
  induction ns generalizing out with
  | nil => rfl
  | cons n ns ih =>
    have hn := h n List.mem_cons_self
    have hs : cleanStep rooted out n = n :: out := by
      have h1 : n ≠ ['.'] := hn.dot
      have h2 : n ≠ ['.', '.'] := hn.dotdot
      unfold cleanStep
      rw [if_neg hn.some]
      first
        | rw [if_neg h1, if_neg h2]
        | (rw [if_neg hn.dot, if_neg hn.dotdot])
    rw [List.foldl_cons, hs, ih _ (fun m hm => h m (List.mem_cons_of_mem _ hm)), List.reverse_cons, List.append_assoc]
    rfl

theorem clean_blank (rooted : Bool) (out : List Str) : cleanStep rooted out [] = out := by
  unfold cleanStep
  rw [if_pos rfl]

/-- The directory part of an absolute path. -/
theorem dir_absolute (ds : List Str) (n : Str) (hd : ∀ d ∈ ds, Name d) (hn : Name n) : dir (absolute (ds ++ [n])) = if ds = [] then ['/'] else absolute ds := by
  have e1 : absolute (ds ++ [n]) = absolute ds ++ '/' :: n := by
    rw [absolute_append]
    show absolute ds ++ ('/' :: n ++ []) = _
    rw [List.append_nil]
  unfold dir
  rw [e1, uptoLastSlash_path _ _ hn.slash]
  cases ds with
  | nil => decide
  | cons d ds =>
    have hds : ¬ (d :: ds) = [] := by simp
    have hne : ¬ (absolute (d :: ds) ++ ['/']) = [] := by simp
    unfold clean
    rw [if_neg hds, if_neg hne]
    have hr : ((absolute (d :: ds) ++ ['/']).head? == some '/') = true := rfl
    dsimp only
    rw [hr, if_pos rfl]
    have hsp : Strings.split '/' (absolute (d :: ds) ++ ['/']) = [] :: (d :: ds) ++ [[]] := by
      rw [Strings.split_append_sep', absolute_join _ (by simp)]
      have : Strings.split '/' ('/' :: Strings.join '/' (d :: ds)) = [] :: Strings.split '/' (Strings.join '/' (d :: ds)) := Strings.split_append_sep '/' [] _ (by simp)
      rw [this, Strings.split_join '/' (d :: ds) (by simp) (fun w hw => (hd w hw).slash)]
      rfl
    rw [hsp, List.cons_append, List.foldl_cons, clean_blank, List.foldl_append, clean_names _ _ _ hd, List.append_nil]
    rw [List.foldl_cons, clean_blank, List.foldl_nil, List.reverse_reverse, ← absolute_join _ (by simp)]

/-- **C111** The directory of any path that begins with a slash is an absolute path of proper names: no empty element, no "." and no "..". -/
theorem directory_clean (p : Str) (hp : p.head? = some '/') : ∃ ds, (∀ d ∈ ds, Name d) ∧ dir p = if ds = [] then "/".toList else absolute ds := by
  have hu : (uptoLastSlash p).head? = some '/' := by
    cases p with
    | nil => cases hp
    | cons c p =>
      cases hp
      unfold uptoLastSlash
      have : ∀ (m : Str), ((m ++ ['/']).dropWhile (· != '/')) = (m.dropWhile (· != '/')) ++ ['/'] ∨ (m ++ ['/']).dropWhile (· != '/') = ['/'] := by
        intro m
        induction m with
        | nil => right; rfl
        | cons d m ih =>
          by_cases hd : d = '/'
          · left; subst hd; rfl
          · rw [List.cons_append, List.dropWhile_cons_of_pos (by simpa using hd), List.dropWhile_cons_of_pos (by simpa using hd)]
            exact ih
      rw [List.reverse_cons]
      rcases this p.reverse with h | h
      · rw [h, List.reverse_append]; rfl
      · rw [h]; rfl
  have hfold : ∀ (es out : List Str), (∀ e ∈ es, '/' ∉ e) → (∀ d ∈ out, Name d) → ∀ d ∈ es.foldl (cleanStep true) out, Name d := by
    intro es
    induction es with
    | nil => intro out _ h; exact h
    | cons e es ih =>
      intro out he ho
      rw [List.foldl_cons]
      refine ih _ (fun x hx => he x (List.mem_cons_of_mem _ hx)) ?_
      have hsl := he e List.mem_cons_self
      unfold cleanStep
      split
      · exact ho
      · rename_i h0
        split
        · exact ho
        · rename_i h1
          split
          · cases out with
            | nil => exact ho
            | cons t b =>
              dsimp only
              have ht := ho t List.mem_cons_self
              have h2 : t ≠ ['.', '.'] := ht.dotdot
              rw [if_neg h2]
              exact fun d hd => ho d (List.mem_cons_of_mem _ hd)
          · rename_i h2
            intro d hd
            rcases List.mem_cons.1 hd with rfl | hd
            · exact ⟨h0, hsl, h1, h2⟩
            · exact ho d hd
  unfold dir clean
  have hne : ¬ uptoLastSlash p = [] := by intro e; rw [e] at hu; cases hu
  rw [if_neg hne]
  dsimp only
  have hr : ((uptoLastSlash p).head? == some '/') = true := by rw [hu]; rfl
  rw [hr, if_pos rfl]
  refine ⟨((Strings.split '/' (uptoLastSlash p)).foldl (cleanStep true) []).reverse, ?_, ?_⟩
  · intro d hd
    rw [List.mem_reverse] at hd
    exact hfold _ [] (fun e he => Strings.split_no_sep _ _ e he) (fun d hd => (by cases hd)) d hd
  · split
    · rename_i h; rw [h]; rfl
    · rename_i h; rw [absolute_join _ h]

/-- **C111** The directory of any path that does not begin with a slash leads some steps up and then down through proper names; if there is nothing of either, it is ".". -/
theorem relative_directory (p : Str) (hp : p.head? ≠ some '/') :
    ∃ k ds, (∀ d ∈ ds, Name d) ∧ dir p = if k = 0 ∧ ds = [] then ".".toList else Strings.join '/' (List.replicate k "..".toList ++ ds) := by
  have hu : (uptoLastSlash p).head? ≠ some '/' := by
    unfold uptoLastSlash
    intro h
    rw [List.head?_reverse] at h
    have hs : (p.reverse.dropWhile (· != '/')) <:+ p.reverse := List.dropWhile_suffix _
    obtain ⟨t, ht⟩ := hs
    have : p.reverse.getLast? = some '/' := by
      rw [← ht, List.getLast?_append, h]; rfl
    rw [List.getLast?_reverse] at this
    exact hp this
  have hfold : ∀ (es : List Str), (∀ e ∈ es, '/' ∉ e) → ∀ k ds, (∀ d ∈ ds, Name d) →
      ∃ k' ds', (∀ d ∈ ds', Name d) ∧ es.foldl (cleanStep false) (ds ++ List.replicate k "..".toList) = ds' ++ List.replicate k' "..".toList := by
    intro es
    induction es with
    | nil => intro _ k ds h; exact ⟨k, ds, h, rfl⟩
    | cons e es ih =>
      intro he k ds ho
      have he' : ∀ x ∈ es, '/' ∉ x := fun x hx => he x (List.mem_cons_of_mem _ hx)
      have hsl := he e List.mem_cons_self
      have step : ∃ k' ds', (∀ d ∈ ds', Name d) ∧ cleanStep false (ds ++ List.replicate k "..".toList) e = ds' ++ List.replicate k' "..".toList := by
       unfold cleanStep
       split
       · exact ⟨k, ds, ho, rfl⟩
       · rename_i h0
         split
         · exact ⟨k, ds, ho, rfl⟩
         · rename_i h1
           split
           · rename_i h2
             cases ds with
             | nil =>
               cases k with
               | zero =>
                 refine ⟨1, [], ho, ?_⟩
                 show [e] = _
                 rw [h2]; rfl
               | succ k =>
                 refine ⟨k + 2, [], ho, ?_⟩
                 show (if "..".toList = ['.', '.'] then e :: "..".toList :: List.replicate k "..".toList else List.replicate k "..".toList) = _
                 rw [if_pos (show "..".toList = ['.', '.'] from rfl), h2]; rfl
             | cons t b =>
               refine ⟨k, b, fun d hd => ho d (List.mem_cons_of_mem _ hd), ?_⟩
               show (if t = ['.', '.'] then e :: t :: (b ++ List.replicate k "..".toList) else b ++ List.replicate k "..".toList) = _
               have h3 : t ≠ ['.', '.'] := (ho t List.mem_cons_self).dotdot
               rw [if_neg h3]
           · rename_i h2
             refine ⟨k, e :: ds, fun d hd => ?_, rfl⟩
             rcases List.mem_cons.1 hd with rfl | hd
             · exact ⟨h0, hsl, h1, h2⟩
             · exact ho d hd
      obtain ⟨k1, ds1, hn1, hs1⟩ := step
      rw [List.foldl_cons, hs1]
      exact ih he' k1 ds1 hn1
  unfold dir clean
  by_cases hne : uptoLastSlash p = []
  · rw [if_pos hne]
    exact ⟨0, [], fun d hd => (by cases hd), rfl⟩
  · rw [if_neg hne]
    dsimp only
    have hr : ((uptoLastSlash p).head? == some '/') = false := by
      cases h : ((uptoLastSlash p).head? == some '/') with
      | false => rfl
      | true => exact absurd (eq_of_beq h) hu
    rw [hr, if_neg (by decide)]
    obtain ⟨k, ds, h1, h2⟩ := hfold (Strings.split '/' (uptoLastSlash p)) (fun e he => Strings.split_no_sep _ _ e he) 0 [] (fun d hd => (by cases hd))
    have h2 : (Strings.split '/' (uptoLastSlash p)).foldl (cleanStep false) [] = ds ++ List.replicate k "..".toList := h2
    rw [h2, List.reverse_append, List.reverse_replicate]
    refine ⟨k, ds.reverse, fun d hd => h1 d (List.mem_reverse.1 hd), ?_⟩
    by_cases hz : k = 0 ∧ ds.reverse = []
    · rw [if_pos hz, if_pos]
      · rfl
      · rw [List.reverse_eq_nil_iff.1 hz.2, hz.1]; rfl
    · rw [if_neg hz, if_neg]
      intro h
      obtain ⟨e1, e2⟩ := List.append_eq_nil_iff.1 h
      refine hz ⟨?_, by rw [e1]; rfl⟩
      cases k with
      | zero => rfl
      | succ k => cases e2

example : "a/../x".toList.head? ≠ some '/' ∧ dir "a/../x".toList = ".".toList ∧ dir "../a/x".toList = "../a".toList := by decide +kernel

/-- The last name of an absolute path. -/
theorem base_absolute (ds : List Str) (n : Str) (hn : Name n) : Strings.base (absolute (ds ++ [n])) = n := by
  rw [absolute_append]
  have : absolute [n] = '/' :: n := by
    show '/' :: n ++ [] = '/' :: n
    rw [List.append_nil]
  rw [this]
  exact Strings.base_of_path _ n hn.some hn.slash

/-- The library functions that the path fields use are the Go library's. -/
structure GoPaths (L : Lib) : Prop where
  dir : ∀ p, L.dir p = dir p
  sym : ∀ p, L.symPath p = parseSymPath p

/-- **C111** For a file event whose path is absolute and plain, the fields are the path, its directory and its last name, and directory and name put together are the path; there is no link. -/
theorem file_fields (L : Lib) (hL : GoPaths L) (fr : FlatRec) (ds : List Str) (n : Str) (hd : ∀ d ∈ ds, Name d) (hn : Name n) (hp : fr.getStr .FILE_PATH_STR .sysflow = absolute (ds ++ [n])) :
    mapAttr L getMappers "sf.file.path".toList fr = .str (absolute (ds ++ [n])) ∧
    mapAttr L getMappers "sf.file.directory".toList fr = .str (if ds = [] then "/".toList else absolute ds) ∧
    mapAttr L getMappers "sf.file.name".toList fr = .str n ∧
    mapAttr L getMappers "sf.file.symlink".toList fr = .str [] := by
  have hk : parseSymPath (absolute (ds ++ [n])) = (absolute (ds ++ [n]), []) := by
    apply SymPath.absolute_path_kept
    intro c hc
    have : c = '/' := by
      cases ds with
      | nil => cases hc; rfl
      | cons d ds => cases hc; rfl
    subst this
    exact ⟨by decide, by decide +kernel⟩
  refine ⟨?_, ?_, ?_, ?_⟩
  · show FVal.str (L.symPath (fr.getStr .FILE_PATH_STR .sysflow)).1 = _
    rw [hp, hL.sym, hk]
  · show FVal.str (L.dir (L.symPath (fr.getStr .FILE_PATH_STR .sysflow)).1) = _
    rw [hp, hL.sym, hk, hL.dir, dir_absolute ds n hd hn]
    rfl
  · show FVal.str (Strings.base (fr.getStr .FILE_PATH_STR .sysflow)) = _
    rw [hp, base_absolute ds n hn]
  · show FVal.str (L.symPath (fr.getStr .FILE_PATH_STR .sysflow)).2 = _
    rw [hp, hL.sym, hk]

/-- **C111** The same of the second path of a rename or link event. -/
theorem new_file_fields (L : Lib) (hL : GoPaths L) (fr : FlatRec) (ds : List Str) (n : Str) (hd : ∀ d ∈ ds, Name d) (hn : Name n) (hp : fr.getStr .SEC_FILE_PATH_STR .sysflow = absolute (ds ++ [n])) :
    mapAttr L getMappers "sf.file.newpath".toList fr = .str (absolute (ds ++ [n])) ∧
    mapAttr L getMappers "sf.file.newdirectory".toList fr = .str (if ds = [] then "/".toList else absolute ds) ∧
    mapAttr L getMappers "sf.file.newname".toList fr = .str n ∧
    mapAttr L getMappers "sf.file.newsymlink".toList fr = .str [] := by
  have hk : parseSymPath (absolute (ds ++ [n])) = (absolute (ds ++ [n]), []) := by
    apply SymPath.absolute_path_kept
    intro c hc
    have : c = '/' := by
      cases ds with
      | nil => cases hc; rfl
      | cons d ds => cases hc; rfl
    subst this
    exact ⟨by decide, by decide +kernel⟩
  refine ⟨?_, ?_, ?_, ?_⟩
  · show FVal.str (L.symPath (fr.getStr .SEC_FILE_PATH_STR .sysflow)).1 = _
    rw [hp, hL.sym, hk]
  · show FVal.str (L.dir (L.symPath (fr.getStr .SEC_FILE_PATH_STR .sysflow)).1) = _
    rw [hp, hL.sym, hk, hL.dir, dir_absolute ds n hd hn]
    rfl
  · show FVal.str (Strings.base (fr.getStr .SEC_FILE_PATH_STR .sysflow)) = _
    rw [hp, base_absolute ds n hn]
  · show FVal.str (L.symPath (fr.getStr .SEC_FILE_PATH_STR .sysflow)).2 = _
    rw [hp, hL.sym, hk]

/-- **C111** For a link the path, directory and link fields are those of the target; so is the name. -/
theorem link_fields (L : Lib) (hL : GoPaths L) (fr : FlatRec) (a b : Nat) (ha : a < 2 ^ 64) (hb : b < 2 ^ 64) (ds : List Str) (n : Str) (hd : ∀ d ∈ ds, Name d) (hn : Name n)
    (hsp : ∀ c ∈ absolute (ds ++ [n]), c.toNat ∉ Strings.whiteSpace)
    (hp : fr.getStr .FILE_PATH_STR .sysflow = SymPath.hex a ++ "->".toList ++ SymPath.hex b ++ " ".toList ++ absolute (ds ++ [n])) :
    mapAttr L getMappers "sf.file.path".toList fr = .str (absolute (ds ++ [n])) ∧
    mapAttr L getMappers "sf.file.directory".toList fr = .str (if ds = [] then "/".toList else absolute ds) ∧
    mapAttr L getMappers "sf.file.name".toList fr = .str n ∧
    mapAttr L getMappers "sf.file.symlink".toList fr = .str (SymPath.hex a ++ "->".toList ++ SymPath.hex b) := by
  have hne : absolute (ds ++ [n]) ≠ [] := by
    intro h
    have := congrArg List.length h
    rw [absolute_append] at this
    simp [absolute] at this
  have hk := SymPath.link_roundtrip a b ha hb (absolute (ds ++ [n])) hne hsp
  refine ⟨?_, ?_, ?_, ?_⟩
  · show FVal.str (L.symPath (fr.getStr .FILE_PATH_STR .sysflow)).1 = _
    rw [hp, hL.sym, hk]
  · show FVal.str (L.dir (L.symPath (fr.getStr .FILE_PATH_STR .sysflow)).1) = _
    rw [hp, hL.sym, hk, hL.dir, dir_absolute ds n hd hn]
    rfl
  · show FVal.str (Strings.base (fr.getStr .FILE_PATH_STR .sysflow)) = _
    rw [hp, absolute_append]
    have : absolute [n] = '/' :: n := by
      show '/' :: n ++ [] = '/' :: n
      rw [List.append_nil]
    rw [this, ← List.append_assoc, Strings.base_of_path _ n hn.some hn.slash]
  · show FVal.str (L.symPath (fr.getStr .FILE_PATH_STR .sysflow)).2 = _
    rw [hp, hL.sym, hk]

/-- **C111**, finding: for a path that ends in a slash the directory is the whole path, and directory and name do not give the path. -/
theorem trailing_slash_directory : dir "/var/log/".toList = "/var/log".toList ∧ Strings.base "/var/log/".toList = "log".toList := by decide +kernel

/-- **C111**, finding: an event without a file has the directory and the name ".". -/
theorem no_file_is_dot : dir [] = ".".toList ∧ Strings.base [] = ".".toList := by decide +kernel

/-! ### Process identifiers -/

/-- `mapOID` (fieldmapper.go:714-722) writes the renderings one after the other into one hash: the hash is of their concatenation. -/
structure GoHash (L : Lib) (H : Str → Str) : Prop where
  cat : ∀ ps, L.oidHash ps = H ps.flatten

theorem format_length (n k : Nat) (h1 : 10 ^ k ≤ n) (h2 : n < 10 ^ (k + 1)) : (Decimal.formatNat n).length = k + 1 := by
  have key : ∀ (f n k : Nat), n < f → (k = 0 ∨ 10 ^ k ≤ n) → n < 10 ^ (k + 1) → (Decimal.formatNatF f n).length = k + 1 := by
    intro f
    induction f with
    | zero => intro n k h; omega
    | succ f ih =>
      intro n k hf h1 h2
      unfold Decimal.formatNatF
      by_cases hn : n < 10
      · rw [if_pos hn]
        have : k = 0 := by
          rcases h1 with h1 | h1
          · exact h1
          · cases k with
            | zero => rfl
            | succ k =>
              have : 10 ^ 1 ≤ 10 ^ (k + 1) := Nat.pow_le_pow_right (by omega) (by omega)
              omega
        rw [this]; rfl
      · rw [if_neg hn]
        cases k with
        | zero => omega
        | succ k =>
          have h1 : 10 ^ (k + 1) ≤ n := h1.resolve_left (by omega)
          rw [List.length_append, ih (n / 10) k (by omega) (.inr ?_) ?_]
          · rfl
          · rw [Nat.le_div_iff_mul_le (by omega)]; rw [Nat.pow_succ] at h1; exact h1
          · rw [Nat.div_lt_iff_lt_mul (by omega)]; rw [Nat.pow_succ] at h2; exact h2
  exact key (n + 1) n k (by omega) (.inr h1) h2

/-- **C112** Two events of processes created between 2001 and 2262 (in nanoseconds since 1970, nineteen digits) have the same process identifier exactly if process number and creation time are the same, as far as the
hash has no collisions. -/
theorem process_id_identifies (L : Lib) (H : Str → Str) (hL : GoHash L H) (hH : ∀ x y, H x = H y → x = y) (fr fr' : FlatRec)
    (h1 : 10 ^ 18 ≤ fr.getInt .PROC_OID_CREATETS_INT .sysflow ∧ fr.getInt .PROC_OID_CREATETS_INT .sysflow < 10 ^ 19)
    (h2 : 10 ^ 18 ≤ fr'.getInt .PROC_OID_CREATETS_INT .sysflow ∧ fr'.getInt .PROC_OID_CREATETS_INT .sysflow < 10 ^ 19) :
    mapAttr L getMappers "sf.proc.oid".toList fr = mapAttr L getMappers "sf.proc.oid".toList fr' ↔
      fr.getInt .PROC_OID_HPID_INT .sysflow = fr'.getInt .PROC_OID_HPID_INT .sysflow ∧ fr.getInt .PROC_OID_CREATETS_INT .sysflow = fr'.getInt .PROC_OID_CREATETS_INT .sysflow := by
  have hlen : ∀ t : Int, 10 ^ 18 ≤ t ∧ t < 10 ^ 19 → (Decimal.formatInt t).length = 19 := by
    rintro t ⟨k1, k2⟩
    obtain ⟨m, rfl⟩ := Int.eq_ofNat_of_zero_le (a := t) (by omega)
    exact format_length m 18 (by omega) (by omega)
  have hm : ∀ fr : FlatRec, mapAttr L getMappers "sf.proc.oid".toList fr =
      .str (L.oidHash [Decimal.formatInt (fr.getInt .PROC_OID_HPID_INT .sysflow), Decimal.formatInt (fr.getInt .PROC_OID_CREATETS_INT .sysflow)]) := fun _ => rfl
  rw [hm, hm, hL.cat, hL.cat]
  constructor
  · intro h
    have h := hH _ _ (FVal.str.inj h)
    simp only [List.flatten_cons, List.flatten_nil, List.append_nil] at h
    have hl : (Decimal.formatInt (fr.getInt .PROC_OID_CREATETS_INT .sysflow)).length = (Decimal.formatInt (fr'.getInt .PROC_OID_CREATETS_INT .sysflow)).length := by
      rw [hlen _ h1, hlen _ h2]
    obtain ⟨e1, e2⟩ := List.append_inj' h hl
    exact ⟨Decimal.formatInt_inj e1, Decimal.formatInt_inj e2⟩
  · rintro ⟨e1, e2⟩
    rw [e1, e2]

/-- **C112** The same of the parent's identifier. -/
theorem parent_id_identifies (L : Lib) (H : Str → Str) (hL : GoHash L H) (hH : ∀ x y, H x = H y → x = y) (fr fr' : FlatRec)
    (h1 : 10 ^ 18 ≤ fr.getInt .PROC_POID_CREATETS_INT .sysflow ∧ fr.getInt .PROC_POID_CREATETS_INT .sysflow < 10 ^ 19)
    (h2 : 10 ^ 18 ≤ fr'.getInt .PROC_OID_CREATETS_INT .sysflow ∧ fr'.getInt .PROC_OID_CREATETS_INT .sysflow < 10 ^ 19) :
    mapAttr L getMappers "sf.pproc.oid".toList fr = mapAttr L getMappers "sf.proc.oid".toList fr' ↔
      fr.getInt .PROC_POID_HPID_INT .sysflow = fr'.getInt .PROC_OID_HPID_INT .sysflow ∧ fr.getInt .PROC_POID_CREATETS_INT .sysflow = fr'.getInt .PROC_OID_CREATETS_INT .sysflow := by
  have hlen : ∀ t : Int, 10 ^ 18 ≤ t ∧ t < 10 ^ 19 → (Decimal.formatInt t).length = 19 := by
    rintro t ⟨k1, k2⟩
    obtain ⟨m, rfl⟩ := Int.eq_ofNat_of_zero_le (a := t) (by omega)
    exact format_length m 18 (by omega) (by omega)
  have hm : ∀ fr : FlatRec, mapAttr L getMappers "sf.proc.oid".toList fr =
      .str (L.oidHash [Decimal.formatInt (fr.getInt .PROC_OID_HPID_INT .sysflow), Decimal.formatInt (fr.getInt .PROC_OID_CREATETS_INT .sysflow)]) := fun _ => rfl
  have hm' : ∀ fr : FlatRec, mapAttr L getMappers "sf.pproc.oid".toList fr =
      .str (L.oidHash [Decimal.formatInt (fr.getInt .PROC_POID_HPID_INT .sysflow), Decimal.formatInt (fr.getInt .PROC_POID_CREATETS_INT .sysflow)]) := fun _ => rfl
  rw [hm, hm', hL.cat, hL.cat]
  constructor
  · intro h
    have h := hH _ _ (FVal.str.inj h)
    simp only [List.flatten_cons, List.flatten_nil, List.append_nil] at h
    have hl : (Decimal.formatInt (fr.getInt .PROC_POID_CREATETS_INT .sysflow)).length = (Decimal.formatInt (fr'.getInt .PROC_OID_CREATETS_INT .sysflow)).length := by
      rw [hlen _ h1, hlen _ h2]
    obtain ⟨e1, e2⟩ := List.append_inj' h hl
    exact ⟨Decimal.formatInt_inj e1, Decimal.formatInt_inj e2⟩
  · rintro ⟨e1, e2⟩
    rw [e1, e2]

/-- **C112**, finding: without the bound on the creation times different processes share an identifier, whatever the hash. -/
theorem process_ids_collide (L : Lib) (H : Str → Str) (hL : GoHash L H) (fr fr' : FlatRec)
    (h1 : fr.getInt .PROC_OID_HPID_INT .sysflow = 1 ∧ fr.getInt .PROC_OID_CREATETS_INT .sysflow = 23) (h2 : fr'.getInt .PROC_OID_HPID_INT .sysflow = 12 ∧ fr'.getInt .PROC_OID_CREATETS_INT .sysflow = 3) :
    mapAttr L getMappers "sf.proc.oid".toList fr = mapAttr L getMappers "sf.proc.oid".toList fr' := by
  have hm : ∀ fr : FlatRec, mapAttr L getMappers "sf.proc.oid".toList fr =
      .str (L.oidHash [Decimal.formatInt (fr.getInt .PROC_OID_HPID_INT .sysflow), Decimal.formatInt (fr.getInt .PROC_OID_CREATETS_INT .sysflow)]) := fun _ => rfl
  rw [hm, hm, hL.cat, hL.cat, h1.1, h1.2, h2.1, h2.2]
  rfl

/-! ### Non-vacuity -/

example : Name "log".toList := ⟨by decide, by decide, by decide, by decide⟩
example : absolute ["var".toList, "log".toList, "syslog".toList] = "/var/log/syslog".toList := by decide +kernel
example : dir "/var/log/syslog".toList = "/var/log".toList := by decide +kernel
example : dir "/a/../b//./c/x".toList = "/b/c".toList := by decide +kernel
example : dir "../../a/../x".toList = "../..".toList := by decide +kernel
example : dir "/../x".toList = "/".toList := by decide +kernel
example : dir "x".toList = ".".toList := by decide +kernel
example (L : Lib) : GoPaths { L with dir := dir, symPath := parseSymPath } := ⟨fun _ => rfl, fun _ => rfl⟩
example (L : Lib) : GoHash { L with oidHash := fun ps => ps.flatten } id := ⟨fun _ => rfl⟩

end Verif.FlatRecord.Paths
