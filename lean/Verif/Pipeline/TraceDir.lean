import Verif.Pipeline.DriverProps
import Verif.Base.Decimal
import Verif.Base.Order
/-
C118: from a path given to the file driver to the records it sends: a trace file, or a directory of trace files.
Sources: /repo/driver/sysflow/filedriver.go:42-67, 107-181; Go library: os.Stat, os.ReadDir
-/
namespace Verif.Pipeline
open Verif.Decimal (Str)
open Verif.Strings (nameLe Precedes nameLe_iff nameLe_total nameLe_trans nameLe_antisymm)

/-! ### Model -/

/-- An entry of a directory: a file, with what opening it yields, or another directory. -/
inductive DirEntry (R : Type) where
  | file (d : FileData R)
  | dir

/-- What is found at the path (filedriver.go:44-49): nothing, something whose status cannot be read, a file, a directory that cannot be read, or a directory with its
entries, in the order in which the file system has them. -/
inductive Found (R : Type) where
  | absent
  | noStat
  | file (d : FileData R)
  | locked
  | dir (entries : List (Str × DirEntry R))

/-- `os.ReadDir` (Go library): the names of the entries, sorted. -/
def readDir {α : Type} (es : List (Str × α)) : List Str := (es.map Prod.fst).mergeSort nameLe

/-- `os.Stat` and `os.ReadDir` as `getFiles` uses them (filedriver.go:44-51). -/
def Found.kind {R : Type} : Found R → PathKind Str
  | .absent => .missing
  | .noStat => .noStat
  | .file _ => .file
  | .locked => .unreadable
  | .dir es => .dir (readDir es)

/-- Opening a file of the list (filedriver.go:140-150): the path itself or an entry of the directory. A directory can be opened but not read: the Avro reader fails. Simplified: nothing
is added or removed between listing and opening. -/
def Found.openAt {R : Type} (f : Found R) : Option Str → FileData R
  | none =>
    match f with
    | .file d => d
    | _ => .noOpen
  | some n =>
    match f with
    | .dir es =>
      match es.find? (fun e => e.1 == n) with
      | some (_, .file d) => d
      | _ => .noOpen
    | _ => .noOpen

/-- `FileDriver.Run` (filedriver.go:107-181) with the path, once the channel has been found; `none` is a panic. -/
def fileDriverAt {R : Type} (run : Nat → Bool) (f : Found R) : Option (List (DAct R)) :=
  (getFiles none some f.kind).map (fun fs => fileDriver run (fs.map (List.map f.openAt)))

/-! ### Specification -/

/-- These files as entries of a directory. -/
def asFiles {R : Type} (es : List (Str × List (Item R))) : List (Str × DirEntry R) := es.map (fun e => (e.1, .file (.data e.2)))

/-- The directory with these files. -/
def dirOf {R : Type} (es : List (Str × List (Item R))) : Found R := .dir (asFiles es)

/-! ### The order of names -/

/-- The listing is the one sorted arrangement of the names. -/
theorem readDir_sorted {α : Type} (es : List (Str × α)) (ns : List Str) (hp : ns.Perm (es.map Prod.fst)) (hs : ns.Pairwise Precedes) : readDir es = ns := by
  have h1 : (readDir es).Pairwise (fun a b => nameLe a b = true) := List.pairwise_mergeSort nameLe_trans nameLe_total _
  have h2 : ns.Pairwise (fun a b => nameLe a b = true) := hs.imp (fun h => (nameLe_iff _ _).2 (.inr h))
  have h3 : (readDir es).Perm ns := (List.mergeSort_perm _ _).trans hp.symm
  exact h3.eq_of_pairwise (fun a b _ _ hab hba => nameLe_antisymm a b hab hba) h1 h2

/-! ### Directories -/

theorem openAt_dir {R : Type} (es : List (Str × List (Item R))) (hn : (es.map Prod.fst).Nodup) (e : Str × List (Item R)) (he : e ∈ es) :
    (dirOf es).openAt (some e.1) = .data e.2 := by
  have : ∀ es : List (Str × List (Item R)), (es.map Prod.fst).Nodup → e ∈ es →
      (es.map (fun e => (e.1, DirEntry.file (.data e.2)))).find? (fun x => x.1 == e.1) = some (e.1, .file (.data e.2)) := by
    intro es
    induction es with
    | nil => intro _ h; cases h
    | cons x es ih =>
      intro hn he
      rw [List.map_cons, List.find?_cons]
      rw [List.map_cons, List.nodup_cons] at hn
      rcases List.mem_cons.1 he with rfl | he
      · simp
      · have hne : x.1 ≠ e.1 := fun h => hn.1 (h ▸ List.mem_map_of_mem he)
        have : ((x.1, DirEntry.file (FileData.data x.2)).1 == e.1) = false := by simpa using hne
        rw [this]
        exact ih hn.2 he
  show (match (es.map (fun e => (e.1, DirEntry.file (.data e.2)))).find? (fun x => x.1 == e.1) with
    | some (_, .file d) => d
    | _ => .noOpen) = _
  rw [this es hn he]

theorem dir_run {R : Type} (run : Nat → Bool) (es sorted : List (Str × List (Item R))) (hne : es ≠ []) (hp : sorted.Perm es)
    (hs : sorted.Pairwise (fun a b => Precedes a.1 b.1)) :
    fileDriverAt run (dirOf es) = some (fileDriver run (some (sorted.map (fun e => .data e.2)))) := by
  have hnames : (dirOf es).kind = .dir (sorted.map Prod.fst) := by
    show PathKind.dir (readDir _) = _
    rw [readDir_sorted _ (sorted.map Prod.fst)]
    · unfold asFiles
      rw [List.map_map]
      exact hp.map Prod.fst
    · exact List.pairwise_map.2 hs
  have hsn : (sorted.map Prod.fst).Nodup := by
    have : (sorted.map Prod.fst).Pairwise Precedes := List.pairwise_map.2 hs
    exact this.imp (fun h => h.ne)
  have hn : (es.map Prod.fst).Nodup := (hp.map Prod.fst).nodup_iff.1 hsn
  have hsne : sorted.map Prod.fst ≠ [] := by
    intro h
    have : sorted = [] := List.map_eq_nil_iff.1 h
    rw [this] at hp
    exact hne hp.symm.eq_nil
  unfold fileDriverAt
  rw [hnames, getFiles, if_neg hsne]
  show some (fileDriver run (some (((sorted.map Prod.fst).map some).map (dirOf es).openAt))) = _
  rw [List.map_map, List.map_map]
  refine congrArg (fun l => some (fileDriver run (some l))) (List.map_congr_left (fun e he => ?_))
  exact openAt_dir es hn e (hp.subset he)

/-! ## C118 -/

/-- **C118** A directory of trace files, stored in any order: the driver sends a prefix of the records of the files in the alphabetical order of their names, of each those before the
first that cannot be read; all of them unless it sees a stop request, after which it sends nothing. Then it closes the channel once, waits and returns without an error. -/
theorem directory_in_name_order {R : Type} (run : Nat → Bool) (hrun : StaysStopped run) (es sorted : List (Str × List (Item R))) (hne : es ≠ []) (hp : sorted.Perm es)
    (hs : sorted.Pairwise (fun a b => Precedes a.1 b.1)) :
    ∃ body, fileDriverAt run (dirOf es) = some (body ++ [.close, .wait, .ret false]) ∧ (∀ a ∈ body, a.isFinal = false) ∧
      sent body <+: sorted.flatMap (fun e => recordsOf e.2) ∧ (.check false ∉ body → sent body = sorted.flatMap (fun e => recordsOf e.2)) ∧ NothingAfterStop body := by
  obtain ⟨body, h1, h2, h3, h4, h5⟩ := file_driver_delivers run hrun (sorted.map (fun e => .data e.2))
    (by intro f hf; obtain ⟨e, _, rfl⟩ := List.mem_map.1 hf; intro h; cases h)
  rw [List.flatMap_map] at h3 h4
  exact ⟨body, by rw [dir_run run es sorted hne hp hs, h1], h2, h3, h4, h5⟩

/-- **C118** A file: its records. -/
theorem single_file {R : Type} (run : Nat → Bool) (hrun : StaysStopped run) (its : List (Item R)) :
    ∃ body, fileDriverAt run (.file (.data its)) = some (body ++ [.close, .wait, .ret false]) ∧ (∀ a ∈ body, a.isFinal = false) ∧
      sent body <+: recordsOf its ∧ (.check false ∉ body → sent body = recordsOf its) ∧ NothingAfterStop body := by
  obtain ⟨body, h1, h2, h3, h4, h5⟩ := file_driver_delivers run hrun [FileData.data its]
    (by intro f hf; rw [List.mem_singleton.1 hf]; intro h; cases h)
  simp only [List.flatMap_cons, List.flatMap_nil, List.append_nil] at h3 h4
  exact ⟨body, congrArg some h1, h2, h3, h4, h5⟩

/-! ### Files named by their time -/

theorem precedes_snoc {a b : Str} (h : Precedes a b) (hl : a.length = b.length) (x y : Str) : Precedes (a ++ x) (b ++ y) := by
  rcases h with ⟨c, t, rfl⟩ | ⟨p, c, d, s, t, rfl, rfl, h⟩
  · rw [List.length_append, List.length_cons] at hl; omega
  · exact .inr ⟨p, c, d, s ++ x, t ++ y, by simp, by simp, h⟩

theorem digit_order : ∀ d e : Nat, d < e → e < 10 → (Decimal.digitChar d).toNat < (Decimal.digitChar e).toNat := by
  have : ∀ d e : Fin 10, d < e → (Decimal.digitChar d.val).toNat < (Decimal.digitChar e.val).toNat := by decide
  exact fun d e h he => this ⟨d, by omega⟩ ⟨e, he⟩ h

theorem formatF_order : ∀ (f g n m k : Nat), n < f → m < g → (k = 0 ∨ 10 ^ k ≤ n) → m < 10 ^ (k + 1) → n < m →
    Precedes (Decimal.formatNatF f n) (Decimal.formatNatF g m) ∧ (Decimal.formatNatF f n).length = (Decimal.formatNatF g m).length := by
  intro f
  induction f with
  | zero => intro g n m k h; omega
  | succ f ih =>
    intro g n m k hf hg hk hm hnm
    cases g with
    | zero => omega
    | succ g =>
      rw [Decimal.formatNatF, Decimal.formatNatF]
      cases k with
      | zero =>
        have h1 : m < 10 := by omega
        rw [if_pos h1, if_pos (by omega)]
        exact ⟨.inr ⟨[], _, _, [], [], rfl, rfl, digit_order n m hnm h1⟩, rfl⟩
      | succ k =>
        have h10 : 10 ^ (k + 1) = 10 * 10 ^ k := by rw [Nat.pow_succ, Nat.mul_comm]
        have h11 : 10 ^ (k + 1 + 1) = 10 * 10 ^ (k + 1) := by rw [Nat.pow_succ 10 (k + 1), Nat.mul_comm]
        have hpos : 0 < 10 ^ k := Nat.pow_pos (by omega)
        have hk' : 10 ^ (k + 1) ≤ n := by
          rcases hk with h | h
          · cases h
          · exact h
        rw [if_neg (by omega), if_neg (by omega)]
        by_cases he : n / 10 = m / 10
        · have hlen : Decimal.formatNatF f (n / 10) = Decimal.formatNatF g (m / 10) := by
            rw [he]
            have key : ∀ (a b x : Nat), x < a → x < b → Decimal.formatNatF a x = Decimal.formatNatF b x := by
              intro a
              induction a with
              | zero => intro b x h; omega
              | succ a iha =>
                intro b x ha hb
                cases b with
                | zero => omega
                | succ b =>
                  rw [Decimal.formatNatF, Decimal.formatNatF]
                  by_cases hx : x < 10
                  · rw [if_pos hx, if_pos hx]
                  · rw [if_neg hx, if_neg hx, iha b (x / 10) (by omega) (by omega)]
            exact key _ _ _ (by omega) (by omega)
          rw [hlen]
          refine ⟨.inr ⟨_, _, _, [], [], rfl, rfl, digit_order _ _ (by omega) (by omega)⟩, by simp⟩
        · obtain ⟨h1, h2⟩ := ih g (n / 10) (m / 10) k (by omega) (by omega) (.inr (by omega)) (by omega) (by omega)
          exact ⟨precedes_snoc h1 h2 _ _, by rw [List.length_append, List.length_append, h2]; rfl⟩

theorem precedes_prefix {a b : Str} (base : Str) (h : Precedes a b) : Precedes (base ++ a) (base ++ b) := by
  rcases h with ⟨c, t, rfl⟩ | ⟨p, c, d, s, t, rfl, rfl, h⟩
  · exact .inl ⟨c, t, by simp⟩
  · exact .inr ⟨base ++ p, c, d, s, t, by simp, by simp, h⟩

theorem rotated_dir_run {R : Type} (run : Nat → Bool) (base : Str) (k : Nat) (ts : List (Nat × List (Item R))) (hne : ts ≠ []) (hk : ∀ t ∈ ts, 10 ^ k ≤ t.1 ∧ t.1 < 10 ^ (k + 1))
    (ho : ts.Pairwise (fun a b => a.1 < b.1)) (es : List (Str × List (Item R))) (hp : (ts.map (fun t => (base ++ Decimal.formatNat t.1, t.2))).Perm es) :
    fileDriverAt run (dirOf es) = some (fileDriver run (some (ts.map (fun t => .data t.2)))) := by
  have hs : (ts.map (fun t => (base ++ Decimal.formatNat t.1, t.2))).Pairwise (fun a b => Precedes a.1 b.1) := by
    rw [List.pairwise_map]
    refine List.Pairwise.imp_of_mem (fun {a b} ha hb h => ?_) ho
    exact precedes_prefix base (formatF_order _ _ _ _ k (Nat.lt_succ_self _) (Nat.lt_succ_self _) (.inr (hk a ha).1) (hk b hb).2 h).1
  have hes : es ≠ [] := by
    rintro rfl
    exact hne (List.map_eq_nil_iff.1 hp.eq_nil)
  rw [dir_run _ es _ hes hp hs, List.map_map]
  rfl

/-- **C118** Trace files whose names are a common base followed by the time, all with the same number of digits: their records are sent in the order of time, in whichever order the
directory has them. -/
theorem rotated_files_in_time_order {R : Type} (base : Str) (k : Nat) (ts : List (Nat × List (Item R))) (hne : ts ≠ []) (hk : ∀ t ∈ ts, 10 ^ k ≤ t.1 ∧ t.1 < 10 ^ (k + 1))
    (ho : ts.Pairwise (fun a b => a.1 < b.1)) (es : List (Str × List (Item R))) (hp : (ts.map (fun t => (base ++ Decimal.formatNat t.1, t.2))).Perm es) :
    (fileDriverAt (fun _ => true) (dirOf es)).map sent = some (ts.flatMap (fun t => recordsOf t.2)) := by
  rw [rotated_dir_run _ base k ts hne hk ho es hp, Option.map_some]
  rw [file_driver_all _ (by intro f hf; obtain ⟨e, _, rfl⟩ := List.mem_map.1 hf; intro h; cases h), List.flatMap_map]
  rfl

/-- **C118** (finding) Across a change in the number of digits the order of names is not the order of time: the file of time 10 is read before that of time 9. -/
theorem rotation_out_of_order {R : Type} (base : Str) (nine ten : List (Item R)) :
    (fileDriverAt (fun _ => true) (dirOf [(base ++ Decimal.formatNat 9, nine), (base ++ Decimal.formatNat 10, ten)])).map sent = some (recordsOf ten ++ recordsOf nine) := by
  have hs : [(base ++ Decimal.formatNat 10, ten), (base ++ Decimal.formatNat 9, nine)].Pairwise (fun a b => Precedes a.1 b.1) := by
    refine .cons (fun b hb => ?_) (.cons (fun b hb => (by cases hb)) .nil)
    rw [List.mem_singleton.1 hb]
    exact precedes_prefix base (.inr ⟨[], '1', '9', ['0'], [], by decide, by decide, by decide⟩)
  rw [dir_run _ _ _ (by simp) (List.Perm.swap _ _ []) hs, Option.map_some]
  rw [file_driver_all _ (by intro f hf; obtain ⟨e, _, rfl⟩ := List.mem_map.1 hf; intro h; cases h), List.flatMap_map]
  simp [itemsOf]

/-! ### What goes wrong -/

/-- **C118** (finding) A directory inside the directory: the files whose names come before it are read, then the driver returns with an error, without closing the channel. -/
theorem subdirectory_ends_run {R : Type} (pre post : List (Str × List (Item R))) (sub : Str) (es : List (Str × DirEntry R))
    (hp : (asFiles pre ++ (sub, .dir) :: asFiles post).Perm es)
    (hs : (pre.map Prod.fst ++ sub :: post.map Prod.fst).Pairwise Precedes) :
    ∃ body, fileDriverAt (fun _ => true) (.dir es) = some (body ++ [.ret true]) ∧ (∀ a ∈ body, a.isFinal = false) ∧ sent body = pre.flatMap (fun e => recordsOf e.2) := by
  have hnm : (asFiles pre ++ (sub, .dir) :: asFiles post).map Prod.fst
      = pre.map Prod.fst ++ sub :: post.map Prod.fst := by
    unfold asFiles
    rw [List.map_append, List.map_map, List.map_cons, List.map_map]; rfl
  have hk : (Found.dir es).kind = .dir (pre.map Prod.fst ++ sub :: post.map Prod.fst) := by
    show PathKind.dir (readDir es) = _
    rw [readDir_sorted es (pre.map Prod.fst ++ sub :: post.map Prod.fst) (by rw [← hnm]; exact hp.map Prod.fst) hs]
  have hn : (es.map Prod.fst).Nodup := by
    have : (pre.map Prod.fst ++ sub :: post.map Prod.fst).Nodup := hs.imp (fun h => h.ne)
    rw [← hnm] at this
    exact (hp.map Prod.fst).nodup_iff.1 this
  have hfind : ∀ e ∈ es, es.find? (fun x => x.1 == e.1) = some e := by
    clear hp hk
    induction es with
    | nil => intro e h; cases h
    | cons x es ih =>
      intro e he
      rw [List.map_cons, List.nodup_cons] at hn
      rw [List.find?_cons]
      rcases List.mem_cons.1 he with rfl | he
      · simp
      · have hne : x.1 ≠ e.1 := fun h => hn.1 (h ▸ List.mem_map_of_mem he)
        have : (x.1 == e.1) = false := by simpa using hne
        rw [this]
        exact ih hn.2 e he
  have hfile : ∀ e ∈ pre, (Found.dir es).openAt (some e.1) = .data e.2 := by
    intro e he
    have hm : (e.1, DirEntry.file (.data e.2)) ∈ es := hp.subset (List.mem_append_left _ (List.mem_map_of_mem he))
    have := hfind _ hm
    show (match es.find? (fun x => x.1 == e.1) with
      | some (_, .file d) => d
      | _ => .noOpen) = _
    rw [this]
  have hsub : (Found.dir es).openAt (some sub) = .noOpen := by
    have hm : (sub, DirEntry.dir) ∈ es := hp.subset (List.mem_append_right _ List.mem_cons_self)
    have := hfind _ hm
    show (match es.find? (fun x => x.1 == sub) with
      | some (_, .file d) => d
      | _ => .noOpen) = _
    rw [this]
  have hrun : fileDriverAt (fun _ => true) (.dir es) = some (fileDriver (fun _ => true) (some (pre.map (fun e => .data e.2) ++ .noOpen :: (post.map Prod.fst).map (fun n => (Found.dir es).openAt (some n))))) := by
    unfold fileDriverAt
    rw [hk, getFiles, if_neg (by simp)]
    show some (fileDriver _ (some ((pre.map Prod.fst ++ sub :: post.map Prod.fst).map some |>.map (Found.dir es).openAt))) = _
    rw [List.map_map, List.map_append, List.map_cons, List.map_map]
    refine congrArg (fun l => some (fileDriver (fun _ => true) (some l))) ?_
    have e1 : pre.map (((Found.dir es).openAt ∘ some) ∘ Prod.fst) = pre.map (fun e => .data e.2) := List.map_congr_left (fun e he => hfile e he)
    rw [e1]
    show _ ++ (Found.dir es).openAt (some sub) :: _ = _
    rw [hsub]
    rfl
  obtain ⟨body, h1, h2, h3⟩ := file_driver_error_leaves_channel_open (pre.map (fun e => FileData.data e.2)) ((post.map Prod.fst).map (fun n => (Found.dir es).openAt (some n)))
    (by intro f hf; obtain ⟨e, _, rfl⟩ := List.mem_map.1 hf; intro h; cases h)
  rw [List.flatMap_map] at h3
  exact ⟨body, by rw [hrun, h1], h2, h3⟩

/-- **C118** Nothing at the path, a directory that cannot be read, one without entries, or a file that cannot be opened as a trace: an error at once, and (finding) the channel stays open. (finding) If the status
of the path cannot be read for another reason, the program ends with a panic. -/
theorem no_trace {R : Type} (run : Nat → Bool) :
    (∀ f : Found R, f = .absent ∨ f = .locked ∨ f = .dir [] ∨ f = .file .noOpen → fileDriverAt run f = some [.ret true]) ∧ fileDriverAt run (.noStat : Found R) = none := by
  refine ⟨?_, rfl⟩
  rintro f (rfl | rfl | rfl | rfl)
  · rfl
  · rfl
  · show (getFiles none some (.dir (readDir []))).map _ = _
    rw [show readDir ([] : List (Str × DirEntry R)) = [] from List.mergeSort_nil]
    rfl
  · rfl

/-! ### Non-vacuity -/

example : (fileDriverAt (fun _ => true) (dirOf [("trace.1700000060".toList, [.record 3, .bad, .record 4]), ("trace.1700000000".toList, [.record 1, .record 2])])).map sent
    = some [1, 2, 3] := by
  exact rotated_files_in_time_order "trace.".toList 9 [(1700000000, [.record 1, .record 2]), (1700000060, [.record 3, .bad, .record 4])] (by simp)
    (by decide) (by decide) _ (by
      have e1 : "trace.".toList ++ Decimal.formatNat 1700000000 = "trace.1700000000".toList := by decide +kernel
      have e2 : "trace.".toList ++ Decimal.formatNat 1700000060 = "trace.1700000060".toList := by decide +kernel
      show List.Perm [("trace.".toList ++ Decimal.formatNat 1700000000, _), ("trace.".toList ++ Decimal.formatNat 1700000060, _)] _
      rw [e1, e2]
      exact List.Perm.swap _ _ [])

example : ["a".toList, "b".toList, "c".toList].Pairwise Precedes := by
  refine .cons (fun b hb => ?_) (.cons (fun b hb => ?_) (.cons (fun b hb => (by cases hb)) .nil))
  · rcases List.mem_cons.1 hb with rfl | hb
    · exact .inr ⟨[], 'a', 'b', [], [], rfl, rfl, by decide⟩
    · rw [List.mem_singleton.1 hb]
      exact .inr ⟨[], 'a', 'c', [], [], rfl, rfl, by decide⟩
  · rw [List.mem_singleton.1 hb]
    exact .inr ⟨[], 'b', 'c', [], [], rfl, rfl, by decide⟩

end Verif.Pipeline
