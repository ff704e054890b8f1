import Verif.Exporter.Model
/-
C133: what is under a log file's path, when exporters (of this process or of earlier ones) open it and write.
Sources: /repo/core/exporter/transports/file.go:43-82, /repo/core/exporter/exporter.go:89-98
-/
namespace Verif.Exporter.LogFile
open Verif.Exporter (Bytes)

/-! ### Model -/

/-- The directory entries (path to file), the contents of files (also of those that have no entry any more but are open), a bound on the numbers of files in use, and the files that exporters have opened, in the order of
opening, with the path each was opened under. Exporters of earlier processes are in the list, too; they do not write any more. Links, renaming and other programs writing are left out, and so are paths that are
directories. -/
structure Disk where
  names : String → Option Nat
  data : Nat → Bytes
  next : Nat
  handles : List (String × Nat)

/-- `os.Remove(path)`, whose error is ignored (file.go:44). `removed`: the operating system allows it. -/
def Disk.remove (d : Disk) (p : String) (removed : Bool) : Disk := { d with names := fun q => if q = p ∧ removed = true then none else d.names q }

/-- `os.OpenFile(path, O_APPEND|O_CREATE|O_WRONLY)` (file.go:45): the file there is, or a new one. -/
def Disk.openAppend (d : Disk) (p : String) : Disk :=
  match d.names p with
  | some i => { d with handles := d.handles ++ [(p, i)] }
  | none => ⟨fun q => if q = p then some d.next else d.names q, fun i => if i = d.next then [] else d.data i, d.next + 1, d.handles ++ [(p, d.next)]⟩

/-- `TextFileProto.Init` (file.go:43-48). If the file cannot be opened there is no exporter. -/
def Disk.init (d : Disk) (p : String) (removed opened : Bool) : Disk := if opened then (d.remove p removed).openAppend p else d.remove p removed

/-- A write by the `k`-th exporter (file.go:55-66): appended to the file it has open; `b` is what the operating system writes of the data. -/
def Disk.write (d : Disk) (k : Nat) (b : Bytes) : Disk :=
  match d.handles[k]? with
  | some h => { d with data := fun i => if i = h.2 then d.data i ++ b else d.data i }
  | none => d

/-- What happens, in any interleaving. -/
inductive Act where
  | start (p : String) (removed opened : Bool)
  | write (k : Nat) (b : Bytes)
deriving DecidableEq

def Disk.step (d : Disk) : Act → Disk
  | .start p r o => d.init p r o
  | .write k b => d.write k b

def Disk.run (d : Disk) (acts : List Act) : Disk := acts.foldl Disk.step d

/-! ### Specification -/

/-- What someone finds who opens the path. -/
def Disk.look (d : Disk) (p : String) : Option Bytes := (d.names p).map d.data

/-- Whether it is a write by the `k`-th exporter, and what the write adds. -/
def Act.isBy (k : Nat) : Act → Bool
  | .write j _ => j = k
  | _ => false
def Act.adds (k : Nat) : Act → Bytes
  | .write j b => if j = k then b else []
  | _ => []

/-- What the `k`-th exporter writes, in order. -/
def written (k : Nat) (acts : List Act) : Bytes := acts.flatMap (Act.adds k)

/-- No exporter opens the path. -/
def NoStart (p : String) (acts : List Act) : Prop := ∀ r o, Act.start p r o ∉ acts

/-- Before anything has been opened: every path is a file of its own. -/
structure Disk.Fresh (d : Disk) : Prop where
  none : d.handles = []
  below : ∀ p i, d.names p = some i → i < d.next
  own : ∀ p q i, d.names p = some i → d.names q = some i → p = q

/-! ### Proofs -/

/-- In all states reached. -/
structure Disk.Sound (d : Disk) : Prop where
  below : ∀ p i, d.names p = some i → i < d.next
  hbelow : ∀ h ∈ d.handles, h.2 < d.next
  own : ∀ p q i, d.names p = some i → d.names q = some i → p = q
  path : ∀ p h, h ∈ d.handles → d.names p = some h.2 → h.1 = p

theorem Disk.Fresh.sound {d : Disk} (h : d.Fresh) : d.Sound :=
  ⟨h.below, fun x hx => by rw [h.none] at hx; (cases hx), h.own, fun p x hx => by rw [h.none] at hx; (cases hx)⟩

theorem remove_names {d : Disk} {p q : String} {r : Bool} {i : Nat} (h : (d.remove p r).names q = some i) : d.names q = some i ∧ ¬ (q = p ∧ r = true) := by
  unfold Disk.remove at h
  dsimp only at h
  split at h
  · cases h
  · rename_i hc
    exact ⟨h, hc⟩

theorem remove_sound {d : Disk} (h : d.Sound) (p : String) (r : Bool) : (d.remove p r).Sound :=
  ⟨fun q i hq => h.below q i (remove_names hq).1, h.hbelow, fun q q' i h1 h2 => h.own q q' i (remove_names h1).1 (remove_names h2).1,
    fun q x hx hq => h.path q x hx (remove_names hq).1⟩

theorem openAppend_sound {d : Disk} (h : d.Sound) (p : String) : (d.openAppend p).Sound := by
  unfold Disk.openAppend
  split
  · rename_i i hi
    refine ⟨h.below, fun x hx => ?_, h.own, fun q x hx hq => ?_⟩
    · rcases List.mem_append.1 hx with hx | hx
      · exact h.hbelow x hx
      · rw [List.mem_singleton.1 hx]; exact h.below p i hi
    · rcases List.mem_append.1 hx with hx | hx
      · exact h.path q x hx hq
      · rw [List.mem_singleton.1 hx] at hq ⊢
        exact h.own p q i hi hq
  · rename_i hn
    have hname : ∀ q i, (if q = p then some d.next else d.names q) = some i → (q = p ∧ i = d.next) ∨ (q ≠ p ∧ d.names q = some i) := by
      intro q i hq
      split at hq
      · rename_i e; exact .inl ⟨e, (Option.some.inj hq).symm⟩
      · rename_i e; exact .inr ⟨e, hq⟩
    refine ⟨fun q i hq => ?_, fun x hx => ?_, fun q q' i h1 h2 => ?_, fun q x hx hq => ?_⟩
    · rcases hname q i hq with ⟨-, rfl⟩ | ⟨-, hq⟩
      · exact Nat.lt_succ_self _
      · exact Nat.lt_succ_of_lt (h.below q i hq)
    · rcases List.mem_append.1 hx with hx | hx
      · exact Nat.lt_succ_of_lt (h.hbelow x hx)
      · rw [List.mem_singleton.1 hx]; exact Nat.lt_succ_self _
    · rcases hname q i h1 with ⟨e1, e2⟩ | ⟨-, h1⟩ <;> rcases hname q' i h2 with ⟨e3, e4⟩ | ⟨-, h2⟩
      · rw [e1, e3]
      · have := h.below q' i h2; omega
      · have := h.below q i h1; omega
      · exact h.own q q' i h1 h2
    · rcases List.mem_append.1 hx with hx | hx
      · rcases hname q x.2 hq with ⟨-, e2⟩ | ⟨-, hq⟩
        · have := h.hbelow x hx; omega
        · exact h.path q x hx hq
      · rw [List.mem_singleton.1 hx] at hq ⊢
        rcases hname q d.next hq with ⟨e1, -⟩ | ⟨-, hq⟩
        · exact e1.symm
        · have := h.below q d.next hq; omega

theorem write_frame (d : Disk) (k : Nat) (b : Bytes) : (d.write k b).names = d.names ∧ (d.write k b).next = d.next ∧ (d.write k b).handles = d.handles := by
  unfold Disk.write
  split <;> exact ⟨rfl, rfl, rfl⟩

theorem step_sound {d : Disk} (h : d.Sound) (a : Act) : (d.step a).Sound := by
  cases a with
  | start p r o =>
    change (d.init p r o).Sound
    unfold Disk.init
    split
    · exact openAppend_sound (remove_sound h p r) p
    · exact remove_sound h p r
  | write k b =>
    obtain ⟨e1, e2, e3⟩ := write_frame d k b
    change (d.write k b).Sound
    exact ⟨by rw [e1, e2]; exact h.below, by rw [e2, e3]; exact h.hbelow, by rw [e1]; exact h.own, by rw [e1, e3]; exact h.path⟩

theorem run_sound (acts : List Act) : ∀ {d : Disk}, d.Sound → (d.run acts).Sound := by
  induction acts with
  | nil => intro d h; exact h
  | cons a acts ih => intro d h; exact ih (step_sound h a)

/-- The file `n` is under the path `p`; the `k`-th exporter has it open; any other exporter that has is one of `B`. -/
structure Disk.Has (d : Disk) (p : String) (k n : Nat) (B : Nat → Prop) (c : Bytes) : Prop where
  sound : d.Sound
  name : d.names p = some n
  mine : d.handles[k]? = some (p, n)
  alone : ∀ j q, d.handles[j]? = some (q, n) → j = k ∨ B j
  holds : d.data n = c

theorem getElem?_snoc {α : Type} {l : List α} {x y : α} {j : Nat} (h : (l ++ [x])[j]? = some y) : l[j]? = some y ∨ (j = l.length ∧ y = x) := by
  rw [List.getElem?_append] at h
  split at h
  · exact .inl h
  · rename_i hj
    have hlt := (List.getElem?_eq_some_iff.1 h).1
    simp only [List.length_singleton] at hlt
    have e : j = l.length := by omega
    subst e
    rw [Nat.sub_self] at h
    exact .inr ⟨rfl, (Option.some.inj h).symm⟩

theorem has_start {d : Disk} {p : String} {k n : Nat} {B : Nat → Prop} {c : Bytes} (h : d.Has p k n B c) {q : String} (hq : q ≠ p) (r o : Bool) : (d.init q r o).Has p k n B c := by
  have h1 : (d.remove q r).Has p k n B c := by
    refine ⟨remove_sound h.sound q r, ?_, h.mine, h.alone, h.holds⟩
    unfold Disk.remove
    dsimp only
    rw [if_neg (fun e => hq e.1.symm)]
    exact h.name
  unfold Disk.init
  split
  · have hs := openAppend_sound h1.sound q
    unfold Disk.openAppend at hs ⊢
    split
    · rename_i i hi
      rw [hi] at hs
      refine ⟨hs, h1.name, ?_, fun j q' hj => ?_, h1.holds⟩
      · exact (List.getElem?_append_left (List.getElem?_eq_some_iff.1 h1.mine).1).trans h1.mine
      · rcases getElem?_snoc hj with hj | ⟨-, e⟩
        · exact h1.alone j q' hj
        · injection e with e1 e2
          rw [← e2] at hi
          exact absurd (h1.sound.own q p n hi h1.name) hq
    · rename_i hi
      rw [hi] at hs
      have hlt := h1.sound.below p n h1.name
      refine ⟨hs, ?_, ?_, fun j q' hj => ?_, ?_⟩
      · dsimp only; rw [if_neg (Ne.symm hq)]; exact h1.name
      · exact (List.getElem?_append_left (List.getElem?_eq_some_iff.1 h1.mine).1).trans h1.mine
      · rcases getElem?_snoc hj with hj | ⟨-, e⟩
        · exact h1.alone j q' hj
        · injection e with e1 e2
          omega
      · dsimp only; rw [if_neg (by omega)]; exact h1.holds
  · exact h1

theorem has_write {d : Disk} {p : String} {k n : Nat} {B : Nat → Prop} {c : Bytes} (h : d.Has p k n B c) (j : Nat) (b : Bytes) (hj : j ≠ k → ¬ B j) :
    (d.write j b).Has p k n B (c ++ Act.adds k (.write j b)) := by
  have hs := step_sound h.sound (.write j b)
  change (d.write j b).Sound at hs
  obtain ⟨e1, e2, e3⟩ := write_frame d j b
  refine ⟨hs, by rw [e1]; exact h.name, by rw [e3]; exact h.mine, by rw [e3]; exact h.alone, ?_⟩
  unfold Act.adds
  dsimp only
  unfold Disk.write
  split
  · rename_i x hx
    dsimp only
    by_cases hk : j = k
    · subst hk
      rw [h.mine] at hx
      cases hx
      rw [if_pos rfl, if_pos rfl, h.holds]
    · rw [if_neg hk, List.append_nil, if_neg, h.holds]
      intro e
      obtain ⟨q, i⟩ := x
      dsimp only at e
      subst e
      rcases h.alone j q hx with h' | h'
      · exact hk h'
      · exact hj hk h'
  · rename_i hx
    have hk : j ≠ k := by intro e; subst e; rw [h.mine] at hx; cases hx
    rw [if_neg hk, List.append_nil, h.holds]

theorem has_run {p : String} {k n : Nat} {B : Nat → Prop} (acts : List Act) : ∀ {d : Disk} {c : Bytes}, d.Has p k n B c → NoStart p acts → (∀ j b, Act.write j b ∈ acts → j ≠ k → ¬ B j) →
    (d.run acts).Has p k n B (c ++ written k acts) := by
  induction acts with
  | nil => intro d c h _ _; unfold written; rw [List.flatMap_nil, List.append_nil]; exact h
  | cons a acts ih =>
    intro d c h hn hb
    have hn' : NoStart p acts := fun r o hm => hn r o (List.mem_cons_of_mem _ hm)
    have hb' : ∀ j b, Act.write j b ∈ acts → j ≠ k → ¬ B j := fun j b hm => hb j b (List.mem_cons_of_mem _ hm)
    have hw : written k (a :: acts) = Act.adds k a ++ written k acts := by unfold written; rw [List.flatMap_cons]
    rw [hw, ← List.append_assoc]
    change ((d.step a).run acts).Has _ _ _ _ _
    refine ih ?_ hn' hb'
    cases a with
    | start q r o =>
      have hq : q ≠ p := by intro e; subst e; exact hn r o List.mem_cons_self
      have e : Act.adds k (.start q r o) = [] := rfl
      rw [e, List.append_nil]
      exact has_start h hq r o
    | write j b => exact has_write h j b (hb j b List.mem_cons_self)

theorem has_look {d : Disk} {p : String} {k n : Nat} {B : Nat → Prop} {c : Bytes} (h : d.Has p k n B c) : d.look p = some c := by
  unfold Disk.look
  rw [h.name, Option.map_some, h.holds]

/-- A file that has been removed while open: no path leads to it. -/
structure Gone (d d' : Disk) (j i : Nat) : Prop where
  names : d'.names = d.names
  next : d'.next = d.next
  handles : d'.handles = d.handles
  data : ∀ n, n ≠ i → d'.data n = d.data n
  noName : ∀ q, d.names q ≠ some i
  lt : i < d.next
  mine : ∃ q, d.handles[j]? = some (q, i)

theorem gone_start {d d' : Disk} {j i : Nat} (h : Gone d d' j i) (p : String) (r o : Bool) : Gone (d.init p r o) (d'.init p r o) j i := by
  have h1 : Gone (d.remove p r) (d'.remove p r) j i := by
    refine ⟨?_, h.next, h.handles, h.data, fun q hq => h.noName q (remove_names hq).1, h.lt, h.mine⟩
    unfold Disk.remove
    rw [h.names]
  unfold Disk.init
  split
  · obtain ⟨q0, hq0⟩ := h1.mine
    have hlt := (List.getElem?_eq_some_iff.1 hq0).1
    unfold Disk.openAppend
    rw [h1.names, h1.next, h1.handles]
    cases hp : (d.remove p r).names p with
    | some n =>
      exact ⟨rfl, rfl, rfl, h1.data, h1.noName, h1.lt, q0, (List.getElem?_append_left hlt).trans hq0⟩
    | none =>
      refine ⟨rfl, rfl, rfl, fun n hn => ?_, fun q hq => ?_, Nat.lt_succ_of_lt h1.lt, q0, (List.getElem?_append_left hlt).trans hq0⟩
      · dsimp only
        rw [h1.data n hn]
      · dsimp only at hq
        split at hq
        · have := Option.some.inj hq
          have := h1.lt
          omega
        · exact h1.noName q hq
  · exact h1

theorem gone_write {d d' : Disk} {j i : Nat} (h : Gone d d' j i) (k : Nat) (b : Bytes) : Gone (d.write k b) (d'.write k b) j i := by
  obtain ⟨e1, e2, e3⟩ := write_frame d k b
  obtain ⟨f1, f2, f3⟩ := write_frame d' k b
  refine ⟨by rw [e1, f1, h.names], by rw [e2, f2, h.next], by rw [e3, f3, h.handles], fun n hn => ?_, by rw [e1]; exact h.noName, by rw [e2]; exact h.lt, by rw [e3]; exact h.mine⟩
  unfold Disk.write
  rw [h.handles]
  split
  · dsimp only
    rw [h.data n hn]
  · exact h.data n hn

theorem gone_own {d d' : Disk} {j i : Nat} (h : Gone d d' j i) (b : Bytes) : Gone (d.write j b) d' j i := by
  obtain ⟨e1, e2, e3⟩ := write_frame d j b
  refine ⟨by rw [e1, h.names], by rw [e2, h.next], by rw [e3, h.handles], fun n hn => ?_, by rw [e1]; exact h.noName, by rw [e2]; exact h.lt, by rw [e3]; exact h.mine⟩
  obtain ⟨q, hq⟩ := h.mine
  unfold Disk.write
  rw [hq]
  dsimp only
  rw [if_neg hn]
  exact h.data n hn

theorem gone_run {j i : Nat} (acts : List Act) : ∀ {d d' : Disk}, Gone d d' j i → Gone (d.run acts) (d'.run (acts.filter (fun a => !a.isBy j))) j i := by
  induction acts with
  | nil => intro d d' h; exact h
  | cons a acts ih =>
    intro d d' h
    cases a with
    | start p r o =>
      have e : (!(Act.start p r o).isBy j) = true := rfl
      rw [List.filter_cons_of_pos (p := fun a => !Act.isBy j a) e]
      exact ih (gone_start h p r o)
    | write k b =>
      by_cases hk : k = j
      · subst hk
        have e : ¬ (!(Act.write k b).isBy k) = true := by unfold Act.isBy; simp
        rw [List.filter_cons_of_neg (p := fun a => !Act.isBy k a) e]
        exact ih (gone_own h b)
      · have e : (!(Act.write k b).isBy j) = true := by unfold Act.isBy; simp [hk]
        rw [List.filter_cons_of_pos (p := fun a => !Act.isBy j a) e]
        exact ih (gone_write h k b)

/-- What `Export` does to the file in the model of one exporter (`OutFile`, `fileExport`) are writes by that exporter in this model, and the contents there are what is written here. -/
theorem export_writes (os : Nat → Option Nat) (k : Nat) (ds : List Datum) : ∀ f : OutFile, ∃ acts : List Act, (∀ a ∈ acts, a.isBy k = true) ∧ (fileExport os f ds).1.contents = f.contents ++ written k acts := by
  have one : ∀ (f : OutFile) (b : Bytes), ∃ c, (f.write os b).1.contents = f.contents ++ written k [.write k c] := by
    intro f b
    have e : ∀ c, written k [.write k c] = c := by intro c; unfold written; rw [List.flatMap_cons, List.flatMap_nil, List.append_nil]; unfold Act.adds; exact if_pos rfl
    unfold OutFile.write
    split
    · exact ⟨b, by rw [e]⟩
    · rename_i n _; exact ⟨b.take n, by rw [e]⟩
  have join : ∀ a b, written k (a ++ b) = written k a ++ written k b := by intro a b; unfold written; exact List.flatMap_append
  have by1 : ∀ c, (Act.write k c).isBy k = true := by intro c; unfold Act.isBy; simp
  induction ds with
  | nil => intro f; exact ⟨[], fun a ha => (by cases ha), by unfold fileExport written; rw [List.flatMap_nil, List.append_nil]⟩
  | cons x ds ih =>
    intro f
    have two : ∀ b, ∃ acts : List Act, (∀ a ∈ acts, a.isBy k = true) ∧
        (if (f.write os b).2 = true then fileExport os ((f.write os b).1.write os [newline]).1 ds else ((f.write os b).1, false)).1.contents = f.contents ++ written k acts := by
      intro b
      obtain ⟨c, hc⟩ := one f b
      obtain ⟨c', hc'⟩ := one (f.write os b).1 [newline]
      split
      · obtain ⟨acts, h1, h2⟩ := ih ((f.write os b).1.write os [newline]).1
        refine ⟨[.write k c] ++ ([.write k c'] ++ acts), fun a ha => ?_, by rw [h2, hc', hc, join, join, List.append_assoc, List.append_assoc]⟩
        rcases List.mem_append.1 ha with ha | ha
        · rw [List.mem_singleton.1 ha]; exact by1 c
        · rcases List.mem_append.1 ha with ha | ha
          · rw [List.mem_singleton.1 ha]; exact by1 c'
          · exact h1 a ha
      · exact ⟨[.write k c], fun a ha => by rw [List.mem_singleton.1 ha]; exact by1 c, hc⟩
    cases x with
    | bytes b => exact two b
    | obj b => exact two b
    | odd p =>
      obtain ⟨c, hc⟩ := one f (p ++ [newline])
      change ∃ acts : List Act, _ ∧ (if (f.write os (p ++ [newline])).2 = true then fileExport os (f.write os (p ++ [newline])).1 ds else ((f.write os (p ++ [newline])).1, false)).1.contents = _
      split
      · obtain ⟨acts, h1, h2⟩ := ih (f.write os (p ++ [newline])).1
        refine ⟨[.write k c] ++ acts, fun a ha => ?_, by rw [h2, hc, join, List.append_assoc]⟩
        rcases List.mem_append.1 ha with ha | ha
        · rw [List.mem_singleton.1 ha]; exact by1 c
        · exact h1 a ha
      · exact ⟨[.write k c], fun a ha => by rw [List.mem_singleton.1 ha]; exact by1 c, hc⟩

/-! ## C133 -/

/-- **C133** An exporter that has removed what was under its path and has opened it: as long as no exporter opens the path again, what is under it is exactly what this exporter writes, from the beginning on; nothing that
was there before, and nothing that other exporters write, also not those that opened the same path earlier. -/
theorem log_is_own {d : Disk} (hd : d.Fresh) (before after : List Act) (p : String) (h : NoStart p after) :
    (d.run (before ++ .start p true true :: after)).look p = some (written (d.run before).handles.length after) := by
  have hs := run_sound before hd.sound
  generalize hd1 : d.run before = d1 at hs
  have hrun : d.run (before ++ .start p true true :: after) = (d1.init p true true).run after := by
    unfold Disk.run at hd1 ⊢
    rw [List.foldl_append, hd1]
    rfl
  rw [hrun]
  have hn : (d1.remove p true).names p = none := by unfold Disk.remove; dsimp only; rw [if_pos ⟨rfl, rfl⟩]
  have hsound := step_sound hs (.start p true true)
  change (d1.init p true true).Sound at hsound
  have hhas : (d1.init p true true).Has p d1.handles.length d1.next (fun _ => False) [] := by
    unfold Disk.init at hsound ⊢
    rw [if_pos rfl] at hsound ⊢
    unfold Disk.openAppend at hsound ⊢
    rw [hn] at hsound ⊢
    refine ⟨hsound, ?_, ?_, fun j q hj => ?_, ?_⟩
    · dsimp only; rw [if_pos rfl]; rfl
    · exact List.getElem?_concat_length
    · rcases getElem?_snoc hj with hj | ⟨hj, -⟩
      · have := hs.hbelow _ (List.mem_of_getElem? hj)
        dsimp only at this
        omega
      · exact .inl hj
    · dsimp only; exact if_pos rfl
  have := has_look (has_run after hhas h (fun _ _ _ _ => id))
  rwa [List.nil_append] at this

/-- **C133** An exporter whose path another one opens later, having removed the file, writes to a file that nobody finds: under every path there is what there would be without its further writes. -/
theorem replaced_is_lost {d : Disk} (hd : d.Fresh) (before after : List Act) (p : String) (opened : Bool) (j n : Nat) (hj : (d.run before).handles[j]? = some (p, n)) (q : String) :
    (d.run (before ++ .start p true opened :: after)).look q = (d.run (before ++ .start p true opened :: after.filter (fun a => !a.isBy j))).look q := by
  have hs := run_sound before hd.sound
  generalize hd1 : d.run before = d1 at hs hj
  have hrun : ∀ l, d.run (before ++ .start p true opened :: l) = (d1.init p true opened).run l := by
    intro l
    unfold Disk.run at hd1 ⊢
    rw [List.foldl_append, hd1]
    rfl
  rw [hrun, hrun]
  have hlt : n < d1.next := hs.hbelow _ (List.mem_of_getElem? hj)
  have hno : ∀ x, (d1.remove p true).names x ≠ some n := by
    intro x hx
    obtain ⟨h1, h2⟩ := remove_names hx
    exact h2 ⟨(hs.path x _ (List.mem_of_getElem? hj) h1).symm, rfl⟩
  have hg : Gone (d1.init p true opened) (d1.init p true opened) j n := by
    refine ⟨rfl, rfl, rfl, fun _ _ => rfl, ?_, ?_, p, ?_⟩
    · intro x hx
      unfold Disk.init at hx
      split at hx
      · unfold Disk.openAppend at hx
        split at hx
        · exact hno x hx
        · dsimp only at hx
          split at hx
          · have := Option.some.inj hx
            change d1.next = n at this
            omega
          · exact hno x hx
      · exact hno x hx
    · unfold Disk.init
      split
      · unfold Disk.openAppend
        split
        · exact hlt
        · exact Nat.lt_succ_of_lt hlt
      · exact hlt
    · unfold Disk.init
      split
      · unfold Disk.openAppend
        split <;> exact (List.getElem?_append_left (List.getElem?_eq_some_iff.1 hj).1).trans hj
      · exact hj
  have := gone_run after hg
  unfold Disk.look
  rw [this.names]
  cases hq : ((d1.init p true opened).run after).names q with
  | none => rfl
  | some i => rw [Option.map_some, Option.map_some, this.data i (fun e => this.noName q (by rw [hq, e]))]

/-- **C133** If the operating system does not let it remove the file but lets it open it (the directory cannot be written, the file can), the exporter goes on at the end of what there was; this is not noticed. -/
theorem kept_is_appended {d : Disk} (hd : d.Fresh) (before after : List Act) (p : String) (h : NoStart p after) (old : Bytes) (hold : (d.run before).look p = some old)
    (hother : ∀ j b, Act.write j b ∈ after → ∀ n, (d.run before).handles[j]? ≠ some (p, n)) :
    (d.run (before ++ .start p false true :: after)).look p = some (old ++ written (d.run before).handles.length after) := by
  have hs := run_sound before hd.sound
  generalize hd1 : d.run before = d1 at hs hold hother
  have hrun : d.run (before ++ .start p false true :: after) = (d1.init p false true).run after := by
    unfold Disk.run at hd1 ⊢
    rw [List.foldl_append, hd1]
    rfl
  rw [hrun]
  obtain ⟨n, hn, hdata⟩ := Option.map_eq_some_iff.1 hold
  have hn' : (d1.remove p false).names p = some n := by unfold Disk.remove; dsimp only; rw [if_neg (by simp)]; exact hn
  have hsound := step_sound hs (.start p false true)
  change (d1.init p false true).Sound at hsound
  have hhas : (d1.init p false true).Has p d1.handles.length n (fun j => ∃ i, d1.handles[j]? = some (p, i)) old := by
    unfold Disk.init at hsound ⊢
    rw [if_pos rfl] at hsound ⊢
    unfold Disk.openAppend at hsound ⊢
    rw [hn'] at hsound ⊢
    refine ⟨hsound, hn', List.getElem?_concat_length, fun j q hj => ?_, hdata⟩
    rcases getElem?_snoc hj with hj | ⟨hj, -⟩
    · have : q = p := hs.path p _ (List.mem_of_getElem? hj) hn
      subst this
      exact .inr ⟨n, hj⟩
    · exact .inl hj
  exact has_look (has_run after hhas h (fun j b hm _ ⟨i, hi⟩ => hother j b hm i hi))

/-- **C133** So the log that the program's exporter leaves is the one that the other theorems speak about: exporting any batches to a file opened so, whatever else exporters do to other files meanwhile or did before, what is
under the path is what `fileExport` makes of an empty file. -/
theorem log_is_exported {d : Disk} (hd : d.Fresh) (before after : List Act) (p : String) (h : NoStart p after) (os : Nat → Option Nat) (ds : List Datum) (acts : List Act)
    (hacts : (fileExport os newFile ds).1.contents = written (d.run before).handles.length acts) (hafter : after.filter (Act.isBy (d.run before).handles.length) = acts) :
    (d.run (before ++ .start p true true :: after)).look p = some (fileExport os newFile ds).1.contents := by
  rw [log_is_own hd before after p h, hacts, ← hafter]
  generalize (d.run before).handles.length = k
  have : written k after = written k (after.filter (Act.isBy k)) := by
    clear h hafter
    induction after with
    | nil => rfl
    | cons a after ih =>
      by_cases ha : a.isBy k = true
      · rw [List.filter_cons_of_pos ha]
        unfold written at ih ⊢
        rw [List.flatMap_cons, List.flatMap_cons, ih]
      · rw [List.filter_cons_of_neg ha, ← ih]
        unfold written
        rw [List.flatMap_cons]
        have : Act.adds k a = [] := by
          cases a with
          | start p r o => rfl
          | write j b =>
            unfold Act.isBy at ha
            unfold Act.adds
            dsimp only at ha ⊢
            rw [if_neg (fun e => ha (decide_eq_true e))]
        rw [this, List.nil_append]
  rw [this]

/-! ### Concrete cases -/

/-- There is a log with one byte from an earlier run. -/
def demoDisk : Disk := ⟨fun q => if q = "log" then some 0 else none, fun i => if i = 0 then [65] else [], 1, []⟩

theorem demo_disk : demoDisk.Fresh := by
  have key : ∀ p i, demoDisk.names p = some i → p = "log" ∧ i = 0 := by
    intro p i h
    change (if p = "log" then some 0 else none) = some i at h
    split at h
    · rename_i e; exact ⟨e, (Option.some.inj h).symm⟩
    · cases h
  refine ⟨rfl, fun p i h => ?_, fun p q i h1 h2 => ?_⟩
  · rw [(key p i h).2]; exact Nat.lt_succ_self 0
  · rw [(key p i h1).1, (key q i h2).1]

/-- Two exporters with one path: what the first writes (`B`, `D`) is not found, the second's (`C`) is; the earlier log (`A`) is gone. -/
example : (demoDisk.run [.start "log" true true, .start "log" true true, .write 0 [66], .write 1 [67], .write 0 [68]]).look "log" = some [67] :=
  log_is_own demo_disk [.start "log" true true] [.write 0 [66], .write 1 [67], .write 0 [68]] "log" (fun r o h => by simp at h)

example (q : String) : (demoDisk.run [.start "log" true true, .start "log" true true, .write 0 [66], .write 1 [67], .write 0 [68]]).look q =
    (demoDisk.run [.start "log" true true, .start "log" true true, .write 1 [67]]).look q :=
  replaced_is_lost demo_disk [.start "log" true true] [.write 0 [66], .write 1 [67], .write 0 [68]] "log" true 0 1 rfl q

/-- One message exported to the second of two exporters' files. -/
example : (demoDisk.run [.start "other" true true, .start "log" true true, .write 1 [67], .write 0 [68], .write 1 [10]]).look "log" = some (fileExport (fun _ => none) newFile [.bytes [67]]).1.contents :=
  log_is_exported demo_disk [.start "other" true true] [.write 1 [67], .write 0 [68], .write 1 [10]] "log" (fun r o h => by simp at h) (fun _ => none) [.bytes [67]] [.write 1 [67], .write 1 [10]] (by decide) (by decide)

/-- The earlier log cannot be removed. -/
example : (demoDisk.run [.start "log" false true, .write 0 [66]]).look "log" = some [65, 66] :=
  kept_is_appended demo_disk [] [.write 0 [66]] "log" (fun r o h => by simp at h) [65] rfl (fun j b _ n hn => by cases hn)

end Verif.Exporter.LogFile
