import Verif.Monitor.Model
import Mathlib.Data.List.Perm.Subperm
/-! C10, C11 and C56: the policy monitor. -/
namespace Verif.Monitor
variable {B C P : Type u} [DecidableEq C]

/-! ### specification -/

/-- The policy directory as the monitor should see it: path ↦ checksum of the content. -/
def snapshot (sha : B → C) (fs : List (FileEnt B)) : List (Str × C) :=
  fs.filterMap (fun f => f.content.map (fun b => (f.path, sha b)))

/-- Two checksum maps agree: same value (or absence) at every path. -/
def SameMap (a b : List (Str × C)) : Prop := ∀ path, a.lookup path = b.lookup path

/-- The outcome a history of policy updates should compile: for each recompile attempt its outcome. -/
def attempts (sha : B → C) (compile : List (FileEnt B) → Option P) (s : St C P) : Op B → List P
  | .events es dir dir' =>
    if (onEvents sha compile s es dir dir').2 then
      match dir' with
      | none => []
      | some d => if (listFilePaths d).isEmpty then [] else (compile (listRecursiveFilePaths d)).toList
    else []
  | .take => []

/-- All successful compiles in a history, in order. -/
def compiled (sha : B → C) (compile : List (FileEnt B) → Option P) : St C P → List (Op B) → List P
  | _, [] => []
  | s, o :: os => attempts sha compile s o ++ compiled sha compile (step sha compile s o).1 os

/-! ### helper lemmas -/

theorem checksumLoop_spec (sha : B → C) (old : List (Str × C)) (fs : List (FileEnt B)) (ch : Bool) (new : List (Str × C)) :
    (checksumLoop sha old fs ch new = none ↔ ∃ f ∈ fs, f.content = none) ∧
    ∀ r, checksumLoop sha old fs ch new = some r →
      r.2 = new ++ snapshot sha fs ∧
      (r.1 = true ↔ ch = true ∨ ∃ e ∈ snapshot sha fs, old.lookup e.1 ≠ some e.2) := by
  induction fs generalizing ch new with
  | nil => simp [checksumLoop, snapshot]
  | cons f fs ih =>
    unfold checksumLoop
    cases hc : f.content with
    | none => simp [hc]
    | some b =>
      simp only
      have := ih (flagAfter old f.path (sha b) ch) (new ++ [(f.path, sha b)])
      obtain ⟨h1, h2⟩ := this
      refine ⟨by rw [h1]; simp [hc], ?_⟩
      intro r hr
      obtain ⟨k1, k2⟩ := h2 r hr
      refine ⟨by simp [k1, snapshot, hc], ?_⟩
      rw [k2]
      have e : snapshot sha (f :: fs) = (f.path, sha b) :: snapshot sha fs := by simp [snapshot, hc]
      rw [e]
      cases hl : old.lookup f.path with
      | none => simp [flagAfter, hl]
      | some v =>
        by_cases hv : v = sha b
        · simp [flagAfter, hl, hv]
        · simp [flagAfter, hl, hv]

theorem lookup_of_mem {a : List (Str × C)} (hn : (a.map Prod.fst).Nodup) {e : Str × C} (h : e ∈ a) : a.lookup e.1 = some e.2 := by
  induction a with
  | nil => simp at h
  | cons x xs ih =>
    simp only [List.map_cons, List.nodup_cons] at hn
    obtain ⟨x1, x2⟩ := x
    rcases List.mem_cons.1 h with rfl | h'
    · simp
    · have : e.1 ≠ x1 := by
        intro he; apply hn.1; show x1 ∈ _; rw [← he]; exact List.mem_map_of_mem h'
      have hb : (e.1 == x1) = false := by simpa using this
      rw [List.lookup_cons, hb]; exact ih hn.2 h'

theorem mem_of_lookup {a : List (Str × C)} {k : Str} {v : C} (h : a.lookup k = some v) : (k, v) ∈ a := by
  induction a with
  | nil => simp at h
  | cons x xs ih =>
    obtain ⟨x1, x2⟩ := x
    rw [List.lookup_cons] at h
    cases hb : k == x1 with
    | true => rw [hb] at h; simp at h hb; simp [h, hb]
    | false => rw [hb] at h; exact List.mem_cons_of_mem _ (ih h)

theorem lookup_congr_perm {a b : List (Str × C)} (ha : (a.map Prod.fst).Nodup) (h : a.Perm b) : SameMap a b := by
  have hb : (b.map Prod.fst).Nodup := ((h.map Prod.fst).nodup_iff).1 ha
  intro k
  cases hk : a.lookup k with
  | some v => exact (lookup_of_mem hb (e := (k, v)) (h.mem_iff.1 (mem_of_lookup hk))).symm
  | none =>
    cases hk' : b.lookup k with
    | none => rfl
    | some v =>
      have := lookup_of_mem ha (e := (k, v)) (h.mem_iff.2 (mem_of_lookup hk'))
      rw [hk] at this; cases this

/-- Maps of the same size, one included in the other, are equal; and conversely. -/
theorem sameMap_iff {a b : List (Str × C)} (ha : (a.map Prod.fst).Nodup) (hb : (b.map Prod.fst).Nodup) :
    SameMap a b ↔ (∀ e ∈ b, a.lookup e.1 = some e.2) ∧ a.length = b.length := by
  have nd : ∀ {l : List (Str × C)}, (l.map Prod.fst).Nodup → l.Nodup := fun h => (List.pairwise_map.1 h).imp (fun hne e => hne (by rw [e]))
  constructor
  · intro h
    refine ⟨fun e he => by rw [h]; exact lookup_of_mem hb he, ?_⟩
    have s1 : ∀ e, e ∈ a → e ∈ b := fun e he => mem_of_lookup (by rw [← h]; exact lookup_of_mem ha he)
    have s2 : ∀ e, e ∈ b → e ∈ a := fun e he => mem_of_lookup (by rw [h]; exact lookup_of_mem hb he)
    exact ((List.perm_ext_iff_of_nodup (nd ha) (nd hb)).2 (fun e => ⟨s1 e, s2 e⟩)).length_eq
  · rintro ⟨h1, h2⟩
    have hsub : b ⊆ a := fun e he => mem_of_lookup (h1 e he)
    have hp : b.Perm a := (List.subperm_of_subset (nd hb) hsub).perm_of_length_le (by omega)
    exact lookup_congr_perm ha hp.symm

theorem snapshot_keys_nodup (sha : B → C) (fs : List (FileEnt B)) (h : (fs.map (·.path)).Nodup) :
    ((snapshot sha fs).map Prod.fst).Nodup := by
  have : ((snapshot sha fs).map Prod.fst).Sublist (fs.map (·.path)) := by
    induction fs with
    | nil => simp [snapshot]
    | cons f fs ih =>
      have ih' := ih (List.nodup_cons.1 h).2
      cases hc : f.content with
      | none =>
        have e : snapshot sha (f :: fs) = snapshot sha fs := by simp [snapshot, hc]
        rw [e]; exact ih'.cons _
      | some b =>
        have e : snapshot sha (f :: fs) = (f.path, sha b) :: snapshot sha fs := by simp [snapshot, hc]
        rw [e]; exact ih'.cons_cons _
  exact this.nodup h

/-! ### C11: change detection -/

/-- **C11** For a readable, non-empty set of top-level `.yaml` files, `calculateChecksum` reports a
change exactly when the path ↦ checksum map differs from the remembered one, and remembers the new
map. -/
theorem change_detection_exact (sha : B → C) (s : St C P) (d : List (FileEnt B))
    (hnd : (d.map (·.path)).Nodup) (hold : (s.policies.map Prod.fst).Nodup)
    (hne : listFilePaths d ≠ []) (hread : ∀ f ∈ listFilePaths d, f.content ≠ none) :
    ∃ ch, calculateChecksum sha s (some d) = ({ s with policies := snapshot sha (listFilePaths d) }, .ok ch) ∧
      (ch = true ↔ ¬ SameMap s.policies (snapshot sha (listFilePaths d))) := by
  have hnd' : ((listFilePaths d).map (·.path)).Nodup := ((List.filter_sublist).map _).nodup hnd
  obtain ⟨h1, h2⟩ := checksumLoop_spec sha s.policies (listFilePaths d) false []
  have hne' : (listFilePaths d).isEmpty = false := by cases h : listFilePaths d <;> simp_all
  cases hr : checksumLoop sha s.policies (listFilePaths d) false [] with
  | none =>
    obtain ⟨f, hf, hc⟩ := h1.1 hr
    exact absurd hc (hread f hf)
  | some r =>
    obtain ⟨ch, new⟩ := r
    obtain ⟨k1, k2⟩ := h2 _ hr
    simp at k1 k2
    subst k1
    refine ⟨if s.policies.length ≠ (snapshot sha (listFilePaths d)).length then true else ch, ?_, ?_⟩
    · simp [calculateChecksum, hne', hr]
    · rw [sameMap_iff hold (snapshot_keys_nodup sha _ hnd')]
      split
      · rename_i hl; simp; intro _; exact hl
      · rename_i hl
        simp only [Classical.not_not] at hl
        rw [k2]
        simp [hl]

/-- **C11** File events that are not a create/write/remove/rename of a `.yaml`/`.yml` file are ignored
altogether; when an event is relevant, a recompile is attempted exactly when the map of checksums
changed. -/
theorem recompile_iff_changed (sha : B → C) (compile : List (FileEnt B) → Option P) (s : St C P) (es : List FsEvent)
    (d : List (FileEnt B)) (dir' : Option (List (FileEnt B)))
    (hnd : (d.map (·.path)).Nodup) (hold : (s.policies.map Prod.fst).Nodup)
    (hne : listFilePaths d ≠ []) (hread : ∀ f ∈ listFilePaths d, f.content ≠ none) :
    ((onEvents sha compile s es (some d) dir').2 = true ↔
      (∃ e ∈ es, (e.op = 1 ∨ e.op = 2 ∨ e.op = 4 ∨ e.op = 8) ∧ (".yaml".toList <:+ e.name ∨ ".yml".toList <:+ e.name)) ∧
      ¬ SameMap s.policies (snapshot sha (listFilePaths d))) ∧
    ((onEvents sha compile s es (some d) dir').2 = false → (onEvents sha compile s es (some d) dir').1.chan = s.chan) := by
  obtain ⟨ch, h1, h2⟩ := change_detection_exact (P := P) sha s d hnd hold hne hread
  have hm : (0 < (es.filter hasModifiedYaml).length) ↔
      ∃ e ∈ es, (e.op = 1 ∨ e.op = 2 ∨ e.op = 4 ∨ e.op = 8) ∧ (".yaml".toList <:+ e.name ∨ ".yml".toList <:+ e.name) := by
    rw [List.length_pos_iff_exists_mem]
    constructor
    · rintro ⟨e, he⟩
      rw [List.mem_filter] at he
      refine ⟨e, he.1, ?_⟩
      have := he.2
      simp only [hasModifiedYaml, hasSuffix, opCreate, opWrite, opRemove, opRename, Bool.and_eq_true, Bool.or_eq_true,
        beq_iff_eq, List.isSuffixOf_iff_suffix] at this
      refine ⟨?_, this.2⟩; omega
    · rintro ⟨e, he, h3, h4⟩
      refine ⟨e, List.mem_filter.2 ⟨he, ?_⟩⟩
      simp only [hasModifiedYaml, hasSuffix, opCreate, opWrite, opRemove, opRename, Bool.and_eq_true, Bool.or_eq_true,
        beq_iff_eq, List.isSuffixOf_iff_suffix]
      refine ⟨?_, h4⟩; omega
  unfold onEvents
  rw [h1, ← hm, ← h2]
  by_cases hp : 0 < (es.filter hasModifiedYaml).length
  · rw [if_pos hp]; cases ch <;> simp [hp]
  · rw [if_neg hp]; exact ⟨⟨fun h => by simp at h, fun h => absurd h.1 hp⟩, fun _ => rfl⟩

/-- **C11** is false for the files the engine actually compiles: `.yml` files and files in
subdirectories are compiled (policyengine.go:177) but not watched by the checksum comparison, so
changing one triggers no recompile. -/
theorem yml_change_missed :
    ∃ (s : St Nat Nat) (d : List (FileEnt Nat)) (es : List FsEvent),
      (∃ e ∈ es, hasModifiedYaml e = true) ∧
      -- the monitor has already recorded the directory with the .yml file at content 1 …
      (∃ d0 : List (FileEnt Nat), (calculateChecksum id s (some d0)).1.policies = s.policies ∧
        listRecursiveFilePaths d0 ≠ [] ∧ (listRecursiveFilePaths d0).map (·.content) ≠ (listRecursiveFilePaths d).map (·.content)) ∧
      -- … and does not recompile when it becomes 2
      (onEvents id (fun fs => some fs.length) s es (some d) (some d)).2 = false := by
  refine ⟨{ policies := [("a.yaml".toList, 7)], chan := [] },
    [⟨"a.yaml".toList, 0, some 7⟩, ⟨"b.yml".toList, 0, some 2⟩], [⟨"b.yml".toList, 2⟩], ⟨_, List.mem_singleton.2 rfl, by decide⟩,
    ⟨[⟨"a.yaml".toList, 0, some 7⟩, ⟨"b.yml".toList, 0, some 1⟩], by decide, by simp [listRecursiveFilePaths, hasSuffix], by decide⟩, by decide⟩

/-- **C11** An event whose mask has two bits set (e.g. create and write, 3) is ignored. -/
theorem combined_event_missed : ∃ e : FsEvent, e.op = 3 ∧ ".yaml".toList <:+ e.name ∧ hasModifiedYaml e = false :=
  ⟨⟨"p.yaml".toList, 3⟩, rfl, by decide, by decide⟩

/-! ### C10: failed compiles -/

/-- **C10** If the updated policies do not compile, the queue of pending interpreters is unchanged,
whatever happened to the directory. -/
theorem failed_compile_keeps_policies (sha : B → C) (compile : List (FileEnt B) → Option P) (s : St C P) (es : List FsEvent)
    (dir dir' : Option (List (FileEnt B)))
    (hfail : ∀ d, dir' = some d → compile (listRecursiveFilePaths d) = none) :
    (onEvents sha compile s es dir dir').1.chan = s.chan := by
  have hc : ∀ s1 : St C P, (checkForPolicyUpdate s1 dir' compile).1 = s1 := by
    intro s1
    cases dir' with
    | none => rfl
    | some d => simp only [checkForPolicyUpdate]; rw [hfail d rfl]; split <;> rfl
  have hk : (calculateChecksum sha s dir).1.chan = s.chan := by
    unfold calculateChecksum
    cases dir with
    | none => rfl
    | some d => simp only; split; rfl; split <;> rfl
  unfold onEvents
  split
  · split
    · rename_i h; rw [h] at hk; exact hk
    · rename_i h; rw [h] at hk; rw [hc]; exact hk
    · rename_i h
      rw [h] at hk
      split
      · rw [hc]; exact hk
      · exact hk
  · rfl

theorem onEvents_chan (sha : B → C) (compile : List (FileEnt B) → Option P) (s : St C P) (es : List FsEvent)
    (dir dir' : Option (List (FileEnt B))) :
    (onEvents sha compile s es dir dir').1.chan =
      if s.chan.length < 10 then s.chan ++ attempts sha compile s (.events es dir dir') else s.chan := by
  have hk : (calculateChecksum sha s dir).1.chan = s.chan := by
    unfold calculateChecksum
    cases dir with
    | none => rfl
    | some d => simp only; split; rfl; split <;> rfl
  have hc : ∀ s1 : St C P, s1.chan = s.chan → (checkForPolicyUpdate s1 dir' compile).1.chan =
      if s.chan.length < 10 then s.chan ++ (match dir' with
        | none => []
        | some d => if (listFilePaths d).isEmpty then [] else (compile (listRecursiveFilePaths d)).toList) else s.chan := by
    intro s1 h1
    cases dir' with
    | none => simp [checkForPolicyUpdate, h1]
    | some d =>
      simp only [checkForPolicyUpdate, chanCap]
      cases hcm : compile (listRecursiveFilePaths d) with
      | none => split <;> simp [h1]
      | some p => 
        split
        · simp [h1]
        · simp [h1]; split <;> simp [h1]
  have no : ∀ (l : List P), (if l.length < 10 then l ++ [] else l) = l := by intro l; simp
  simp only [attempts]
  rcases hcs : calculateChecksum sha s dir with ⟨s1, res⟩
  rw [hcs] at hk
  by_cases hp : (es.filter hasModifiedYaml).length > 0
  · have e : onEvents sha compile s es dir dir' = (match ((s1, res) : St C P × CsResult) with
      | (s1, .empty) => (s1, false)
      | (s1, .error) => ((checkForPolicyUpdate s1 dir' compile).1, true)
      | (s1, .ok ch) => if ch then ((checkForPolicyUpdate s1 dir' compile).1, true) else (s1, false)) := by
      unfold onEvents; rw [if_pos hp, hcs]; cases res <;> rfl
    rw [e]
    cases res with
    | empty => simpa using hk
    | error => simp only [if_true]; exact hc _ hk
    | ok ch =>
      cases ch
      · simpa using hk
      · simp only [if_true]; exact hc _ hk
  · have e : onEvents sha compile s es dir dir' = (s, false) := by unfold onEvents; rw [if_neg hp]
    rw [e]; simp

/-- **C10** For every history of directory changes, compile outcomes and consumption, starting with
`k ≤ 10` pending sets: at most ten sets are pending, and the sets taken by the engine followed by those
still pending are a subsequence (same order) of the initial ones followed by the successful compiles —
nothing that failed to compile is ever adopted. If at most ten were pending at once, none is skipped. -/
theorem monitor_history (sha : B → C) (compile : List (FileEnt B) → Option P) (s : St C P) (ops : List (Op B))
    (hs : s.chan.length ≤ 10) :
    (run sha compile s ops).1.chan.length ≤ 10 ∧
    ((run sha compile s ops).2 ++ (run sha compile s ops).1.chan).Sublist (s.chan ++ compiled sha compile s ops) := by
  induction ops generalizing s with
  | nil => simpa [run, compiled] using hs
  | cons o os ih =>
    cases o with
    | events es dir dir' =>
      have hch := onEvents_chan sha compile s es dir dir'
      have hatt : (attempts sha compile s (.events es dir dir')).length ≤ 1 := by
        simp only [attempts]; split
        · split
          · simp
          · split
            · simp
            · cases compile _ <;> simp
        · simp
      have hle : (step sha compile s (.events es dir dir')).1.chan.length ≤ 10 := by
        simp only [step]; rw [hch]; split
        · simp; omega
        · exact hs
      obtain ⟨h1, h2⟩ := ih _ hle
      refine ⟨h1, ?_⟩
      show ((none : Option P).toList ++ _ ++ _).Sublist _
      simp only [Option.toList_none, List.nil_append, compiled]
      refine h2.trans ?_
      rw [← List.append_assoc]
      refine List.Sublist.append_right ?_ _
      simp only [step]; rw [hch]; split
      · exact List.Sublist.refl _
      · exact List.sublist_append_left _ _
    | take =>
      cases hc : s.chan with
      | nil =>
        have e : step sha compile s .take = (s, none) := by simp [step, hc]
        obtain ⟨h1, h2⟩ := ih s hs
        simp only [run, e, compiled, attempts]
        refine ⟨h1, ?_⟩
        simpa [hc] using h2
      | cons p ps =>
        have e : step sha compile s .take = ({ s with chan := ps }, some p) := by simp [step, hc]
        obtain ⟨h1, h2⟩ := ih { s with chan := ps } (by simp [hc] at hs; simp; omega)
        simp only [run, e, compiled, attempts]
        refine ⟨h1, ?_⟩
        simpa using h2

/-- **C56** (partial) If, when the last successful compile happens, fewer than ten sets are pending,
then it is queued last: once the engine has taken everything pending, the last set taken is the latest
policies. -/
theorem latest_adopted_partial (compile : List (FileEnt B) → Option P) (s : St C P) (d : List (FileEnt B)) (p : P)
    (hroom : s.chan.length < 10) (hne : listFilePaths d ≠ []) (hc : compile (listRecursiveFilePaths d) = some p) :
    (checkForPolicyUpdate s (some d) compile).1.chan.getLast? = some p := by
  have : (listFilePaths d).isEmpty = false := by cases h : listFilePaths d <;> simp_all
  simp [checkForPolicyUpdate, this, hc, chanCap, hroom]

/-- **C56** is false in general: with ten sets pending, the newest policies are discarded, and even
when the engine later takes everything it ends on an outdated set while the directory holds newer
policies which no further event will announce. -/
theorem latest_can_be_lost :
    ∃ (ops : List (Op Nat)) (latest : Nat),
      (compiled id (fun fs => (fs.head?.bind (·.content))) (⟨[], []⟩ : St Nat Nat) ops).getLast? = some latest ∧
      (run id (fun fs => (fs.head?.bind (·.content))) (⟨[], []⟩ : St Nat Nat) (ops ++ List.replicate 20 .take)).2.getLast? ≠ some latest := by
  refine ⟨(List.range 11).map (fun i => .events [⟨"a.yaml".toList, 2⟩] (some [⟨"a.yaml".toList, 0, some i⟩]) (some [⟨"a.yaml".toList, 0, some i⟩])), 10, ?_, ?_⟩ <;> decide +kernel

/-! ### non-vacuity -/

/-- A directory with two watched files. -/
def demoDir : List (FileEnt Nat) := [⟨"a.yaml".toList, 0, some 7⟩, ⟨"c.yaml".toList, 0, some 3⟩, ⟨"x.txt".toList, 0, none⟩]

example : (demoDir.map (·.path)).Nodup ∧ listFilePaths demoDir ≠ [] ∧ (∀ f ∈ listFilePaths demoDir, f.content ≠ none) ∧
    (onEvents (P := Nat) id (fun fs => some fs.length) ⟨[("a.yaml".toList, 7)], []⟩ [⟨"c.yaml".toList, 1⟩] (some demoDir) (some demoDir)).1.chan = [2] ∧
    (onEvents (P := Nat) id (fun fs => some fs.length) ⟨[("a.yaml".toList, 7), ("c.yaml".toList, 3)], []⟩ [⟨"c.yaml".toList, 1⟩] (some demoDir) (some demoDir)).1.chan = [] := by
  refine ⟨by decide, ?_, ?_, by decide, by decide⟩
  · have : (listFilePaths demoDir).length = 2 := by decide
    intro e; rw [e] at this; cases this
  · have : ∀ c ∈ (listFilePaths demoDir).map (·.content), c ≠ none := by decide
    intro f hf; exact this _ (List.mem_map_of_mem hf)

end Verif.Monitor
