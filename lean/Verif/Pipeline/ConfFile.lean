import Verif.Pipeline.CacheProps
import Verif.Pipeline.ConfigProps
/-
C101: from the configuration file named on the command line to the loaded pipeline.
Sources: /repo/driver/pipeline/plugincache.go:55-65, 102-120, 137-165, /repo/driver/pipeline/pipeline.go:82-204
-/
namespace Verif.Pipeline.ConfFile
open Verif.Decimal (Str)
open Verif.Pipeline

variable {F : Type}

/-! ### Model -/

/-- A path as `filepath.Dir` and `filepath.Base` divide it (plugincache.go:146, 149). Cleaning of paths is not modelled: two paths with one directory and one name are one file. -/
structure Path where
  dir : Str
  name : Str
deriving DecidableEq, Repr

/-- What `os.Stat` finds: a file, a directory, an error for which `os.IsNotExist` holds, or another error (a directory on the way that may not be searched, a file used as a directory, ...). -/
inductive Stat where
  | file
  | dir
  | missing
  | denied
deriving DecidableEq, Repr

/-- The disk: what `os.Stat` and what reading say about a path (`none`: reading fails). -/
structure Disk where
  stat : Path → Stat
  text : Path → Option Str

/-- `filepath.Ext` of a name without slashes: from the last dot on, empty if there is none. -/
def ext : Str → Str
  | [] => []
  | c :: cs => if ext cs ≠ [] then ext cs else if c = '.' then c :: cs else []

/-- `strings.TrimSuffix`. -/
def trimSuffix (s suffix : Str) : Str := if suffix.isSuffixOf s then s.take (s.length - suffix.length) else s

/-- The name that is searched for (plugincache.go:149; `viper.SetConfigName` ignores an empty name and keeps the initial one, `config`). -/
def searched (p : Path) : Str :=
  match trimSuffix p.name (ext p.name) with
  | [] => "config".toList
  | n => n

/-- The file names viper tries, in order: the searched name with each known extension, then, as a type is set (plugincache.go:150), the searched name itself. `exts` is viper's list of extensions; its first is
`json`. -/
def candidates (exts : List Str) (p : Path) : List Str := exts.map (fun e => searched p ++ '.' :: e) ++ [searched p]

/-- The file that `ReadInConfig` finds (plugincache.go:153): the first candidate that is a file in the directory. -/
def found (D : Disk) (exts : List Str) (p : Path) : Option Str :=
  (candidates exts p).find? (fun n => D.stat ⟨p.dir, n⟩ == .file)

/-- `GetConfig` (plugincache.go:138-165) without the last step: the stages and the drivers of the configuration. `decode` stands for the JSON decoder and `Unmarshal`. An error of `os.Stat` that does not mean
"does not exist" leaves `s` nil, and `s.IsDir()` dereferences it. -/
def readConfig (D : Disk) (exts : List Str) (decode : Str → Option (List Conf × List Conf)) (p : Path) : Res (List Conf × List Conf) :=
  match D.stat p with
  | .missing => .err
  | .denied => .panic
  | .dir => .err
  | .file =>
    match found D exts p with
    | none => .err
    | some n =>
      match D.text ⟨p.dir, n⟩ with
      | none => .err
      | some t =>
        match decode t with
        | none => .err
        | some c => .ok c

/-- What a `.so` file of the driver directory is for `LoadDrivers` (plugincache.go:105-117): it cannot be opened, has no driver symbol, has one that is not a driver, or a driver, whose `Register` performs registrations. -/
inductive DriverFile (F : Type) where
  | openError
  | noSymbol
  | notDriver
  | driver (regs : List (Reg F))

/-- The loop of `LoadDrivers` (plugincache.go:106-117); `none`: an error. -/
def loadDriverFiles : Regs F → List (DriverFile F) → Option (Regs F)
  | r, [] => some r
  | _, .openError :: _ => none
  | _, .noSymbol :: _ => none
  | r, .notDriver :: fs => loadDriverFiles r fs
  | r, .driver rs :: fs => loadDriverFiles (r.addAll rs) fs

/-- `LoadDrivers` (plugincache.go:103-120); `none` for the directory: it cannot be listed, which is not an error. -/
def loadDrivers (r : Regs F) : Option (List (DriverFile F)) → Option (Regs F)
  | none => some r
  | some fs => loadDriverFiles r fs

/-- Everything `Load` depends on. -/
structure Given (F : Type) where
  disk : Disk
  exts : List Str
  decode : Str → Option (List Conf × List Conf)
  path : Path
  lower : Str → Str
  env : List Str
  manifest : Manifest
  builtin : List (Reg F)
  driverDir : Option (List (DriverFile F))
  driverName : Str
  E : Env F

/-- `Load` (pipeline.go:91-204) once the configuration has been read. -/
def loadRest (G : Given F) (stages drivers : List Conf) : List F × Out F :=
  match loadDrivers (Regs.addAll {} G.builtin) G.driverDir with
  | none => ([], .failed)
  | some r =>
    match chooseDrivers r G.driverName drivers with
    | .err => ([], .failed)
    | .panic => ([], .panicked)
    | .ok fs => (fs, loadStages G.E { regs := r } (setManifest G.manifest G.env stages))

/-- `Load` (pipeline.go:83-204): the possible outcomes, with the drivers chosen. (The order in which the overrides of a stage are assigned is open; an entry of the environment without `=` can make the
overriding panic.) -/
inductive Loads (G : Given F) : List F → Out F → Prop where
  | unreadable (h : readConfig G.disk G.exts G.decode G.path = .err) : Loads G [] .failed
  | crashes (h : readConfig G.disk G.exts G.decode G.path = .panic) : Loads G [] .panicked
  | badEntry (stages drivers : List Conf) (c : Conf) (proc : Str) (h : readConfig G.disk G.exts G.decode G.path = .ok (stages, drivers)) (hc : c ∈ stages)
      (hp : strAt c kProc = some proc) (he : getEnv G.lower proc G.env = none) : Loads G [] .panicked
  | goes (stages drivers stages' : List Conf) (h : readConfig G.disk G.exts G.decode G.path = .ok (stages, drivers)) (hu : UpdatesAll G.lower G.env stages stages') :
      Loads G (loadRest G stages' drivers).1 (loadRest G stages' drivers).2

/-! ### Specification -/

/-- A name made of a stem and an extension without dots. -/
def Named (name stem e : Str) : Prop := name = stem ++ '.' :: e ∧ stem ≠ [] ∧ '.' ∉ e

/-- The registrations of a directory of driver plugins, in order. -/
def registrations (fs : List (DriverFile F)) : List (Reg F) :=
  fs.flatMap (fun f => match f with
    | .driver rs => rs
    | _ => [])

/-- The plugin can be opened and has a driver symbol. -/
def Usable : DriverFile F → Prop
  | .openError | .noSymbol => False
  | _ => True

/-! ### Proofs -/

theorem ext_nodot (e : Str) (h : '.' ∉ e) : ext e = [] := by
  induction e with
  | nil => rfl
  | cons c cs ih =>
    have h1 : ext cs = [] := ih (fun h' => h (by simp [h']))
    unfold ext
    rw [if_neg (by simp [h1]), if_neg (fun hc => h (by simp [hc]))]

theorem ext_named (stem e : Str) (h : '.' ∉ e) : ext (stem ++ '.' :: e) = '.' :: e := by
  induction stem with
  | nil =>
    change ext ('.' :: e) = _
    unfold ext
    rw [if_neg (by simp [ext_nodot e h]), if_pos rfl]
  | cons c cs ih =>
    change ext (c :: (cs ++ '.' :: e)) = _
    unfold ext
    rw [if_pos (by rw [ih]; simp), ih]

theorem trimSuffix_append (a b : Str) : trimSuffix (a ++ b) b = a := by
  unfold trimSuffix
  rw [if_pos (by rw [List.isSuffixOf_iff_suffix]; exact List.suffix_append a b)]
  rw [List.length_append, Nat.add_sub_cancel]
  exact List.take_left

theorem searched_named {p : Path} {stem e : Str} (h : Named p.name stem e) : searched p = stem := by
  unfold searched
  rw [h.1, ext_named stem e h.2.2, trimSuffix_append]
  cases hs : stem with
  | nil => exact absurd hs h.2.1
  | cons c cs => rfl

theorem searched_plain {p : Path} (h : '.' ∉ p.name) (hn : p.name ≠ []) : searched p = p.name := by
  unfold searched
  rw [ext_nodot _ h]
  have : trimSuffix p.name [] = p.name := by
    have := trimSuffix_append p.name []
    simpa using this
  rw [this]
  cases hs : p.name with
  | nil => exact absurd hs hn
  | cons c cs => rfl

/-- A name that is all extension, such as `.json`, stands for `config`. -/
theorem searched_dotted {p : Path} {e : Str} (h : p.name = '.' :: e) (he : '.' ∉ e) : searched p = "config".toList := by
  unfold searched
  have e1 : ext p.name = '.' :: e := by rw [h]; exact ext_named [] e he
  have := trimSuffix_append [] ('.' :: e)
  rw [List.nil_append] at this
  rw [e1, h, this]

theorem found_json (D : Disk) (rest : List Str) (p : Path) (h : D.stat ⟨p.dir, searched p ++ '.' :: "json".toList⟩ = .file) :
    found D ("json".toList :: rest) p = some (searched p ++ '.' :: "json".toList) := by
  unfold found candidates
  rw [List.map_cons, List.cons_append, List.find?_cons_of_pos (by rw [h]; decide)]

/-- What is read, given the name of the file found. -/
theorem readConfig_found {D : Disk} {exts : List Str} {decode : Str → Option (List Conf × List Conf)} {p : Path} (hs : D.stat p = .file) {n : Str} (hf : found D exts p = some n)
    (c : List Conf × List Conf) : readConfig D exts decode p = .ok c ↔ ∃ t, D.text ⟨p.dir, n⟩ = some t ∧ decode t = some c := by
  unfold readConfig
  rw [hs, hf]
  dsimp only
  cases ht : D.text ⟨p.dir, n⟩ with
  | none => simp
  | some t =>
    dsimp only
    cases hd : decode t with
    | none => simp [hd]
    | some c' => simp [hd]

/-- **C101 (partial: only for names ending in `.json`)** If the file named on the command line exists and its name ends in `.json`, then the configuration is the one that file holds, whatever else is in the
directory; and if it cannot be read or decoded, loading it is an error. -/
theorem named_json_is_read_partial (D : Disk) (rest : List Str) (decode : Str → Option (List Conf × List Conf)) (p : Path) (hs : D.stat p = .file) (stem : Str) (hn : Named p.name stem "json".toList) :
    (∀ c, readConfig D ("json".toList :: rest) decode p = .ok c ↔ ∃ t, D.text p = some t ∧ decode t = some c) ∧
    (readConfig D ("json".toList :: rest) decode p = .err ↔ ∀ t, D.text p = some t → decode t = none) := by
  have hp : (⟨p.dir, searched p ++ '.' :: "json".toList⟩ : Path) = p := by
    rw [searched_named hn, ← hn.1]
  have hf : found D ("json".toList :: rest) p = some p.name := by
    rw [found_json D rest p (by rw [hp]; exact hs), searched_named hn, hn.1]
  refine ⟨fun c => readConfig_found hs hf c, ?_⟩
  unfold readConfig
  rw [hs, hf]
  dsimp only
  cases ht : D.text p with
  | none => simp
  | some t =>
    dsimp only
    cases hd : decode t with
    | none => simp [hd]
    | some c' => simp [hd]

/-- **C101 (limit)** Otherwise another file can be read in its place: whatever extension is given, a file with the same stem and the extension `json` is read instead. -/
theorem sibling_json_is_read (D : Disk) (rest : List Str) (decode : Str → Option (List Conf × List Conf)) (p : Path) (hs : D.stat p = .file) (stem e : Str) (hn : Named p.name stem e)
    (hj : D.stat ⟨p.dir, stem ++ '.' :: "json".toList⟩ = .file) (c : List Conf × List Conf) :
    readConfig D ("json".toList :: rest) decode p = .ok c ↔ ∃ t, D.text ⟨p.dir, stem ++ '.' :: "json".toList⟩ = some t ∧ decode t = some c := by
  have hf := found_json D rest p (by rw [searched_named hn]; exact hj)
  rw [searched_named hn] at hf
  exact readConfig_found hs hf c

/-- **C101 (limit)** A file with an extension viper does not know is never read: the configuration, if there is one, comes from a file of another name. -/
theorem unknown_extension_not_read (D : Disk) (exts : List Str) (p : Path) (stem e : Str) (hn : Named p.name stem e) (he : e ∉ exts) (hnd : ∀ x ∈ exts, '.' ∉ x) : found D exts p ≠ some p.name := by
  intro h
  have hm := List.mem_of_find?_eq_some h
  unfold candidates at hm
  rw [searched_named hn] at hm
  rcases List.mem_append.1 hm with hm | hm
  · obtain ⟨x, hx, hxe⟩ := List.mem_map.1 hm
    rw [hn.1] at hxe
    have := List.append_cancel_left hxe
    simp only [List.cons.injEq, true_and] at this
    exact he (this ▸ hx)
  · rw [List.mem_singleton, hn.1] at hm
    have := congrArg List.length hm
    simp only [List.length_append, List.length_cons] at this
    omega

/-- **C101** A name without an extension is read exactly if no file with an extension stands in for it. -/
theorem plain_name_is_read_iff (D : Disk) (exts : List Str) (p : Path) (hs : D.stat p = .file) (hn : '.' ∉ p.name) (h0 : p.name ≠ []) :
    found D exts p = some p.name ↔ ∀ e ∈ exts, D.stat ⟨p.dir, p.name ++ '.' :: e⟩ ≠ .file := by
  unfold found candidates
  rw [searched_plain hn h0, List.find?_append]
  constructor
  · intro h e he hf
    have hmem : p.name ++ '.' :: e ∈ exts.map (fun e => p.name ++ '.' :: e) := List.mem_map.2 ⟨e, he, rfl⟩
    cases hx : (exts.map (fun e => p.name ++ '.' :: e)).find? (fun n => D.stat ⟨p.dir, n⟩ == .file) with
    | none =>
      have := List.find?_eq_none.1 hx _ hmem
      rw [hf] at this
      exact this (by decide)
    | some n =>
      rw [hx] at h
      simp only [Option.some_or, Option.some.injEq] at h
      obtain ⟨e', _, h'⟩ := List.mem_map.1 (List.mem_of_find?_eq_some hx)
      rw [h] at h'
      have := congrArg List.length h'
      simp only [List.length_append, List.length_cons] at this
      omega
  · intro h
    have hx : (exts.map (fun e => p.name ++ '.' :: e)).find? (fun n => D.stat ⟨p.dir, n⟩ == .file) = none := by
      rw [List.find?_eq_none]
      intro n hn'
      obtain ⟨e, he, rfl⟩ := List.mem_map.1 hn'
      have := h e he
      cases hst : D.stat ⟨p.dir, p.name ++ '.' :: e⟩ <;> simp_all
    rw [hx]
    have hp : (⟨p.dir, p.name⟩ : Path) = p := rfl
    rw [List.find?_cons_of_pos (by rw [hp, hs]; decide)]
    rfl

/-- **C101** A missing file and a directory are reported as errors; any other reason for which the file cannot be looked at crashes the program, and nothing else in reading the configuration does. -/
theorem reading_crashes_iff (D : Disk) (exts : List Str) (decode : Str → Option (List Conf × List Conf)) (p : Path) :
    (readConfig D exts decode p = .panic ↔ D.stat p = .denied) ∧
    (D.stat p = .missing ∨ D.stat p = .dir → readConfig D exts decode p = .err) := by
  refine ⟨?_, fun h => by unfold readConfig; rcases h with h | h <;> rw [h]⟩
  cases hs : D.stat p with
  | missing => unfold readConfig; rw [hs]; simp
  | denied => unfold readConfig; rw [hs]; simp
  | dir => unfold readConfig; rw [hs]; simp
  | file =>
    unfold readConfig
    rw [hs]
    dsimp only
    cases found D exts p with
    | none => simp
    | some n =>
      dsimp only
      cases D.text ⟨p.dir, n⟩ with
      | none => simp
      | some t => cases hd : decode t <;> simp [hd]

theorem loadDriverFiles_iff (fs : List (DriverFile F)) : ∀ (r r' : Regs F),
    loadDriverFiles r fs = some r' ↔ (∀ f ∈ fs, Usable f) ∧ r' = r.addAll (registrations fs) := by
  induction fs with
  | nil =>
    intro r r'
    unfold loadDriverFiles registrations
    simp [Regs.addAll, eq_comm]
  | cons f fs ih =>
    intro r r'
    cases f with
    | openError => simp [loadDriverFiles, Usable]
    | noSymbol => simp [loadDriverFiles, Usable]
    | notDriver =>
      unfold loadDriverFiles
      rw [ih]
      have : registrations (DriverFile.notDriver :: fs) = registrations fs := rfl
      rw [this]
      simp [Usable]
    | driver rs =>
      unfold loadDriverFiles
      rw [ih]
      have : registrations (DriverFile.driver rs :: fs) = rs ++ registrations fs := rfl
      rw [this, addAll_append]
      simp [Usable]

/-- **C101** Driver plugins: a driver directory that cannot be listed changes nothing; otherwise either every plugin in it can be opened and has a driver symbol, and then the registrations of all of them are in
force, a later one of a name taking the place of an earlier and of a built-in one, or the pipeline does not load. -/
theorem driver_plugins (builtin : List (Reg F)) (dir : Option (List (DriverFile F))) (r : Regs F) :
    loadDrivers (Regs.addAll {} builtin) dir = some r ↔
      (∀ fs, dir = some fs → ∀ f ∈ fs, Usable f) ∧ r = Regs.addAll {} (builtin ++ (dir.map registrations).getD []) := by
  cases dir with
  | none => unfold loadDrivers; simp [eq_comm]
  | some fs =>
    unfold loadDrivers
    rw [loadDriverFiles_iff]
    simp [addAll_append]

theorem driver_in_force (builtin : List (Reg F)) (dir : Option (List (DriverFile F))) (r : Regs F) (h : loadDrivers (Regs.addAll {} builtin) dir = some r) (n : Str) (f : F) :
    r.getDriver n = .ok f ↔ Newest (asDriver n) (builtin ++ (dir.map registrations).getD []) f := by
  rw [((driver_plugins builtin dir r).1 h).2]
  exact (driver_lookup _ n).1 f

theorem loadStages_length (E : Env F) (cs : List Conf) : ∀ (l l' : Load F), loadStages E l cs = .done l' → l'.stages.length = l.stages.length + cs.length := by
  induction cs with
  | nil => intro l l' h; simp only [loadStages, Out.done.injEq] at h; subst h; rfl
  | cons c cs ih =>
    intro l l' h
    unfold loadStages at h
    split at h
    · rename_i l1 h1
      have := ih l1 l' h
      have h2 : l1.stages.length = l.stages.length + 1 := by
        unfold loadStage at h1
        repeat' split at h1
        all_goals first | (cases h1; done) | (simp only [Out.done.injEq] at h1; subst h1; simp)
      rw [this, h2, List.length_cons]
      omega
    · rename_i hne; exact absurd h (hne l')

theorem updatesAll_length {lower : Str → Str} {env : List Str} {a b : List Conf} (h : UpdatesAll lower env a b) : b.length = a.length := by
  induction h with
  | nil => rfl
  | cons _ _ ih => simp [ih]

theorem setManifest_length (m : Manifest) (env : List Str) (cs : List Conf) : (setManifest m env cs).length = cs.length := by
  simp [setManifest, addGlobal]

/-- **C101 (partial: only for names ending in `.json`)** When the pipeline has been loaded from `NAME.json`, that file was read and decoded, and: every one of its stages is loaded, in its place, from its
attributes with exactly the environment's overrides and the global items; the drivers are the one named on the command line or those of the file, found among the built-in ones and the plugins of the driver
directory, all of which could be opened. -/
theorem loaded_from_named_partial (G : Given F) (rest : List Str) (hx : G.exts = "json".toList :: rest) (env : List (Str × Str)) (he : G.env = entries env) (hw : Wf env)
    (hs : G.disk.stat G.path = .file) (stem : Str) (hn : Named G.path.name stem "json".toList) (fs : List F) (l : Load F) (h : Loads G fs (.done l)) :
    ∃ t stages drivers stages', G.disk.text G.path = some t ∧ G.decode t = some (stages, drivers) ∧
      stages'.length = stages.length ∧ (∀ (i : Nat) c c', stages[i]? = some c → stages'[i]? = some c' → Overridden G.lower env c c') ∧
      (∀ dir, G.driverDir = some dir → ∀ f ∈ dir, Usable f) ∧
      (let regs := G.builtin ++ (G.driverDir.map registrations).getD []
       fs ≠ [] ∧ (if G.driverName ≠ [] then [G.driverName] else drivers.filterMap (fun d => strAt d kDriver)).map (Regs.addAll {} regs).drivers.get = fs.map some ∧
       loadStages G.E { regs := Regs.addAll {} regs } (setManifest G.manifest G.env stages') = .done l ∧ l.stages.length = stages.length) := by
  generalize ho : (Out.done l) = o at h
  cases h with
  | unreadable h => cases ho
  | crashes h => cases ho
  | badEntry => cases ho
  | goes stages drivers stages' h hu =>
    rw [hx] at h
    obtain ⟨t, ht, hd⟩ := ((named_json_is_read_partial G.disk rest G.decode G.path hs stem hn).1 _).1 h
    refine ⟨t, stages, drivers, stages', ht, hd, updatesAll_length hu, (env_overrides G.lower env hw _ _ (he ▸ hu)).2, ?_⟩
    unfold loadRest at ho ⊢
    cases hl : loadDrivers (Regs.addAll {} G.builtin) G.driverDir with
    | none => rw [hl] at ho; cases ho
    | some r =>
      rw [hl] at ho
      dsimp only at ho ⊢
      obtain ⟨h1, rfl⟩ := (driver_plugins _ _ _).1 hl
      refine ⟨h1, ?_⟩
      cases hc : chooseDrivers (Regs.addAll {} (G.builtin ++ (G.driverDir.map registrations).getD [])) G.driverName drivers with
      | err => rw [hc] at ho; cases ho
      | panic => rw [hc] at ho; cases ho
      | ok gs =>
        rw [hc] at ho
        dsimp only at ho ⊢
        have hlen := loadStages_length _ _ _ _ ho.symm
        rw [setManifest_length, updatesAll_length hu] at hlen
        have hfs : gs ≠ [] ∧ (if G.driverName ≠ [] then [G.driverName] else drivers.filterMap (fun d => strAt d kDriver)).map
            (Regs.addAll {} (G.builtin ++ (G.driverDir.map registrations).getD [])).drivers.get = gs.map some := by
          by_cases hnm : G.driverName = []
          · rw [if_neg (fun h => h hnm)]
            rw [hnm] at hc
            exact (drivers_of_config _ _ _).1 hc
          · rw [if_pos hnm]
            cases hg : (Regs.addAll {} (G.builtin ++ (G.driverDir.map registrations).getD [])).drivers.get G.driverName with
            | none => rw [(driver_flag _ _ hnm drivers).2 hg] at hc; cases hc
            | some f =>
              rw [(driver_flag _ _ hnm drivers).1 f hg] at hc
              cases hc
              simp [hg]
        refine ⟨hfs.1, hfs.2, rfl, ?_⟩
        simpa using hlen

/-- **C101** Loading always has an outcome, for every environment that an operating system hands to a program, and then crashes only if the configuration file cannot be looked at, or a channel or driver
makes it. -/
theorem load_has_outcome (G : Given F) (env : List (Str × Str)) (he : G.env = entries env) (hw : Wf env) : ∃ fs o, Loads G fs o := by
  cases h : readConfig G.disk G.exts G.decode G.path with
  | err => exact ⟨_, _, .unreadable h⟩
  | panic => exact ⟨_, _, .crashes h⟩
  | ok c =>
    obtain ⟨s', hs'⟩ := env_total G.lower env hw c.1
    exact ⟨_, _, .goes c.1 c.2 s' h (he ▸ hs')⟩

/-- **C101** Loading crashes on a directory entry that cannot be looked at. -/
theorem denied_config_crashes (G : Given F) (h : G.disk.stat G.path = .denied) (fs : List F) (o : Out F) : Loads G fs o ↔ fs = [] ∧ o = .panicked := by
  have hp := (reading_crashes_iff G.disk G.exts G.decode G.path).1.2 h
  constructor
  · intro hl
    cases hl with
    | unreadable h' => rw [hp] at h'; cases h'
    | crashes _ => exact ⟨rfl, rfl⟩
    | badEntry _ _ _ _ h' => rw [hp] at h'; cases h'
    | goes _ _ _ h' => rw [hp] at h'; cases h'
  · rintro ⟨rfl, rfl⟩
    exact .crashes hp

/-! ### Examples -/

/-- A directory with `pipeline.json`, `pipeline.yaml` and `my.conf`; the texts are their names. -/
def demoDisk : Disk where
  stat p := if p.dir = ".".toList ∧ (p.name = "pipeline.json".toList ∨ p.name = "pipeline.yaml".toList ∨ p.name = "my.conf".toList) then .file else .missing
  text p := if p.dir = ".".toList then some p.name else none

def demoExts : List Str := ["json".toList, "yaml".toList]

/-- A decoder that takes the texts of `demoDisk`. -/
def demoDecode (t : Str) : Option (List Conf × List Conf) :=
  if t = "pipeline.json".toList then some (demoPipeline, [[(kDriver, .str "file".toList)]]) else if t = "pipeline.yaml".toList then some ([], []) else none

def demoGiven (dir : Option (List (DriverFile String))) (name : Str) : Given String where
  disk := demoDisk
  exts := demoExts
  decode := demoDecode
  path := ⟨".".toList, name⟩
  lower := asciiLower
  env := entries []
  manifest := ⟨"1".toList, "2".toList, "3".toList, "4".toList⟩
  builtin := builtins
  driverDir := dir
  driverName := []
  E := demoEnvF

example : Named "pipeline.json".toList "pipeline".toList "json".toList := ⟨by decide, by decide, by decide⟩
example : found demoDisk demoExts ⟨".".toList, "pipeline.json".toList⟩ = some "pipeline.json".toList := by decide +kernel
/-- Asked for the YAML file, the program reads the JSON file. -/
example : found demoDisk demoExts ⟨".".toList, "pipeline.yaml".toList⟩ = some "pipeline.json".toList := by decide +kernel
/-- A file that exists is not found. -/
example : demoDisk.stat ⟨".".toList, "my.conf".toList⟩ = .file ∧ found demoDisk demoExts ⟨".".toList, "my.conf".toList⟩ = none := by decide +kernel
example : ext "a.b.json".toList = ".json".toList ∧ ext "json".toList = [] ∧ ext "a.".toList = ".".toList := by decide

def stageCount : Out String → Option Nat
  | .done l => some l.stages.length
  | _ => none

/-- The demonstration pipeline loads, with a plugin that replaces the file driver. -/
example : (loadRest (demoGiven (some [.notDriver, .driver [.driver "file".toList "mine"]]) "pipeline.json".toList) demoPipeline [[(kDriver, .str "file".toList)]]).1 = ["mine"] ∧
    stageCount (loadRest (demoGiven (some [.notDriver, .driver [.driver "file".toList "mine"]]) "pipeline.json".toList) demoPipeline [[(kDriver, .str "file".toList)]]).2 = some 3 := by
  decide +kernel
/-- A plugin without the symbol keeps the pipeline from loading; a missing directory does not. -/
example : (loadRest (demoGiven (some [.noSymbol]) "pipeline.json".toList) demoPipeline [[(kDriver, .str "file".toList)]]).1 = [] ∧
    (loadRest (demoGiven none "pipeline.json".toList) demoPipeline [[(kDriver, .str "file".toList)]]).1 = ["sysflow.NewFileDriver"] := by
  decide +kernel

theorem demo_updates : UpdatesAll asciiLower (entries []) demoPipeline demoPipeline := by
  unfold demoPipeline
  exact .cons (.override _ "sysflowreader".toList [] [] (by decide) rfl .nil) (.cons (.override _ "policyengine".toList [] [] (by decide) rfl .nil)
    (.cons (.override _ "exporter".toList [] [] (by decide) rfl .nil) .nil))

/-- The hypotheses of `loaded_from_named_partial` are met: the demonstration configuration is loaded. -/
example : ∃ l, Loads (demoGiven none "pipeline.json".toList) ["sysflow.NewFileDriver"] (.done l) ∧ Wf [] ∧
    (demoGiven none "pipeline.json".toList).disk.stat (demoGiven none "pipeline.json".toList).path = .file := by
  have h : readConfig demoDisk demoExts demoDecode ⟨".".toList, "pipeline.json".toList⟩ = .ok (demoPipeline, [[(kDriver, .str "file".toList)]]) := by decide +kernel
  have h1 : (loadRest (demoGiven none "pipeline.json".toList) demoPipeline [[(kDriver, .str "file".toList)]]).1 = ["sysflow.NewFileDriver"] := by decide +kernel
  have h2 : stageCount (loadRest (demoGiven none "pipeline.json".toList) demoPipeline [[(kDriver, .str "file".toList)]]).2 = some 3 := by decide +kernel
  have h3 := Loads.goes (G := demoGiven none "pipeline.json".toList) _ _ _ h demo_updates
  rw [h1] at h3
  cases ho : (loadRest (demoGiven none "pipeline.json".toList) demoPipeline [[(kDriver, .str "file".toList)]]).2 with
  | done l =>
    rw [ho] at h3
    exact ⟨l, h3, ⟨(fun _ h => by cases h), (by decide +kernel)⟩⟩
  | stopped l => rw [ho] at h2; cases h2
  | failed => rw [ho] at h2; cases h2
  | panicked => rw [ho] at h2; cases h2

end Verif.Pipeline.ConfFile
