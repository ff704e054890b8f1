import Verif.Pipeline.Config
/-
Environment overrides and global configuration items (C51, C62).
-/
namespace Verif.Pipeline
open Verif.Decimal (Str)

/-! ### Specification -/

/-- The variable `name` addresses attribute `attr` of processor `proc`: in lower case it reads `proc_rest`, the first
underscore ending the processor name, and `attr` is `rest` with dots for underscores. -/
def Names (lower : Str → Str) (proc attr name : Str) : Prop :=
  ∃ rest, lower name = proc ++ '_' :: rest ∧ '_' ∉ proc ∧ attr = rest.map (fun c => if c = '_' then '.' else c)

/-- In the environment (name/value pairs in order) the last variable addressing `attr` of `proc` has value `v`. -/
def Sets (lower : Str → Str) (env : List (Str × Str)) (proc attr v : Str) : Prop :=
  ∃ pre name post, env = pre ++ (name, v) :: post ∧ Names lower proc attr name ∧
    ∀ p ∈ post, ¬ Names lower proc attr p.1

/-- The entries of `os.Environ()` for an environment. -/
def entries (env : List (Str × Str)) : List Str := env.map (fun p => p.1 ++ '=' :: p.2)

/-- Names of environment variables contain no `=`. -/
def Wf (env : List (Str × Str)) : Prop := ∀ p ∈ env, '=' ∉ p.1

/-! ### Lemmas -/

theorem splitN2_append (sep : Char) (a b : Str) (h : sep ∉ a) : splitN2 sep (a ++ sep :: b) = (a, some b) := by
  induction a with
  | nil => simp [splitN2]
  | cons c a ih =>
    rw [List.mem_cons, not_or] at h
    rw [List.cons_append, splitN2, if_neg (fun e => h.1 e.symm), ih h.2]

theorem splitN2_some (sep : Char) (s a b : Str) (h : splitN2 sep s = (a, some b)) : s = a ++ sep :: b ∧ sep ∉ a := by
  induction s generalizing a with
  | nil => simp [splitN2] at h
  | cons c s ih =>
    unfold splitN2 at h
    by_cases hc : c = sep
    · rw [if_pos hc] at h
      simp only [Prod.mk.injEq, Option.some.injEq] at h
      obtain ⟨rfl, rfl⟩ := h
      simp [hc]
    · rw [if_neg hc] at h
      simp only [Prod.mk.injEq] at h
      obtain ⟨h1, h2⟩ := h
      have := ih (splitN2 sep s).1 (by rw [← h2])
      subst h1
      exact ⟨by rw [List.cons_append, ← this.1], fun h => by
        rcases List.mem_cons.1 h with e | h
        · exact hc e.symm
        · exact this.2 h⟩

theorem splitN2_key (s proc rest : Str) : splitN2 '_' s = (proc, some rest) ↔ s = proc ++ '_' :: rest ∧ '_' ∉ proc :=
  ⟨splitN2_some _ _ _ _, fun h => h.1 ▸ splitN2_append _ _ _ h.2⟩

theorem names_unique {lower : Str → Str} {proc a a' name : Str} (h : Names lower proc a name) (h' : Names lower proc a' name) : a = a' := by
  obtain ⟨r, h1, h2, h3⟩ := h
  obtain ⟨r', k1, k2, k3⟩ := h'
  have e1 := splitN2_append '_' proc r h2
  have e2 := splitN2_append '_' proc r' k2
  rw [← h1, k1, e2] at e1
  simp only [Prod.mk.injEq, Option.some.injEq, true_and] at e1
  rw [h3, k3, e1]

theorem sets_snoc {lower : Str → Str} {env : List (Str × Str)} {proc attr v : Str} (p : Str × Str) :
    Sets lower (env ++ [p]) proc attr v ↔
      (Names lower proc attr p.1 ∧ v = p.2) ∨ (¬ Names lower proc attr p.1 ∧ Sets lower env proc attr v) := by
  constructor
  · rintro ⟨pre, name, post, h1, h2, h3⟩
    rcases List.eq_nil_or_concat post with rfl | ⟨post', q, rfl⟩
    · have := List.append_inj' h1 (by simp)
      obtain ⟨_, e⟩ := this
      simp only [List.cons.injEq, and_true] at e
      subst e
      exact .inl ⟨h2, rfl⟩
    · rw [List.concat_eq_append, ← List.cons_append, ← List.append_assoc] at h1
      have := List.append_inj' h1 (by simp)
      obtain ⟨e1, e⟩ := this
      simp only [List.cons.injEq, and_true] at e
      subst e
      exact .inr ⟨h3 p (by simp), pre, name, post', e1, h2, fun x hx => h3 x (by simp [hx])⟩
  · rintro (⟨h1, rfl⟩ | ⟨h1, pre, name, post, rfl, h2, h3⟩)
    · exact ⟨env, p.1, [], rfl, h1, by simp⟩
    · refine ⟨pre, name, post ++ [p], by simp, h2, ?_⟩
      intro x hx
      rcases List.mem_append.1 hx with hx | hx
      · exact h3 x hx
      · rw [List.mem_singleton.1 hx]; exact h1

theorem sets_nil {lower : Str → Str} {proc attr v : Str} : ¬ Sets lower [] proc attr v := by
  rintro ⟨pre, name, post, h, _⟩
  cases pre <;> simp at h

/-- The table built by `getEnv` is exactly what the environment says. -/
theorem getEnvFrom_spec (lower : Str → Str) (proc : Str) (env post : List (Str × Str)) (hw : Wf post) (m : AMap Str Str)
    (hm : ∀ k v, m.get k = some v ↔ Sets lower env proc k v) (hnd : m.keys.Nodup) :
    ∃ m', getEnvFrom lower proc m (entries post) = some m' ∧ m'.keys.Nodup ∧
      ∀ k v, m'.get k = some v ↔ Sets lower (env ++ post) proc k v := by
  induction post generalizing env m with
  | nil => exact ⟨m, rfl, hnd, by simpa using hm⟩
  | cons p post ih =>
    have hp : '=' ∉ p.1 := hw p (by simp)
    have hw' : Wf post := fun q hq => hw q (by simp [hq])
    have e1 : splitN2 '=' (p.1 ++ '=' :: p.2) = (p.1, some p.2) := splitN2_append _ _ _ hp
    have assoc : env ++ p :: post = (env ++ [p]) ++ post := by simp
    rw [assoc]
    cases hk : splitN2 '_' (lower p.1) with
    | mk a b =>
    have skipcase : ((∀ r, b = some r → a ≠ proc)) → ∃ m', getEnvFrom lower proc m (entries post) = some m' ∧ m'.keys.Nodup ∧
      ∀ k v, m'.get k = some v ↔ Sets lower ((env ++ [p]) ++ post) proc k v := by
      intro hne
      have hnn : ∀ k, ¬ Names lower proc k p.1 := by
        rintro k ⟨r, h1, h2, _⟩
        have := (splitN2_key (lower p.1) proc r).2 ⟨h1, h2⟩
        rw [hk] at this
        simp only [Prod.mk.injEq] at this
        exact hne r this.2 this.1
      refine ih (env ++ [p]) hw' m ?_ hnd
      intro k v
      rw [hm, sets_snoc]
      exact ⟨fun h => .inr ⟨hnn k, h⟩, fun h => by rcases h with h | h; exact absurd h.1 (hnn k); exact h.2⟩
    show ∃ m', getEnvFrom lower proc m ((p.1 ++ '=' :: p.2) :: entries post) = some m' ∧ _
    unfold getEnvFrom
    simp only [e1, hk]
    cases b with
    | none => exact skipcase (fun r h => by cases h)
    | some rest =>
      by_cases ha : a = proc
      · subst ha
        simp only [if_true]
        have hn : Names lower a (dots rest) p.1 := by
          obtain ⟨h1, h2⟩ := (splitN2_key _ _ _).1 hk
          exact ⟨rest, h1, h2, rfl⟩
        refine ih (env ++ [p]) hw' _ ?_ (AMap.nodup_set _ _ _ hnd)
        intro k v
        rw [AMap.get_set, sets_snoc]
        by_cases hkk : dots rest = k
        · rw [if_pos hkk]
          subst hkk
          constructor
          · intro h; exact .inl ⟨hn, by simpa using h.symm⟩
          · rintro (⟨_, rfl⟩ | ⟨h, _⟩)
            · rfl
            · exact absurd hn h
        · rw [if_neg hkk, hm]
          have : ¬ Names lower a k p.1 := fun h => hkk (names_unique hn h)
          exact ⟨fun h => .inr ⟨this, h⟩, fun h => by rcases h with h | h; exact absurd h.1 this; exact h.2⟩
      · dsimp only
        rw [if_neg ha]
        exact skipcase (fun r _ => ha)

theorem getEnv_spec (lower : Str → Str) (proc : Str) (env : List (Str × Str)) (hw : Wf env) :
    ∃ m, getEnv lower proc (entries env) = some m ∧ m.keys.Nodup ∧ ∀ k v, m.get k = some v ↔ Sets lower env proc k v := by
  have := getEnvFrom_spec lower proc [] env hw [] (fun k v => by simp [sets_nil]) (by simp [AMap.keys])
  simpa [getEnv] using this

theorem get_of_mem {V : Type} (m : AMap Str V) (h : m.keys.Nodup) (k : Str) (v : V) : (k, v) ∈ m ↔ m.get k = some v := by
  induction m with
  | nil => simp
  | cons p m ih =>
    obtain ⟨a, w⟩ := p
    have hn : a ∉ AMap.keys m ∧ (AMap.keys m).Nodup := by simpa [AMap.keys] using h
    unfold AMap.get
    by_cases ha : a = k
    · subst ha
      rw [if_pos rfl]
      constructor
      · intro hm
        rcases List.mem_cons.1 hm with e | hm
        · simp only [Prod.mk.injEq, true_and] at e; rw [e]
        · exact absurd (List.mem_map_of_mem (f := (·.1)) hm) hn.1
      · intro e; simp only [Option.some.injEq] at e; subst e; simp
    · rw [if_neg ha, ← ih hn.2]
      constructor
      · intro hm
        rcases List.mem_cons.1 hm with e | hm
        · simp only [Prod.mk.injEq] at e; exact absurd e.1.symm ha
        · exact hm
      · intro hm; exact List.mem_cons_of_mem _ hm

theorem assignAll_get (c : Conf) (kvs : List (Str × Str)) (h : (kvs.map (·.1)).Nodup) (k : Str) :
    (∀ v, (k, v) ∈ kvs → (assignAll c kvs).get k = some (.str v)) ∧
    ((∀ v, (k, v) ∉ kvs) → (assignAll c kvs).get k = c.get k) := by
  induction kvs generalizing c with
  | nil => simp [assignAll]
  | cons p kvs ih =>
    obtain ⟨a, w⟩ := p
    have hn : a ∉ kvs.map (·.1) ∧ (kvs.map (·.1)).Nodup := by simpa using h
    have ih' := ih (c.set a (.str w)) hn.2
    have e : assignAll c ((a, w) :: kvs) = assignAll (c.set a (.str w)) kvs := rfl
    rw [e]
    constructor
    · intro v hv
      rcases List.mem_cons.1 hv with e | hv
      · simp only [Prod.mk.injEq] at e
        obtain ⟨rfl, rfl⟩ := e
        rw [ih'.2 (fun v hv => hn.1 (List.mem_map_of_mem (f := (·.1)) hv)), AMap.get_set, if_pos rfl]
      · exact ih'.1 v hv
    · intro hv
      rw [ih'.2 (fun v h => hv v (List.mem_cons_of_mem _ h)), AMap.get_set, if_neg]
      intro e; subst e
      exact hv w (by simp)

/-! ### Property theorems -/

/-- What C51 says about one stage: `c'` is `c` with exactly the attributes set by the environment for its processor. -/
def Overridden (lower : Str → Str) (env : List (Str × Str)) (c c' : Conf) : Prop :=
  (∀ proc attr v, strAt c kProc = some proc → Sets lower env proc attr v → c'.get attr = some (.str v)) ∧
  (∀ attr, (∀ proc v, strAt c kProc = some proc → ¬ Sets lower env proc attr v) → c'.get attr = c.get attr)

theorem updates_overridden (lower : Str → Str) (env : List (Str × Str)) (hw : Wf env) (c c' : Conf)
    (h : Updates lower (entries env) c c') : Overridden lower env c c' := by
  cases h with
  | skip hp => exact ⟨fun proc attr v hp' => by rw [hp] at hp'; (cases hp'; done), fun _ _ => rfl⟩
  | override proc m kvs hp hm hperm =>
    obtain ⟨m', hm', hnd, hspec⟩ := getEnv_spec lower proc env hw
    rw [hm] at hm'
    cases hm'
    have hk : (kvs.map (·.1)).Nodup := (hperm.map _).nodup_iff.2 hnd
    constructor
    · intro proc' attr v hp' hs
      rw [hp] at hp'
      cases hp'
      exact (assignAll_get c kvs hk attr).1 v (hperm.mem_iff.2 ((get_of_mem m hnd attr v).2 ((hspec attr v).2 hs)))
    · intro attr hno
      refine (assignAll_get c kvs hk attr).2 (fun v hv => ?_)
      exact hno proc v hp ((hspec attr v).1 ((get_of_mem m hnd attr v).1 (hperm.mem_iff.1 hv)))

/-- **C51** Environment overrides. For every environment, every pipeline and every order in which the run-time system
enumerates the override table: reading the configuration keeps the stages in place, sets attribute `attr` of each stage
whose processor is `proc` to the value of the (last) variable `<PROC>_<ATTR>`, and changes nothing else. -/
theorem env_overrides (lower : Str → Str) (env : List (Str × Str)) (hw : Wf env) (cs cs' : List Conf)
    (h : UpdatesAll lower (entries env) cs cs') :
    cs'.length = cs.length ∧
    ∀ (i : Nat) c c', cs[i]? = some c → cs'[i]? = some c' → Overridden lower env c c' := by
  induction h with
  | nil => simp
  | cons h _ ih =>
    refine ⟨by simp [ih.1], ?_⟩
    intro i c c' hc hc'
    cases i with
    | zero =>
      simp only [List.getElem?_cons_zero, Option.some.injEq] at hc hc'
      subst hc hc'
      exact updates_overridden _ _ hw _ _ h
    | succ i => exact ih.2 i c c' (by simpa using hc) (by simpa using hc')

/-- **C51** Reading the configuration never fails on such an environment (and every enumeration order is possible). -/
theorem env_total (lower : Str → Str) (env : List (Str × Str)) (hw : Wf env) (cs : List Conf) :
    ∃ cs', UpdatesAll lower (entries env) cs cs' := by
  induction cs with
  | nil => exact ⟨[], .nil⟩
  | cons c cs ih =>
    obtain ⟨cs', h⟩ := ih
    cases hp : strAt c kProc with
    | none => exact ⟨c :: cs', .cons (.skip c hp) h⟩
    | some proc =>
      obtain ⟨m, hm, _⟩ := getEnv_spec lower proc env hw
      exact ⟨assignAll c m :: cs', .cons (.override c proc m m hp hm (.refl _)) h⟩

/-- **C51** The result does not depend on the enumeration order: two readings of the same configuration agree on every
attribute of every stage. -/
theorem env_deterministic (lower : Str → Str) (env : List (Str × Str)) (hw : Wf env) (cs a b : List Conf)
    (ha : UpdatesAll lower (entries env) cs a) (hb : UpdatesAll lower (entries env) cs b) (i : Nat) (c1 c2 : Conf)
    (h1 : a[i]? = some c1) (h2 : b[i]? = some c2) (attr : Str) : c1.get attr = c2.get attr := by
  obtain ⟨l1, f1⟩ := env_overrides lower env hw cs a ha
  obtain ⟨_, f2⟩ := env_overrides lower env hw cs b hb
  have hi : i < cs.length := by
    rw [← l1]; exact (List.getElem?_eq_some_iff.1 h1).1
  obtain ⟨p1, q1⟩ := f1 i cs[i] c1 (List.getElem?_eq_getElem hi) h1
  obtain ⟨p2, q2⟩ := f2 i cs[i] c2 (List.getElem?_eq_getElem hi) h2
  by_cases h : ∃ proc v, strAt cs[i] kProc = some proc ∧ Sets lower env proc attr v
  · obtain ⟨proc, v, e1, e2⟩ := h
    rw [p1 proc attr v e1 e2, p2 proc attr v e1 e2]
  · have h' : ∀ proc v, strAt cs[i] kProc = some proc → ¬ Sets lower env proc attr v :=
      fun proc v e1 e2 => h ⟨proc, v, e1, e2⟩
    rw [q1 attr h', q2 attr h']

/-- **C51**, limit: an attribute that contains an underscore, or a character that lower-casing never produces (such as an
upper-case letter), cannot be set from the environment at all; neither can anything of a processor whose name has an
underscore. In particular `es.bulk.numWorkers` cannot. -/
theorem env_limits (lower : Str → Str) (env : List (Str × Str)) (proc attr v : Str) (h : Sets lower env proc attr v) :
    '_' ∉ attr ∧ '_' ∉ proc ∧ ∀ ch ∈ attr, ch = '.' ∨ ∃ name, ch ∈ lower name := by
  obtain ⟨_, name, _, _, ⟨rest, h1, h2, rfl⟩, _⟩ := h
  refine ⟨?_, h2, ?_⟩
  · intro hc
    obtain ⟨c, _, hc⟩ := List.mem_map.1 hc
    by_cases h : c = '_'
    · simp [h] at hc
    · simp [h] at hc
  · intro ch hc
    obtain ⟨c, hm, hc⟩ := List.mem_map.1 hc
    by_cases h : c = '_'
    · left; simpa [h] using hc.symm
    · right; refine ⟨name, ?_⟩
      rw [if_neg h] at hc
      rw [h1, ← hc]; simp [hm]

/-- ASCII lower case, used in the examples. -/
def asciiLower (s : Str) : Str := s.map Char.toLower

theorem toLower_not_upper (c : Char) (d : Char) (hd : d.toNat ∈ [87]) : Char.toLower c ≠ d := by
  intro e
  have hd : d.val = 87 := by
    have : d.toNat = 87 := List.mem_singleton.1 hd
    exact UInt32.toNat_inj.1 this
  subst e
  unfold Char.toLower at hd
  split at hd
  · rename_i h
    have h1 : c.val ≥ 65 := h.1
    have h2 : c.val ≤ 90 := h.2
    have : c.val + 32 = 87 := hd
    have h3 := congrArg UInt32.toNat this
    have h1' : 65 ≤ c.val.toNat := h1
    have h2' : c.val.toNat ≤ 90 := h2
    rw [UInt32.toNat_add] at h3
    have : (32 : UInt32).toNat = 32 := rfl
    have : (87 : UInt32).toNat = 87 := rfl
    omega
  · rename_i h
    have h1 : ¬ (c.val ≥ 65 ∧ c.val ≤ 90) := h
    apply h1
    rw [hd]
    decide

/-- **C51**, finding: the exporter reads `es.bulk.numWorkers` and `es.bulk.flushBuffer`-style mixed-case keys, but no
environment can set `es.bulk.numWorkers`. -/
theorem env_cannot_set_numWorkers (env : List (Str × Str)) (proc v : Str) :
    ¬ Sets asciiLower env proc "es.bulk.numWorkers".toList v := by
  intro h
  rcases (env_limits _ _ _ _ _ h).2.2 'W' (by decide) with h | ⟨name, h⟩
  · exact absurd h (by decide)
  · obtain ⟨c, _, hc⟩ := List.mem_map.1 h
    exact toLower_not_upper c 'W' (by decide) hc

/-- **C51**, finding: an entry without `=` whose name addresses the processor crashes the program. -/
theorem env_entry_without_value_panics : getEnv asciiLower "exporter".toList ["EXPORTER_FORMAT".toList] = none := by decide

/-! ### C62: global items -/

theorem addGlobal_get (k v : Str) (cs : List Conf) (i : Nat) (c : Conf) (h : cs[i]? = some c) :
    ∃ c', (addGlobal k v cs)[i]? = some c' ∧
      ∀ a, c'.get a = if (c.get kProc).isSome ∧ a = k then some (.str v) else c.get a := by
  refine ⟨_, by rw [addGlobal, List.getElem?_map, h]; rfl, fun a => ?_⟩
  dsimp only
  by_cases hp : (c.get kProc).isSome
  · rw [if_pos hp, AMap.get_set]
    by_cases ha : k = a
    · rw [if_pos ha, if_pos ⟨hp, ha.symm⟩]
    · rw [if_neg ha, if_neg (fun h => ha h.2.symm)]
  · rw [if_neg hp, if_neg (fun h => hp h.1)]

/-- The global items of a build and an environment. -/
def globals (m : Manifest) (env : List Str) : List (Str × Str) :=
  [("version".toList, m.version), ("jsonschemaversion".toList, m.jsonSchema), ("ecsversion".toList, m.ecs),
   ("buildnumber".toList, m.build), ("cluster.id".toList, lookupEnv "CLUSTER_ID".toList env)]

/-- **C62** The names of the attributes that the pipeline itself reads. -/
theorem config_vocabulary : (kProc, kIn, kOut, kDriver) = ("processor".toList, "in".toList, "out".toList, "driver".toList) := rfl

/-- **C62** Every stage with a processor gets the build's version strings and the cluster identifier from the
environment, whatever its own configuration says; no other attribute and no other stage changes. -/
theorem global_items (m : Manifest) (env : List Str) (cs : List Conf) (i : Nat) (c : Conf) (h : cs[i]? = some c) :
    (setManifest m env cs).length = cs.length ∧
    ∃ c', (setManifest m env cs)[i]? = some c' ∧
      ((c.get kProc).isSome = true → ∀ kv ∈ globals m env, c'.get kv.1 = some (.str kv.2)) ∧
      (∀ a, ((c.get kProc).isSome = true → a ∉ (globals m env).map (·.1)) → c'.get a = c.get a) := by
  refine ⟨by simp only [setManifest, addGlobal, List.length_map], ?_⟩
  obtain ⟨c1, h1, g1⟩ := addGlobal_get kVersion m.version cs i c h
  obtain ⟨c2, h2, g2⟩ := addGlobal_get kJsonSchema m.jsonSchema _ i c1 h1
  obtain ⟨c3, h3, g3⟩ := addGlobal_get kEcs m.ecs _ i c2 h2
  obtain ⟨c4, h4, g4⟩ := addGlobal_get kBuild m.build _ i c3 h3
  obtain ⟨c5, h5, g5⟩ := addGlobal_get kCluster (lookupEnv kClusterEnv env) _ i c4 h4
  refine ⟨c5, h5, ?_⟩
  have k1 : ¬ kProc = kVersion := by decide
  have k2 : ¬ kProc = kJsonSchema := by decide
  have k3 : ¬ kProc = kEcs := by decide
  have k4 : ¬ kProc = kBuild := by decide
  have p1 : c1.get kProc = c.get kProc := by rw [g1, if_neg (fun h => k1 h.2)]
  have p2 : c2.get kProc = c.get kProc := by rw [g2, if_neg (fun h => k2 h.2), p1]
  have p3 : c3.get kProc = c.get kProc := by rw [g3, if_neg (fun h => k3 h.2), p2]
  have p4 : c4.get kProc = c.get kProc := by rw [g4, if_neg (fun h => k4 h.2), p3]
  rw [p1] at g2; rw [p2] at g3; rw [p3] at g4; rw [p4] at g5
  constructor
  · intro hp kv hkv
    have n12 : ¬ kVersion = kJsonSchema := by decide
    have n13 : ¬ kVersion = kEcs := by decide
    have n14 : ¬ kVersion = kBuild := by decide
    have n15 : ¬ kVersion = kCluster := by decide
    have n23 : ¬ kJsonSchema = kEcs := by decide
    have n24 : ¬ kJsonSchema = kBuild := by decide
    have n25 : ¬ kJsonSchema = kCluster := by decide
    have n34 : ¬ kEcs = kBuild := by decide
    have n35 : ¬ kEcs = kCluster := by decide
    have n45 : ¬ kBuild = kCluster := by decide
    have hkv : kv ∈ [(kVersion, m.version), (kJsonSchema, m.jsonSchema), (kEcs, m.ecs), (kBuild, m.build), (kCluster, lookupEnv kClusterEnv env)] := hkv
    rcases List.mem_cons.1 hkv with e | hkv
    · rw [e, g5, if_neg (fun h => n15 h.2), g4, if_neg (fun h => n14 h.2), g3, if_neg (fun h => n13 h.2), g2, if_neg (fun h => n12 h.2),
        g1, if_pos ⟨hp, rfl⟩]
    rcases List.mem_cons.1 hkv with e | hkv
    · rw [e, g5, if_neg (fun h => n25 h.2), g4, if_neg (fun h => n24 h.2), g3, if_neg (fun h => n23 h.2), g2, if_pos ⟨hp, rfl⟩]
    rcases List.mem_cons.1 hkv with e | hkv
    · rw [e, g5, if_neg (fun h => n35 h.2), g4, if_neg (fun h => n34 h.2), g3, if_pos ⟨hp, rfl⟩]
    rcases List.mem_cons.1 hkv with e | hkv
    · rw [e, g5, if_neg (fun h => n45 h.2), g4, if_pos ⟨hp, rfl⟩]
    · rw [List.mem_singleton.1 hkv, g5, if_pos ⟨hp, rfl⟩]
  · intro a ha
    have mem : ∀ k v, (k, v) ∈ [(kVersion, m.version), (kJsonSchema, m.jsonSchema), (kEcs, m.ecs), (kBuild, m.build), (kCluster, lookupEnv kClusterEnv env)] → ¬ ((c.get kProc).isSome = true ∧ a = k) := by
      rintro k v hkv ⟨hp, rfl⟩
      exact ha hp (List.mem_map_of_mem (f := (·.1)) (show (a, v) ∈ globals m env from hkv))
    rw [g5, if_neg (mem _ _ (.tail _ (.tail _ (.tail _ (.tail _ (.head _)))))), g4, if_neg (mem _ _ (.tail _ (.tail _ (.tail _ (.head _))))),
      g3, if_neg (mem _ _ (.tail _ (.tail _ (.head _)))), g2, if_neg (mem _ _ (.tail _ (.head _))), g1, if_neg (mem _ _ (.head _))]

/-- **C62** The cluster identifier is the value of the first variable called exactly `CLUSTER_ID`, or empty. -/
theorem cluster_id_lookup (env : List (Str × Str)) (hw : Wf env) (k : Str) :
    (∀ pre v post, env = pre ++ (k, v) :: post → (∀ p ∈ pre, p.1 ≠ k) → lookupEnv k (entries env) = v) ∧
    ((∀ p ∈ env, p.1 ≠ k) → lookupEnv k (entries env) = []) := by
  induction env with
  | nil => exact ⟨fun pre v post h => by (cases pre <;> simp at h), fun _ => rfl⟩
  | cons p env ih =>
    have e1 : splitN2 '=' (p.1 ++ '=' :: p.2) = (p.1, some p.2) := splitN2_append _ _ _ (hw p (by simp))
    have ih' := ih (fun q hq => hw q (by simp [hq]))
    have e : lookupEnv k (entries (p :: env)) = if p.1 = k then p.2 else lookupEnv k (entries env) := by
      show lookupEnv k ((p.1 ++ '=' :: p.2) :: entries env) = _
      rw [lookupEnv, e1]
    rw [e]
    constructor
    · intro pre v post h hpre
      cases pre with
      | nil =>
        simp only [List.nil_append, List.cons.injEq] at h
        rw [h.1, if_pos rfl]
      | cons q pre =>
        simp only [List.cons_append, List.cons.injEq] at h
        rw [if_neg (h.1 ▸ hpre q (by simp))]
        exact ih'.1 pre v post h.2 (fun x hx => hpre x (by simp [hx]))
    · intro hno
      rw [if_neg (hno p (by simp))]
      exact ih'.2 (fun x hx => hno x (by simp [hx]))

/-- **C62**, finding: the cluster identifier of a stage's own configuration (or of `<PROC>_CLUSTER_ID`) is always lost;
without `CLUSTER_ID` in the environment it becomes empty. -/
theorem own_cluster_id_lost (m : Manifest) (env : List (Str × Str)) (hw : Wf env) (hno : ∀ p ∈ env, p.1 ≠ kClusterEnv)
    (cs : List Conf) (i : Nat) (c : Conf) (h : cs[i]? = some c) (hp : (c.get kProc).isSome = true) :
    ∃ c', (setManifest m (entries env) cs)[i]? = some c' ∧ c'.get kCluster = some (.str []) := by
  obtain ⟨_, c', h1, h2, _⟩ := global_items m (entries env) cs i c h
  refine ⟨c', h1, ?_⟩
  have := h2 hp (kCluster, lookupEnv kClusterEnv (entries env)) (.tail _ (.tail _ (.tail _ (.tail _ (.head _)))))
  rw [this, (cluster_id_lookup env hw kClusterEnv).2 hno]

/-! ### Examples -/

/-- A pipeline of two stages and an environment with overrides for one of them. -/
def demoEnv : List (Str × Str) :=
  [("PATH".toList, "/bin".toList), ("EXPORTER_FORMAT".toList, "ecs".toList), ("exporter_file_path".toList, "x=y".toList),
   ("Exporter_Format".toList, "json".toList), ("CLUSTER_ID".toList, "c1".toList)]

def demoStages : List Conf :=
  [[(kProc, .str "policyengine".toList), (kIn, .str "a b".toList)], [(kProc, .str "exporter".toList), ("format".toList, .str "otel".toList)]]

example : Wf demoEnv := by unfold Wf; decide

example : ∃ cs', UpdatesAll asciiLower (entries demoEnv) demoStages cs' ∧
    (cs'.map (fun c => (c.get "format".toList, c.get "file.path".toList, c.get kIn))) =
      [(none, none, some (.str "a b".toList)), (some (.str "json".toList), some (.str "x=y".toList), none)] := by
  refine ⟨[demoStages[0], assignAll demoStages[1] [("file.path".toList, "x=y".toList), ("format".toList, "json".toList)]], ?_, ?_⟩
  · refine .cons (.override _ "policyengine".toList [] [] (by decide) (by decide) (.refl _)) (.cons ?_ .nil)
    refine .override _ "exporter".toList [("format".toList, "json".toList), ("file.path".toList, "x=y".toList)] _ (by decide) (by decide) ?_
    exact List.Perm.swap _ _ _
  · decide

example : ((setManifest ⟨"1".toList, "2".toList, "3".toList, "4".toList⟩ (entries demoEnv) demoStages).map
    (fun c => (strAt c "cluster.id".toList, strAt c "version".toList))) =
    [(some "c1".toList, some "1".toList), (some "c1".toList, some "1".toList)] := by decide

end Verif.Pipeline
