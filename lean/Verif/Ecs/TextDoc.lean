import Verif.Ecs.TextProps
import Verif.Ecs.Identity
/-
C81: the text of the document that the encoder makes of a record.
-/
namespace Verif.Ecs
open Verif.Decimal (Str)
open Verif.FlatRecord
open Verif.Json (Bytes JVal cps)

/-! ### The encoder's maps have no repeated names -/

theorem good_nil : Good (.obj []) := .obj [] List.nodup_nil (fun e he => (by cases he))

theorem good_cons {k : Str} {v : EVal} {m : List (Str × EVal)} (hk : k ∉ m.map Prod.fst) (hv : Good v) (hm : Good (.obj m)) : Good (.obj ((k, v) :: m)) := by
  cases hm with
  | obj _ h1 h2 =>
    refine .obj _ (List.nodup_cons.2 ⟨hk, h1⟩) (fun e he => ?_)
    rcases List.mem_cons.1 he with rfl | he
    · exact hv
    · exact h2 e he

theorem good_set {k : Str} {v : EVal} {m : Data} (hv : Good v) (hm : Good (.obj m)) : Good (.obj (m.set k v)) := by
  cases hm with
  | obj _ h1 h2 =>
    unfold Data.set
    split
    · refine .obj _ ?_ (fun e he => ?_)
      · have : (m.map (fun e => if e.1 == k then (k, v) else e)).map Prod.fst = m.map Prod.fst := by
          rw [List.map_map]
          refine List.map_congr_left (fun e _ => ?_)
          show (if e.1 == k then (k, v) else e).1 = e.1
          split
          · rename_i h; exact (eq_of_beq h).symm
          · rfl
        rw [this]
        exact h1
      · obtain ⟨x, hx, rfl⟩ := List.mem_map.1 he
        split
        · exact hv
        · exact h2 x hx
    · rename_i hk
      refine .obj _ ?_ (fun e he => ?_)
      · rw [List.map_append, List.nodup_append]
        refine ⟨h1, List.nodup_cons.2 ⟨List.not_mem_nil, List.nodup_nil⟩, ?_⟩
        intro a ha b hb hab
        obtain ⟨x, hx, rfl⟩ := List.mem_map.1 ha
        have hb' : b = k := List.mem_singleton.1 hb
        exact hk (List.any_eq_true.2 ⟨x, hx, by rw [hab, hb']; exact beq_self_eq_true k⟩)
      · rcases List.mem_append.1 he with he | he
        · exact h2 e he
        · rw [List.mem_singleton.1 he]; exact hv

/-- Maps written out with different names. -/
macro "good_map" : tactic => `(tactic| repeat' (first
  | exact good_nil
  | exact Good.str _
  | exact Good.int _
  | exact Good.bool _
  | exact Good.strs _
  | refine good_cons (by simp only [List.map_cons, List.map_nil]; decide +kernel) ?_ ?_))

theorem good_event (L : ELib) (rec : Record) (a b c : Str) : Good (.obj (encodeEvent L rec a b c)) := by
  unfold encodeEvent
  dsimp only
  split
  · exact good_set (.int _) (good_set (.str _) (by good_map))
  · exact good_set (.str _) (by good_map)

theorem good_file_map (t p n dir : Str) : Good (.obj (if t = "dir".toList then Data.set [("type".toList, EVal.str t)] "directory".toList (.str p)
      else if p ≠ n then ((Data.set [("type".toList, EVal.str t)] "name".toList (.str n)).set "directory".toList (.str dir)).set "path".toList (.str p)
      else (Data.set [("type".toList, EVal.str t)] "name".toList (.str n)).set "directory".toList (.str dir))) := by
  split
  · exact good_set (.str _) (by good_map)
  · split
    · exact good_set (.str _) (good_set (.str _) (good_set (.str _) (by good_map)))
    · exact good_set (.str _) (good_set (.str _) (by good_map))

theorem good_file (L : ELib) (fr : FlatRec) : Good (.obj (encodeFile L fr)) := by
  unfold encodeFile
  dsimp only
  exact good_file_map _ _ _ _

theorem good_container (L : ELib) (fr : FlatRec) (m : Data) (h : encodeContainer L fr = some m) : Good (.obj m) := by
  unfold encodeContainer at h
  dsimp only at h
  split at h
  · cases h
    split
    · exact good_set (by good_map) (by good_map)
    · good_map
  · cases h

theorem good_user (L : ELib) (fr : FlatRec) : Good (.obj (encodeUser L fr)) := by
  have hg : ∀ (g : Data), Good (.obj g) → Good (.obj [("group".toList, EVal.obj g), ("id".toList, EVal.int (mi L fr "sf.proc.uid".toList))]) := by
    intro g hg
    refine good_cons (by simp only [List.map_cons, List.map_nil]; decide +kernel) hg (by good_map)
  unfold encodeUser
  dsimp only
  generalize hgr : (if ms L fr "sf.proc.group".toList ≠ [] then _ else _ : Data) = g
  have h1 : Good (.obj g) := by
    rw [← hgr]
    split
    · exact good_set (.str _) (by good_map)
    · good_map
  split
  · exact good_set (.str _) (hg g h1)
  · exact hg g h1

theorem good_process (L : ELib) (fr : FlatRec) : Good (.obj (encodeProcess L fr)) := by
  unfold encodeProcess
  dsimp only
  exact good_set (by good_map) (by good_map)

theorem good_service (L : ELib) (s : SysFlow.Service) : Good (.obj (encodeService L s)) := by
  unfold encodeService
  have hp : Good (.objs (s.portList.map encodePort)) := by
    refine .objs _ (fun m hm => ?_)
    obtain ⟨p, _, rfl⟩ := List.mem_map.1 hm
    unfold encodePort
    good_map
  repeat' (first
    | exact hp
    | exact good_nil
    | exact Good.str _
    | exact Good.strs _
    | refine good_cons (by simp only [List.map_cons, List.map_nil]; decide +kernel) ?_ ?_)

theorem good_orchestrator (L : ELib) (fr : FlatRec) : Good (.obj (encodeOrchestrator L fr)) := by
  unfold encodeOrchestrator
  good_map

theorem good_host (L : ELib) (fr : FlatRec) : Good (.obj (encodeHost L fr)) := by
  unfold encodeHost
  good_map

/-- Replacing a part. -/
theorem GoodRec.of (d : Rec) (h1 : ∀ m, d.event = some m → Good (.obj m)) (h2 : Good (.obj d.host)) (h3 : ∀ m, d.container = some m → Good (.obj m))
    (h4 : ∀ m, d.orchestrator = some m → Good (.obj m)) (h5 : ∀ m, d.pod = some m → Good (.obj m)) (h6 : ∀ m ∈ d.service, Good (.obj m))
    (h7 : ∀ m, d.file = some m → Good (.obj m)) (h8 : ∀ m, d.fileAction = some m → Good (.obj m)) (h9 : ∀ m, d.network = some m → Good (.obj m))
    (h10 : ∀ m, d.source = some m → Good (.obj m)) (h11 : ∀ m, d.destination = some m → Good (.obj m)) (h12 : ∀ m, d.process = some m → Good (.obj m))
    (h13 : ∀ m, d.user = some m → Good (.obj m)) : GoodRec d := by
  refine ⟨fun o ho m hm => ?_, h6⟩
  simp only [List.mem_cons, List.not_mem_nil, or_false] at ho
  rcases ho with rfl | rfl | rfl | rfl | rfl | rfl | rfl | rfl | rfl | rfl | rfl | rfl
  · exact h1 m hm
  · cases hm; exact h2
  · exact h3 m hm
  · exact h4 m hm
  · exact h5 m hm
  · exact h7 m hm
  · exact h8 m hm
  · exact h9 m hm
  · exact h10 m hm
  · exact h11 m hm
  · exact h12 m hm
  · exact h13 m hm

theorem GoodRec.get {d : Rec} (h : GoodRec d) : (∀ m, d.event = some m → Good (.obj m)) ∧ Good (.obj d.host) ∧ (∀ m, d.container = some m → Good (.obj m)) ∧
    (∀ m, d.orchestrator = some m → Good (.obj m)) ∧ (∀ m, d.pod = some m → Good (.obj m)) ∧ (∀ m ∈ d.service, Good (.obj m)) ∧
    (∀ m, d.file = some m → Good (.obj m)) ∧ (∀ m, d.fileAction = some m → Good (.obj m)) ∧ (∀ m, d.network = some m → Good (.obj m)) ∧
    (∀ m, d.source = some m → Good (.obj m)) ∧ (∀ m, d.destination = some m → Good (.obj m)) ∧ (∀ m, d.process = some m → Good (.obj m)) ∧
    (∀ m, d.user = some m → Good (.obj m)) := by
  refine ⟨?_, ?_, ?_, ?_, ?_, h.service, ?_, ?_, ?_, ?_, ?_, ?_, ?_⟩
  · exact h.maps _ (by simp)
  · exact h.maps (some d.host) (by simp) _ rfl
  all_goals exact h.maps _ (by simp)

theorem some_good {v : Data} (h : Good (.obj v)) : ∀ m, some v = some m → Good (.obj m) := by
  intro m hm; cases hm; exact h

theorem none_good : ∀ m : Data, (none : Option Data) = some m → Good (.obj m) := by
  intro m hm; cases hm

theorem pre_good (c : Conf) (L : ELib) (rec : Record) (d : Rec) (h : pre c L rec = some d) : GoodRec d := by
  unfold pre at h
  dsimp only at h
  split at h
  · split at h
    · obtain ⟨e, he, rfl⟩ := Option.map_eq_some_iff.1 h
      unfold encodePod at he
      split at he
      · cases he
        refine .of _ none_good (good_host L rec.fr) (good_container L rec.fr) (some_good (good_orchestrator L rec.fr)) (some_good ?_) ?_
          none_good none_good none_good none_good none_good (some_good (good_process L rec.fr)) (some_good (good_user L rec.fr))
        · good_map
        · dsimp only
          intro m hm
          split at hm
          · obtain ⟨s, _, rfl⟩ := List.mem_map.1 hm
            exact good_service L s
          · cases hm
      · cases he
    · cases h
      exact .of _ none_good (good_host L rec.fr) (good_container L rec.fr) none_good none_good (fun m hm => (by cases hm))
          none_good none_good none_good none_good none_good (some_good (good_process L rec.fr)) (some_good (good_user L rec.fr))
  · cases h
    exact .of _ none_good (good_host L rec.fr) none_good (some_good (good_orchestrator L rec.fr)) none_good (fun m hm => (by cases hm))
      none_good none_good none_good none_good none_good none_good none_good

theorem post_good (L : ELib) (rec : Record) (d : Rec) (h : GoodRec d) : GoodRec (post L rec d) := by
  obtain ⟨g1, g2, g3, g4, g5, g6, g7, g8, g9, g10, g11, g12, g13⟩ := h.get
  unfold post
  dsimp only
  split
  · unfold encodeNetworkFlow
    dsimp only
    exact .of _ (some_good (good_event ..)) g2 g3 g4 g5 g6 g7 g8 (some_good (by good_map)) (some_good (by good_map)) (some_good (by good_map)) g12 g13
  split
  · unfold encodeFileFlow
    dsimp only
    refine .of _ (some_good (good_event ..)) g2 g3 g4 g5 g6 (some_good (good_file ..)) ?_ g9 g10 g11 g12 g13
    dsimp only
    split
    · exact some_good (by good_map)
    · exact g8
  split
  · unfold encodeFileEvent
    dsimp only
    have hs : ∀ t, Good (.obj ((encodeFile L rec.fr).set "target_path".toList (.str t))) := fun t => good_set (.str _) (good_file ..)
    split
    · exact .of _ (some_good (good_event ..)) g2 g3 g4 g5 g6 (some_good (good_file ..)) g8 g9 g10 g11 g12 g13
    split
    · exact .of _ (some_good (good_event ..)) g2 g3 g4 g5 g6 (some_good (good_file ..)) g8 g9 g10 g11 g12 g13
    split
    · exact .of _ (some_good (good_event ..)) g2 g3 g4 g5 g6 (some_good (good_file ..)) g8 g9 g10 g11 g12 g13
    split
    · exact .of _ (some_good (good_event ..)) g2 g3 g4 g5 g6 (some_good (hs _)) g8 g9 g10 g11 g12 g13
    split
    · exact .of _ (some_good (good_event ..)) g2 g3 g4 g5 g6 (some_good (hs _)) g8 g9 g10 g11 g12 g13
    · exact .of _ (some_good (good_event ..)) g2 g3 g4 g5 g6 (some_good (good_file ..)) g8 g9 g10 g11 g12 g13
  split
  · unfold encodeProcessEvent
    dsimp only
    exact .of _ (some_good (good_event ..)) g2 g3 g4 g5 g6 g7 g8 g9 g10 g11 g12 g13
  split
  · unfold encodeK8sEvent
    dsimp only
    exact .of _ (some_good (good_set (.str _) (good_event ..))) g2 g3 (some_good (by good_map)) g5 g6 g7 g8 g9 g10 g11 g12 g13
  · exact h

theorem encode_good (c : Conf) (L : ELib) (rec : Record) (d : Rec) (h : encode c L rec = some d) : GoodRec d := by
  unfold encode at h
  split at h
  · cases h
  · rename_i e he
    rw [base_eq] at he
    obtain ⟨p, hp, rfl⟩ := Option.map_eq_some_iff.1 he
    have hg := post_good L rec p (pre_good c L rec p hp)
    obtain ⟨g1, g2, g3, g4, g5, g6, g7, g8, g9, g10, g11, g12, g13⟩ := hg.get
    dsimp only at h
    split at h
    · split at h
      · cases h
      · rename_i ev hev
        have h1 : ∀ a b, Good (.obj ((ev.set "reason".toList (.str a)).set "severity".toList (.int b))) := fun a b => good_set (.int _) (good_set (.str _) (g1 ev hev))
        cases h
        split
        · exact .of _ (some_good (h1 _ _)) g2 g3 g4 g5 g6 g7 g8 g9 g10 g11 g12 g13
        · exact .of _ (some_good (h1 _ _)) g2 g3 g4 g5 g6 g7 g8 g9 g10 g11 g12 g13
    · cases h
      split
      · exact .of _ g1 g2 g3 g4 g5 g6 g7 g8 g9 g10 g11 g12 g13
      · exact hg

/-! ## C81 -/

theorem visible_recText (d : Rec) (hd : GoodRec d) : Visible (recText d) := by
  refine visible_obj _ (fun e he => ?_)
  rw [recFields_table, mem_row] at he
  obtain ⟨k, b, h1, rfl⟩ := he
  obtain ⟨g1, g2, g3, g4, g5, g6, g7, g8, g9, g10, g11, g12, g13⟩ := hd.get
  have hmap : ∀ o : Option Data, (∀ m, o = some m → Good (.obj m)) → mapText o = some b → Visible b := by
    intro o ho hb
    cases o with
    | none => cases hb
    | some m =>
      unfold mapText at hb
      dsimp only at hb
      split at hb
      · cases hb
      · cases hb; exact visible_value (ho m rfl)
  unfold table at h1
  simp only [List.mem_cons, List.not_mem_nil, or_false, Prod.mk.injEq] at h1
  rcases h1 with ⟨-, h⟩ | ⟨-, h⟩ | ⟨-, h⟩ | ⟨-, h⟩ | ⟨-, h⟩ | ⟨-, h⟩ | ⟨-, h⟩ | ⟨-, h⟩ | ⟨-, h⟩ | ⟨-, h⟩ | ⟨-, h⟩ | ⟨-, h⟩ | ⟨-, h⟩ | ⟨-, h⟩ | ⟨-, h⟩ | ⟨-, h⟩ | ⟨-, h⟩
  · cases h; exact visible_string _
  · cases h; exact visible_value (good_present _ (two_names _ _))
  · cases h; exact visible_value (good_present _ (one_name _))
  · cases h
    cases he : d.event with
    | none =>
      have hall : ∀ c ∈ textOfEvent none, 32 ≤ c.toNat := by decide
      exact hall
    | some m => exact visible_value (g1 m he)
  · cases h; exact visible_value g2
  · exact hmap _ g3 h.symm
  · exact hmap _ g4 h.symm
  · exact hmap _ g5 h.symm
  · by_cases hs : d.service = []
    · rw [if_pos hs] at h; cases h
    · rw [if_neg hs] at h; cases h; exact visible_value (.objs _ g6)
  · exact hmap _ g7 h.symm
  · exact hmap _ g8 h.symm
  · exact hmap _ g9 h.symm
  · exact hmap _ g10 h.symm
  · exact hmap _ g11 h.symm
  · exact hmap _ g12 h.symm
  · exact hmap _ g13 h.symm
  · by_cases hs : d.tags = []
    · rw [if_pos hs] at h; cases h
    · rw [if_neg hs] at h; cases h; exact visible_value (.strs _)

/-- **C81** Whatever the record holds: the text written for its ECS document has no control characters, hence is one line; it is well-formed JSON; and what is read back
is exactly the document: its parts, with their entries, none twice, none left out, none added. -/
theorem ecs_text (c : Conf) (L : ELib) (rec : Record) (d : Rec) (h : encode c L rec = some d) :
    (∀ b ∈ recText d, 32 ≤ b.toNat) ∧ ∃ ms, Json.read (recText d) = some (.obj ms) ∧ ShowsRec d ms ∧ Spec.Doc c L rec d :=
  ⟨visible_recText d (encode_good c L rec d h), by
    obtain ⟨ms, h1, h2⟩ := record_text d (encode_good c L rec d h)
    exact ⟨ms, h1, h2, ecs_document c L rec d h⟩⟩

/-- The order of a map's entries does not matter to what a value says. -/
theorem Says.perm {m l : List (Str × EVal)} {j : JVal} (hp : m.Perm l) (h : Says (.obj m) j) : Says (.obj l) j := by
  cases h with
  | obj _ ms g h1 h2 h3 => exact .obj l ms g (fun e he => h1 e (hp.mem_iff.2 he)) (h2.trans (hp.map _)) h3

theorem nodup_of_map_fst {l : List (Str × EVal)} (h : (l.map Prod.fst).Nodup) : l.Nodup :=
  (List.Pairwise.of_map Prod.fst (fun _ _ h1 h2 => h1 (by rw [h2])) h : List.Pairwise _ l)

theorem get_mem {m : Data} (hn : (m.map Prod.fst).Nodup) (k : Str) (v : EVal) : m.get k = some v ↔ (k, v) ∈ m := by
  unfold Data.get
  induction m with
  | nil => exact ⟨fun h => (by cases h), fun h => (by cases h)⟩
  | cons e m ih =>
    rw [List.map_cons, List.nodup_cons] at hn
    rw [List.find?_cons, List.mem_cons]
    by_cases hk : e.1 = k
    · rw [show (e.1 == k) = true from beq_iff_eq.2 hk]
      constructor
      · intro h; left; cases h; rw [← hk]
      · rintro (h | h)
        · rw [← h]; rfl
        · exact absurd (List.mem_map.2 ⟨_, h, hk.symm⟩) hn.1
    · rw [show (e.1 == k) = false from beq_eq_false_iff_ne.2 hk]
      rw [ih hn.2]
      constructor
      · exact .inr
      · rintro (h | h)
        · exact absurd (by rw [← h]) hk
        · exact h

/-- A part that shows a list of entries is written as that list. -/
theorem says_part {m : Data} {l : List (Str × EVal)} (hm : Good (.obj m)) (hl : l.Nodup) (hs : Spec.Shows (some m) l) {j : JVal} (h : Says (.obj m) j) : Says (.obj l) j := by
  cases hm with
  | obj _ hn _ =>
    obtain ⟨m', he, hs⟩ := hs
    cases he
    refine Says.perm ?_ h
    rw [List.perm_ext_iff_of_nodup (nodup_of_map_fst hn) hl]
    rintro ⟨k, v⟩
    rw [← get_mem hn, hs]

/-- **C81** The event as written: for every record of a known kind the member `event` has category, type, action, times, result and verdict of the record. -/
theorem ecs_text_event (c : Conf) (L : ELib) (rec : Record) (d : Rec) (h : encode c L rec = some d) (hk : Spec.Known L rec.fr) :
    ∃ ms category type action severity, Json.read (recText d) = some (.obj ms) ∧ Spec.Class L rec.fr category type action ∧
      Spec.IsSeverity rec.ctx.getRules severity ∧ Member ms "event" (.obj (Spec.event L rec category type action severity)) := by
  obtain ⟨_, ms, h1, h2, h3⟩ := ecs_text c L rec d h
  obtain ⟨ca, ty, ac, sv, k1, k2, k3⟩ := h3.event hk
  obtain ⟨m, hm, -⟩ := id k3
  obtain ⟨j, j1, j2⟩ := h2.event.1 m hm
  refine ⟨ms, ca, ty, ac, sv, h1, k1, k2, j, j1, ?_⟩
  rw [hm] at k3
  exact says_part ((encode_good c L rec d h).get.1 m hm) (nodup_of_map_fst (event_keys L rec ca ty ac sv)) k3 j2

/-- **C81** Host and process as written. -/
theorem ecs_text_process (c : Conf) (L : ELib) (rec : Record) (d : Rec) (h : encode c L rec = some d) (hk : Spec.kind L rec.fr ≠ Spec.KE) :
    ∃ ms, Json.read (recText d) = some (.obj ms) ∧ Member ms "host" (.obj (Spec.host rec.fr)) ∧ Member ms "process" (.obj (Spec.process L rec.fr)) := by
  obtain ⟨_, ms, h1, h2, h3⟩ := ecs_text c L rec d h
  have hg := (encode_good c L rec d h).get
  refine ⟨ms, h1, ?_, ?_⟩
  · obtain ⟨j, j1, j2⟩ := h2.host
    refine ⟨j, j1, says_part hg.2.1 ?_ h3.host j2⟩
    refine nodup_of_map_fst ?_
    unfold Spec.host
    simp only [List.map_cons, List.map_nil]
    decide +kernel
  · obtain ⟨m, hm, -⟩ := id (h3.process hk)
    have hne : m ≠ [] := by
      rintro rfl
      obtain ⟨m', e, hs⟩ := h3.process hk
      rw [hm] at e
      cases e
      have := (hs "pid".toList (.int (A rec.fr .PROC_OID_HPID_INT))).2 (by unfold Spec.process; simp)
      cases this
    obtain ⟨j, j1, j2⟩ := h2.process.1 m hm hne
    have hs := h3.process hk
    rw [hm] at hs
    refine ⟨j, j1, says_part (hg.2.2.2.2.2.2.2.2.2.2.2.1 m hm) ?_ hs j2⟩
    refine nodup_of_map_fst ?_
    unfold Spec.process
    simp only [List.map_cons, List.map_nil]
    decide +kernel

/-- A document and its text: the alert of a process event. -/
example : ∃ d, encode demoConf demoELib demoAlert = some d ∧ Spec.Known demoELib demoAlert.fr := by
  have h : (encode demoConf demoELib demoAlert).isSome = true := by decide +kernel
  obtain ⟨d, hd⟩ := Option.isSome_iff_exists.mp h
  exact ⟨d, hd, by unfold Spec.Known; decide +kernel⟩

/-- A small document, and its text. -/
def smallDoc : Rec where
  id := []
  ts := "t".toList
  agentType := "SysFlow".toList
  agentVersion := []
  ecsVersion := "1".toList
  host := [("ip".toList, .str ['a', '"', Char.ofNat 10]), ("id".toList, .int (-3))]
  tags := ["x".toList]

example : recText smallDoc =
    Utf8.bytes ("{\"@timestamp\":\"t\",\"agent\":{\"type\":\"SysFlow\"},\"ecs\":{\"version\":\"1\"},\"event\":null,\"host\":{\"id\":-3,\"ip\":\"a\\\"\\n\"},\"tags\":[\"x\"]}").toList := by
  decide +kernel

end Verif.Ecs
