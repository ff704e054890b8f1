import Verif.Pipeline.CacheProps
import Verif.Pipeline.EndToEnd
/-
C91: the network that loading a configuration starts, and the configurations for which it is a tree.
Sources: /repo/driver/pipeline/pipeline.go:119-201, /repo/driver/pipeline/plugincache.go:196-214
-/
namespace Verif.Pipeline
open Verif.Decimal (Str)
open Drain (Net Comp idle Tree Contract)

variable {F R : Type}

/-! ### Model -/

/-- The stage that receives what is sent on a channel: the one `Process` was given it as an input (pipeline.go:141-165, 200). -/
def readerOf (l : Load F) (c : Chan F) : Option Nat := l.stages.findIdx? (fun st => st.ins.any (fun d => d.id == c.id))

/-- What `Load` has started (pipeline.go:119-201): for each stage the goroutine of `process` (pipeline.go:291-294); `comp` says how a plugin behaves with its attributes and the channels it was
given. Sending on output `k` of stage `i` is sending to the stage that reads that channel. (Where there is no such channel or reader the value of `tgt` plays no role.) -/
def netOf (comp : Conf → Stage F → Comp R) (cs : List Conf) (l : Load F) (cap : Nat) : Net R where
  n := l.stages.length
  comp i := ((cs.zip l.stages)[i]?.map (fun p => comp p.1 p.2)).getD (idle R)
  tgt i k := ((l.stages[i]?.bind (fun st => (st.outs.getD [])[k]?)).bind (readerOf l)).getD (i + 1)
  cap := cap

/-! ### Specification -/

/-- The channel names in the `in` attribute of a stage; in the `out` attribute. -/
def inNames (c : Conf) : List (Option Str) := (declared c kIn).map (·.bind chanName)
def outNames (c : Conf) : List (Option Str) := (declared c kOut).map (·.bind chanName)

/-- A configuration whose channels form a tree: every stage reads one channel, no channel is read by two stages or written twice, what a stage writes is read by a later stage, and every stage
but the first reads what another one writes. -/
structure TreeConf (cs : List Conf) : Prop where
  nonempty : cs ≠ []
  oneIn : ∀ c ∈ cs, (inNames c).length = 1
  ownIn : (cs.flatMap inNames).Nodup
  ownOut : (cs.flatMap outNames).Nodup
  later : ∀ (i : Nat) c, cs[i]? = some c → ∀ n ∈ outNames c, ∃ (j : Nat) (c' : Conf), i < j ∧ cs[j]? = some c' ∧ n ∈ inNames c'
  fed : ∀ c ∈ cs.tail, ∀ n ∈ inNames c, n ∈ cs.flatMap outNames

/-! ### Proofs -/

theorem resolved_ids {cs : Chans F} (hI : CInv cs) {p q : Option Str × Chan F} (hp : Resolved cs p) (hq : Resolved cs q) :
    p.1.bind chanName = q.1.bind chanName ↔ p.2.id = q.2.id := by
  rw [resolved_same hI hp hq]
  constructor
  · intro h; rw [h]
  · intro h
    obtain ⟨s, n, t, h1, h2, h3⟩ := hp
    obtain ⟨s', n', t', k1, k2, k3⟩ := hq
    have := hI.inj n n' _ _ h3 k3 h
    subst this
    rw [h3] at k3
    exact Option.some.inj k3

theorem nodup_flatMap_index {α β : Type} {f : α → List β} : ∀ {cs : List α}, (cs.flatMap f).Nodup → ∀ (i j : Nat) (a b : α), cs[i]? = some a → cs[j]? = some b →
    ∀ x, x ∈ f a → x ∈ f b → i = j := by
  intro cs
  induction cs with
  | nil => intro _ i j a b h; simp at h
  | cons c cs ih =>
    intro hnd i j a b hi hj x hxa hxb
    rw [List.flatMap_cons, List.nodup_append] at hnd
    obtain ⟨-, h2, h3⟩ := hnd
    cases i with
    | zero =>
      cases j with
      | zero => rfl
      | succ j =>
        simp at hi hj
        subst hi
        exact absurd rfl (h3 x hxa x (List.mem_flatMap.2 ⟨b, List.mem_of_getElem? hj, hxb⟩))
    | succ i =>
      cases j with
      | zero =>
        simp at hi hj
        subst hj
        exact absurd rfl (h3 x hxb x (List.mem_flatMap.2 ⟨a, List.mem_of_getElem? hi, hxa⟩))
      | succ j => simp at hi hj; rw [ih h2 i j a b hi hj x hxa hxb]

theorem nodup_flatMap_each {α β : Type} {f : α → List β} {cs : List α} (h : (cs.flatMap f).Nodup) (a : α) (ha : a ∈ cs) : (f a).Nodup := by
  induction cs with
  | nil => cases ha
  | cons c cs ih =>
    rw [List.flatMap_cons, List.nodup_append] at h
    rcases List.mem_cons.1 ha with rfl | ha
    · exact h.1
    · exact ih h.2.1 ha

/-- The `k`-th output of a loaded stage is what its `k`-th output reference denotes. -/
theorem out_resolved {cs : List Conf} {l : Load F} (hI : LInv cs l) {i k : Nat} {c : Conf} {st : Stage F} {d : Chan F} (hc : cs[i]? = some c) (hs : l.stages[i]? = some st)
    (hd : (st.outs.getD [])[k]? = some d) : ∃ s, (declared c kOut)[k]? = some s ∧ Resolved l.chans (s, d) := by
  obtain ⟨-, h2, -, h4⟩ := hI.stage i c st hc hs
  obtain ⟨hk, rfl⟩ := List.getElem?_eq_some_iff.1 hd
  refine ⟨(declared c kOut)[k]'(h2 ▸ hk), List.getElem?_eq_getElem _, h4 _ ?_⟩
  refine List.mem_append_right _ (List.mem_iff_getElem.2 ⟨k, ?_, ?_⟩)
  · rw [List.length_zip]; omega
  · rw [List.getElem_zip]

theorem in_resolved {cs : List Conf} {l : Load F} (hI : LInv cs l) {i k : Nat} {c : Conf} {st : Stage F} {d : Chan F} (hc : cs[i]? = some c) (hs : l.stages[i]? = some st)
    (hd : st.ins[k]? = some d) : ∃ s, (declared c kIn)[k]? = some s ∧ Resolved l.chans (s, d) := by
  obtain ⟨h1, -, -, h4⟩ := hI.stage i c st hc hs
  obtain ⟨hk, rfl⟩ := List.getElem?_eq_some_iff.1 hd
  refine ⟨(declared c kIn)[k]'(h1 ▸ hk), List.getElem?_eq_getElem _, h4 _ ?_⟩
  refine List.mem_append_left _ (List.mem_iff_getElem.2 ⟨k, ?_, ?_⟩)
  · rw [List.length_zip]; omega
  · rw [List.getElem_zip]

/-- The reader of a channel is the stage one of whose input references has its name. -/
theorem readerOf_iff {cs : List Conf} {l : Load F} (hI : LInv cs l) (hown : (cs.flatMap inNames).Nodup) {s : Option Str} {d : Chan F} (hr : Resolved l.chans (s, d)) (j : Nat) :
    readerOf l d = some j ↔ ∃ c, cs[j]? = some c ∧ s.bind chanName ∈ inNames c := by
  have key : ∀ (j : Nat) st c, l.stages[j]? = some st → cs[j]? = some c → (st.ins.any (fun x => x.id == d.id) = true ↔ s.bind chanName ∈ inNames c) := by
    intro j st c hst hc
    rw [List.any_eq_true]
    constructor
    · rintro ⟨x, hx, he⟩
      obtain ⟨k, hk⟩ := List.mem_iff_getElem?.1 hx
      obtain ⟨s', h1, h2⟩ := in_resolved hI hc hst hk
      have := (resolved_ids hI.chans h2 hr).2 (by simpa using he)
      rw [← this]
      exact List.mem_map.2 ⟨s', List.mem_of_getElem? h1, rfl⟩
    · intro h
      obtain ⟨s', h1, h2⟩ := List.mem_map.1 h
      obtain ⟨k, hk⟩ := List.mem_iff_getElem?.1 h1
      have hlen := (hI.stage j c st hc hst).1
      obtain ⟨hk', rfl⟩ := List.getElem?_eq_some_iff.1 hk
      have hx : st.ins[k]? = some (st.ins[k]'(by omega)) := List.getElem?_eq_getElem _
      obtain ⟨s', h1', h2'⟩ := in_resolved hI hc hst hx
      rw [hk] at h1'
      cases h1'
      refine ⟨_, List.mem_of_getElem? hx, ?_⟩
      simpa using (resolved_ids hI.chans h2' hr).1 h2
  have at_j : ∀ (j : Nat), j < l.stages.length → ∃ st c, l.stages[j]? = some st ∧ cs[j]? = some c := fun j hj =>
    ⟨l.stages[j], cs[j]'(hI.len ▸ hj), List.getElem?_eq_getElem _, List.getElem?_eq_getElem _⟩
  unfold readerOf
  rw [List.findIdx?_eq_some_iff_getElem]
  constructor
  · rintro ⟨hj, h1, -⟩
    obtain ⟨st, c, hst, hc⟩ := at_j j hj
    obtain ⟨_, rfl⟩ := List.getElem?_eq_some_iff.1 hst
    exact ⟨c, hc, (key j _ c hst hc).1 h1⟩
  · rintro ⟨c, hc, hm⟩
    have hj : j < l.stages.length := by
      rw [hI.len]
      exact (List.getElem?_eq_some_iff.1 hc).1
    obtain ⟨st, c', hst, hc'⟩ := at_j j hj
    rw [hc] at hc'
    cases hc'
    refine ⟨hj, ?_, ?_⟩
    · have := (key j st c hst hc).2 hm
      obtain ⟨_, rfl⟩ := List.getElem?_eq_some_iff.1 hst
      exact this
    · intro i hij
      obtain ⟨st', c'', hst', hc''⟩ := at_j i (by omega)
      obtain ⟨_, e⟩ := List.getElem?_eq_some_iff.1 hst'
      intro hany
      rw [e] at hany
      have := nodup_flatMap_index hown i j c'' c hc'' hc _ ((key i st' c'' hst' hc'').1 hany) hm
      omega

/-- **C91** What the `k`-th output of a stage sends is received by exactly the stage whose `in` attribute has the name in the `k`-th place of its `out` attribute. -/
theorem wired_as_named (comp : Conf → Stage F → Comp R) (E : Env F) (r : Regs F) (cs : List Conf) (l : Load F) (cap : Nat) (h : loadStages E { regs := r } cs = .done l)
    (hown : (cs.flatMap inNames).Nodup) (i k : Nat) (c : Conf) (hc : cs[i]? = some c) (n : Option Str) (hn : (outNames c)[k]? = some n)
    (j : Nat) (c' : Conf) (hj : cs[j]? = some c') : (∃ (m : Nat) (c'' : Conf), cs[m]? = some c'' ∧ n ∈ inNames c'') → ((netOf comp cs l cap).tgt i k = j ↔ n ∈ inNames c') := by
  have hI : LInv cs l := by simpa using loadStages_inv E [] cs _ l (linv_start r) h
  have hi : i < l.stages.length := by rw [hI.len]; exact (List.getElem?_eq_some_iff.1 hc).1
  have hst : l.stages[i]? = some l.stages[i] := List.getElem?_eq_getElem _
  have hk : k < (l.stages[i].outs.getD []).length := by
    rw [(hI.stage i c _ hc hst).2.1]
    have := (List.getElem?_eq_some_iff.1 hn).1
    simpa [outNames] using this
  have hd : (l.stages[i].outs.getD [])[k]? = some ((l.stages[i].outs.getD [])[k]) := List.getElem?_eq_getElem _
  obtain ⟨s, hs, hres⟩ := out_resolved hI hc hst hd
  have hsn : s.bind chanName = n := by
    unfold outNames at hn
    rw [List.getElem?_map, hs] at hn
    simpa using hn
  rintro ⟨m, c'', hm, hmn⟩
  have hread := (readerOf_iff hI hown hres m).2 ⟨c'', hm, by rw [hsn]; exact hmn⟩
  have htgt : (netOf comp cs l cap).tgt i k = m := by
    change ((l.stages[i]?.bind (fun st => (st.outs.getD [])[k]?)).bind (readerOf l)).getD (i + 1) = m
    rw [hst]
    change (((l.stages[i].outs.getD [])[k]?).bind (readerOf l)).getD (i + 1) = m
    rw [hd]
    change (readerOf l _).getD (i + 1) = m
    rw [hread]
    rfl
  rw [htgt]
  constructor
  · rintro rfl
    rw [hm] at hj
    cases hj
    exact hmn
  · intro h2
    exact nodup_flatMap_index hown m j c'' c' hm hj n hmn h2

/-- **C91** A configuration whose channel names form a tree starts a network that is a tree, if every plugin uses all its output channels and these only. -/
theorem tree_of_conf (comp : Conf → Stage F → Comp R) (E : Env F) (r : Regs F) (cs : List Conf) (l : Load F) (cap : Nat) (hcap : 0 < cap)
    (h : loadStages E { regs := r } cs = .done l) (ht : TreeConf cs)
    (hout : ∀ (i : Nat) c st, cs[i]? = some c → l.stages[i]? = some st → (comp c st).nOut = (outNames c).length) : Tree (netOf comp cs l cap) := by
  have hI : LInv cs l := by simpa using loadStages_inv E [] cs _ l (linv_start r) h
  have at_i : ∀ (i : Nat), i < l.stages.length → ∃ st c, l.stages[i]? = some st ∧ cs[i]? = some c := fun j hj =>
    ⟨l.stages[j], cs[j]'(hI.len ▸ hj), List.getElem?_eq_getElem _, List.getElem?_eq_getElem _⟩
  have nOut : ∀ (i : Nat) c, cs[i]? = some c → ((netOf comp cs l cap).comp i).nOut = (outNames c).length := by
    intro i c hc
    have hi : i < l.stages.length := by rw [hI.len]; exact (List.getElem?_eq_some_iff.1 hc).1
    obtain ⟨st, c', hst, hc'⟩ := at_i i hi
    change (((cs.zip l.stages)[i]?.map (fun p => comp p.1 p.2)).getD (idle R)).nOut = _
    rw [(List.getElem?_zip_eq_some (z := (c, st))).2 ⟨hc, hst⟩]
    exact hout i c st hc hst
  have wired := fun i k c hc n hn j c' hj hm => wired_as_named comp E r cs l cap h ht.ownIn i k c hc n hn j c' hj hm
  have kth : ∀ (i k : Nat), i < l.stages.length → k < ((netOf comp cs l cap).comp i).nOut → ∃ c n, cs[i]? = some c ∧ (outNames c)[k]? = some n := by
    intro i k hi hk
    obtain ⟨st, c, hst, hc⟩ := at_i i hi
    rw [nOut i c hc] at hk
    exact ⟨c, (outNames c)[k], hc, List.getElem?_eq_getElem _⟩
  refine ⟨?_, hcap, ?_, ?_, ?_⟩
  · change 0 < l.stages.length
    rw [hI.len]
    exact List.length_pos_iff.2 ht.nonempty
  · intro i k hi hk
    obtain ⟨c, n, hc, hn⟩ := kth i k hi hk
    obtain ⟨j, c', hij, hj, hm⟩ := ht.later i c hc n (List.mem_of_getElem? hn)
    rw [(wired i k c hc n hn j c' hj ⟨j, c', hj, hm⟩).2 hm]
    refine ⟨hij, ?_⟩
    change j < l.stages.length
    rw [hI.len]
    exact (List.getElem?_eq_some_iff.1 hj).1
  · intro i k j m hi hj hk hm he
    obtain ⟨c, n, hc, hn⟩ := kth i k hi hk
    obtain ⟨c', n', hc', hn'⟩ := kth j m hj hm
    obtain ⟨a, ca, _, ha, hna⟩ := ht.later i c hc n (List.mem_of_getElem? hn)
    obtain ⟨b, cb, _, hb, hnb⟩ := ht.later j c' hc' n' (List.mem_of_getElem? hn')
    have e1 := (wired i k c hc n hn a ca ha ⟨a, ca, ha, hna⟩).2 hna
    have e2 := (wired j m c' hc' n' hn' b cb hb ⟨b, cb, hb, hnb⟩).2 hnb
    rw [he, e2] at e1
    subst e1
    rw [ha] at hb
    cases hb
    have hnn : n = n' := by
      have h1 := ht.oneIn ca (List.mem_of_getElem? ha)
      obtain ⟨x, hx⟩ := List.length_eq_one_iff.1 h1
      rw [hx] at hna hnb
      rw [List.mem_singleton.1 hna, List.mem_singleton.1 hnb]
    subst hnn
    have hij := nodup_flatMap_index ht.ownOut i j c c' hc hc' n (List.mem_of_getElem? hn) (List.mem_of_getElem? hn')
    subst hij
    rw [hc] at hc'
    cases hc'
    have hnd := nodup_flatMap_each ht.ownOut c (List.mem_of_getElem? hc)
    refine ⟨rfl, ?_⟩
    obtain ⟨h1, e1⟩ := List.getElem?_eq_some_iff.1 hn
    obtain ⟨h2, e2⟩ := List.getElem?_eq_some_iff.1 hn'
    exact (List.Nodup.getElem_inj_iff hnd).1 (e1.trans e2.symm)
  · intro i hpos hi
    obtain ⟨st, c, hst, hc⟩ := at_i i hi
    obtain ⟨x, hx⟩ := List.length_eq_one_iff.1 (ht.oneIn c (List.mem_of_getElem? hc))
    have htail : c ∈ cs.tail := by
      obtain ⟨i', rfl⟩ : ∃ i', i = i' + 1 := ⟨i - 1, by omega⟩
      refine List.mem_of_getElem? (i := i') ?_
      rw [List.getElem?_tail]
      exact hc
    obtain ⟨c', hc', hn'⟩ := List.mem_flatMap.1 (ht.fed c htail x (by rw [hx]; simp))
    obtain ⟨j, hj⟩ := List.mem_iff_getElem?.1 hc'
    obtain ⟨k, hk⟩ := List.mem_iff_getElem?.1 hn'
    refine ⟨j, k, ?_, ?_, ?_⟩
    · change j < l.stages.length
      rw [hI.len]
      exact (List.getElem?_eq_some_iff.1 hj).1
    · rw [nOut j c' hj]
      exact (List.getElem?_eq_some_iff.1 hk).1
    · exact (wired j k c' hj x hk i c hc ⟨i, c, hc, by rw [hx]; simp⟩).2 (by rw [hx]; simp)

/-- **C91** A configuration whose channel names form a tree, of plugins that use all their outputs and keep the contract of stages, runs well under every schedule: it never crashes on a channel, and
when `Wait` returns the first stage has received exactly what the driver sent, and every other stage exactly what was sent, in its order, on the output that has the name in its `in` attribute. -/
theorem named_channels_deliver (comp : Conf → Stage F → Comp R) (E : Env F) (r : Regs F) (cs : List Conf) (l : Load F) (cap : Nat) (hcap : 0 < cap)
    (h : loadStages E { regs := r } cs = .done l) (ht : TreeConf cs)
    (hout : ∀ (i : Nat) c st, cs[i]? = some c → l.stages[i]? = some st → (comp c st).nOut = (outNames c).length)
    (hcon : ∀ (i : Nat) c st, cs[i]? = some c → l.stages[i]? = some st → Contract (comp c st))
    {tr : List (Drain.Obs R)} {s : Drain.St (netOf comp cs l cap)} (hx : Drain.Exec (netOf comp cs l cap) tr s) :
    s.panicked = false ∧
    (Drain.Waited s → Drain.takes (Drain.acts 0 tr) = Drain.driven tr ∧
      ∀ (i k : Nat) c n, cs[i]? = some c → (outNames c)[k]? = some n → ∀ (j : Nat) c', cs[j]? = some c' → n ∈ inNames c' →
        Drain.takes (Drain.acts j tr) = Drain.sends k (Drain.acts i tr)) := by
  have hT := tree_of_conf comp E r cs l cap hcap h ht hout
  have hI : LInv cs l := by simpa using loadStages_inv E [] cs _ l (linv_start r) h
  have at_i : ∀ (i : Nat), i < l.stages.length → ∃ st c, l.stages[i]? = some st ∧ cs[i]? = some c := fun j hj =>
    ⟨l.stages[j], cs[j]'(hI.len ▸ hj), List.getElem?_eq_getElem _, List.getElem?_eq_getElem _⟩
  have hcomp : ∀ (i : Nat) c st, cs[i]? = some c → l.stages[i]? = some st → (netOf comp cs l cap).comp i = comp c st := by
    intro i c st hc hst
    change (((cs.zip l.stages)[i]?.map (fun p => comp p.1 p.2)).getD (idle R)) = _
    rw [(List.getElem?_zip_eq_some (z := (c, st))).2 ⟨hc, hst⟩]
    rfl
  have hC : ∀ i, i < (netOf comp cs l cap).n → Contract ((netOf comp cs l cap).comp i) := by
    intro i hi
    obtain ⟨st, c, hst, hc⟩ := at_i i hi
    rw [hcomp i c st hc hst]
    exact hcon i c st hc hst
  refine ⟨Drain.pipeline_never_panics hT hC hx, fun hw => ?_⟩
  obtain ⟨-, h2, h3, -, -⟩ := Drain.drained_when_wait_returns hT hC hx hw
  refine ⟨h2, ?_⟩
  intro i k c n hc hn j c' hj hm
  have hi : i < l.stages.length := by rw [hI.len]; exact (List.getElem?_eq_some_iff.1 hc).1
  obtain ⟨st, c0, hst, hc0⟩ := at_i i hi
  rw [hc] at hc0
  cases hc0
  have hk : k < ((netOf comp cs l cap).comp i).nOut := by
    rw [hcomp i c st hc hst, hout i c st hc hst]
    exact (List.getElem?_eq_some_iff.1 hn).1
  have := h3 i k hi hk
  rwa [(wired_as_named comp E r cs l cap h ht.ownIn i k c hc n hn j c' hj ⟨j, c', hj, hm⟩).2 hm] at this

/-! ### Example: the policy engine feeds two exporters -/

def fanOut : List Conf :=
  [[(kProc, .str "sysflowreader".toList), (kIn, .str "sysflow sysflowchan".toList), (kOut, .str "flat flattenerchan".toList)],
   [(kProc, .str "policyengine".toList), (kIn, .str "flat flattenerchan".toList), (kOut, .arr [some "a eventchan".toList, some "b eventchan".toList])],
   [(kProc, .str "exporter".toList), (kIn, .str "b eventchan".toList)],
   [(kProc, .str "exporter".toList), (kIn, .arr [some "a eventchan".toList])]]

theorem fanOut_in : fanOut.map inNames = [[some "sysflow".toList], [some "flat".toList], [some "b".toList], [some "a".toList]] := by decide +kernel
theorem fanOut_out : fanOut.map outNames = [[some "flat".toList], [some "a".toList, some "b".toList], [], []] := by decide +kernel

theorem fanOut_tree : TreeConf fanOut where
  nonempty := by decide
  oneIn c hc := by
    have h : inNames c ∈ fanOut.map inNames := List.mem_map_of_mem hc
    rw [fanOut_in] at h
    have : ∀ x ∈ [[some "sysflow".toList], [some "flat".toList], [some "b".toList], [some "a".toList]], x.length = 1 := by decide
    exact this _ h
  ownIn := by decide +kernel
  ownOut := by decide +kernel
  later i c hc n hn := by
    have ho := congrArg (fun x => x[i]?) fanOut_out
    simp only [List.getElem?_map, hc, Option.map_some] at ho
    match i, ho with
    | 0, ho =>
      have ho : outNames c = [some "flat".toList] := Option.some.inj ho
      rw [ho, List.mem_singleton] at hn
      exact ⟨1, _, by decide, rfl, by rw [hn]; decide +kernel⟩
    | 1, ho =>
      have ho : outNames c = [some "a".toList, some "b".toList] := Option.some.inj ho
      rw [ho] at hn
      rcases List.mem_cons.1 hn with rfl | hn
      · exact ⟨3, _, by decide, rfl, by decide +kernel⟩
      · rw [List.mem_singleton.1 hn]
        exact ⟨2, _, by decide, rfl, by decide +kernel⟩
    | 2, ho => rw [(Option.some.inj ho : outNames c = [])] at hn; cases hn
    | 3, ho => rw [(Option.some.inj ho : outNames c = [])] at hn; cases hn
    | i + 4, ho => cases hc
  fed := by
    have : (fanOut.tail.all fun c => (inNames c).all fun n => decide (n ∈ fanOut.flatMap outNames)) = true := by decide +kernel
    intro c hc n hn
    rw [List.all_eq_true] at this
    have := this c hc
    rw [List.all_eq_true] at this
    simpa using this n hn

def fanComp (_ : Conf) (st : Stage String) : Comp Nat := Drain.sync (fun (_ : Unit) r => ((), [r])) () (st.outs.getD []).length

/-- It loads, and there is a complete run on which both exporters receive what the driver sent. -/
example : ∃ l, loadStages demoEnvF { regs := builtinRegs } fanOut = .done l ∧ ∃ tr, ∃ s : Drain.St (netOf fanComp fanOut l 5), Drain.Exec (netOf fanComp fanOut l 5) tr s ∧ Drain.Waited s ∧
    Drain.driven tr = [1, 2] ∧ Drain.takes (Drain.acts 2 tr) = Drain.sends 1 (Drain.acts 1 tr) ∧ Drain.takes (Drain.acts 3 tr) = Drain.sends 0 (Drain.acts 1 tr) := by
  have hl : stagesOf (loadStages demoEnvF { regs := builtinRegs } fanOut) = some [([0], some [1]), ([1], some [2, 3]), ([3], none), ([2], none)] := by decide +kernel
  cases hlo : loadStages demoEnvF { regs := builtinRegs } fanOut with
  | failed => rw [hlo] at hl; cases hl
  | panicked => rw [hlo] at hl; cases hl
  | stopped l => rw [hlo] at hl; cases hl
  | done l =>
    have hI : LInv fanOut l := by simpa using loadStages_inv demoEnvF [] fanOut _ l (linv_start builtinRegs) hlo
    have hout : ∀ (i : Nat) c st, fanOut[i]? = some c → l.stages[i]? = some st → (fanComp c st).nOut = (outNames c).length := by
      intro i c st hc hst
      change (st.outs.getD []).length = _
      rw [(hI.stage i c st hc hst).2.1]
      simp [outNames]
    have hcon : ∀ (i : Nat) c st, fanOut[i]? = some c → l.stages[i]? = some st → Contract (fanComp c st) := fun i c st _ _ => Drain.sync_contract _ _ _
    have hT := tree_of_conf fanComp demoEnvF builtinRegs fanOut l 5 (by decide) hlo fanOut_tree hout
    have hC : ∀ i, i < (netOf fanComp fanOut l 5).n → Contract ((netOf fanComp fanOut l 5).comp i) := by
      intro i hi
      have hi : i < l.stages.length := hi
      change Contract ((((fanOut.zip l.stages)[i]?.map (fun p => fanComp p.1 p.2)).getD (idle Nat)))
      rw [(List.getElem?_zip_eq_some (z := (fanOut[i]'(hI.len ▸ hi), l.stages[i]))).2 ⟨List.getElem?_eq_getElem _, List.getElem?_eq_getElem _⟩]
      exact Drain.sync_contract _ _ _
    obtain ⟨tr, s, he, hw, hd⟩ := Drain.complete_run_exists hT hC [1, 2] (show 2 ≤ 5 by decide)
    obtain ⟨-, hall⟩ := named_channels_deliver fanComp demoEnvF builtinRegs fanOut l 5 (by decide) hlo fanOut_tree hout hcon he
    obtain ⟨-, h2⟩ := hall hw
    exact ⟨l, rfl, tr, s, he, hw, hd, h2 1 1 _ (some "b".toList) rfl (by decide +kernel) 2 _ rfl (by decide +kernel), h2 1 0 _ (some "a".toList) rfl (by decide +kernel) 3 _ rfl (by decide +kernel)⟩

end Verif.Pipeline
