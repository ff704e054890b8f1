import Verif.Falco.LexerProps
/-
C94: string literals of the rule language.
Sources: /repo/core/policyengine/policy/falco/lang/Sfpl.g4:292-306 (STRING, STRLIT), /repo/core/policyengine/policy/falco/lang/parser/sfpl_lexer.go:16-, whose serialised automaton for these two rules has
the transitions, in this order, that are modelled here (in particular the loop of STRLIT is the only non-greedy one, and its exit comes first).
-/
namespace Verif.Falco
open Verif.Decimal (Str)

/-! ### Model -/

/-- A configuration of the lexer inside STRING, with the closing quotes of the surrounding literals still to come (`k`, innermost first): the opening quote is being read (`c`: its closing quote), a
character of the text is expected (the loop of STRLIT), the closing quote is being read, the end of the rule (sfpl_lexer.go: states 578-613, 618-623). -/
inductive SThread where
  | opening (cs c : Str) (k : List Str)
  | loop (c : Str) (k : List Str)
  | closing (cs : Str) (k : List Str)
  | accept
deriving DecidableEq, Repr

/-- The alternatives of STRING in their order (Sfpl.g4:293-296; state 612). -/
def strOpen (k : List Str) : List SThread :=
  [.opening "\"".toList "\"".toList k, .opening "'".toList "'".toList k, .opening "\\\"".toList "\\\"".toList k, .opening "''".toList "''".toList k]

/-- STRLIT: the non-greedy loop prefers to end (Sfpl.g4:303-306; state 621). -/
def litAt (c : Str) (k : List Str) : List SThread := [.closing c k, .loop c k]

/-- `(STRING|STRLIT)` inside a literal (states 581, 588, 597, 607). -/
def innerAt (c : Str) (k : List Str) : List SThread := strOpen (c :: k) ++ litAt c k

/-- After a closing quote: the end of the rule, or the closing quote of the surrounding literal. -/
def afterClosing : List Str → SThread
  | [] => .accept
  | c :: k => .closing c k

/-- The configurations after reading a character, in order of priority. -/
def SThread.next (ch : Char) : SThread → List SThread
  | .opening (x :: xs) c k => if x = ch then (if xs.isEmpty then innerAt c k else [.opening xs c k]) else []
  | .opening [] _ _ => []
  | .closing (x :: xs) k => if x = ch then (if xs.isEmpty then [afterClosing k] else [.closing xs k]) else []
  | .closing [] _ => []
  | .loop c k => if ch = '\r' ∨ ch = '\n' then [] else litAt c k
  | .accept => []

/-- Has the configuration passed through a non-greedy decision? -/
def SThread.passed : SThread → Bool
  | .opening _ _ _ => false
  | _ => true

/-- The step of ANTLR's lexer (runtime, `LexerATNSimulator.getReachableConfigSet`): in order of priority; once a configuration has reached the end of the rule, those of lower priority that have
passed through a non-greedy decision are dropped. -/
def reach (ch : Char) : Bool → List SThread → List SThread
  | _, [] => []
  | skip, t :: ts =>
    if skip && t.passed then reach ch skip ts
    else (t.next ch).filter (fun n => !(skip && n.passed)) ++ reach ch (skip || (t.next ch).contains .accept) ts

/-- Reading on as long as there are configurations; the longest match so far is kept. -/
def strRun : List SThread → Str → Nat → Option Nat → Option Nat
  | _, [], _, best => best
  | ts, c :: s, n, best =>
    let ts' := reach c false ts
    if ts'.isEmpty then best else strRun ts' s (n + 1) (if ts'.contains .accept then some (n + 1) else best)

/-- The length of the STRING token at the start of a text, as the generated lexer finds it. -/
def antlrStr (s : Str) : Option Nat := strRun (strOpen []) s 0 none

/-! ### Specification -/

/-- The quotes of string literals. -/
def Quotes (o c : Str) : Prop :=
  (o = "\"".toList ∧ c = "\"".toList) ∨ (o = "'".toList ∧ c = "'".toList) ∨ (o = "\\\"".toList ∧ c = "\\\"".toList) ∨ (o = "''".toList ∧ c = "''".toList)

/-- The literals of the grammar: a literal, or a text without line ends, between quotes. -/
inductive StringLit : Str → Prop where
  | text (o b c : Str) : Quotes o c → '\r' ∉ b → '\n' ∉ b → StringLit (o ++ (b ++ c))
  | nested (o b c : Str) : Quotes o c → StringLit b → StringLit (o ++ (b ++ c))

/-! ### Proofs -/

/-- What a configuration still accepts. -/
inductive Acc : SThread → Str → Prop where
  | openText (cs c b : Str) (k : List Str) : '\r' ∉ b → '\n' ∉ b → Acc (.opening cs c k) (cs ++ (b ++ (c ++ k.flatten)))
  | openLit (cs c b : Str) (k : List Str) : StringLit b → Acc (.opening cs c k) (cs ++ (b ++ (c ++ k.flatten)))
  | loop (x : Char) (c b : Str) (k : List Str) : x ≠ '\r' → x ≠ '\n' → '\r' ∉ b → '\n' ∉ b → Acc (.loop c k) (x :: (b ++ (c ++ k.flatten)))
  | closing (cs : Str) (k : List Str) : Acc (.closing cs k) (cs ++ k.flatten)
  | accept : Acc .accept []

theorem quotes_iff (o c : Str) (k : List Str) : Quotes o c ↔ SThread.opening o c k ∈ strOpen k := by
  unfold Quotes strOpen
  simp only [List.mem_cons, SThread.opening.injEq, and_true, List.not_mem_nil, or_false]

theorem strOpen_mem {t : SThread} {k : List Str} (h : t ∈ strOpen k) : ∃ o c, Quotes o c ∧ t = .opening o c k := by
  have h' := h
  unfold strOpen at h
  simp only [List.mem_cons, List.not_mem_nil, or_false] at h
  rcases h with rfl | rfl | rfl | rfl <;> exact ⟨_, _, (quotes_iff _ _ k).2 h', rfl⟩

theorem quotes_ne {o c : Str} (h : Quotes o c) : ∃ x xs y ys, o = x :: xs ∧ c = y :: ys ∧ (x = '"' ∨ x = '\'' ∨ x = '\\') := by
  rcases h with ⟨rfl, rfl⟩ | ⟨rfl, rfl⟩ | ⟨rfl, rfl⟩ | ⟨rfl, rfl⟩
  · exact ⟨_, _, _, _, rfl, rfl, .inl rfl⟩
  · exact ⟨_, _, _, _, rfl, rfl, .inr (.inl rfl)⟩
  · exact ⟨_, _, _, _, rfl, rfl, .inr (.inr rfl)⟩
  · exact ⟨_, _, _, _, rfl, rfl, .inr (.inl rfl)⟩

/-- What the alternatives of STRING accept before `k`. -/
theorem acc_strOpen {t : SThread} {k : List Str} {w : Str} (ht : t ∈ strOpen k) (h : Acc t w) : ∃ b, StringLit b ∧ w = b ++ k.flatten := by
  obtain ⟨o, c, hq, rfl⟩ := strOpen_mem ht
  cases h with
  | openText _ _ b _ h1 h2 => exact ⟨_, .text o b c hq h1 h2, by simp only [List.append_assoc]⟩
  | openLit _ _ b _ h1 => exact ⟨_, .nested o b c hq h1, by simp only [List.append_assoc]⟩

theorem strOpen_acc {b : Str} {k : List Str} (h : StringLit b) : ∃ t ∈ strOpen k, Acc t (b ++ k.flatten) := by
  cases h with
  | text o b c hq h1 h2 =>
    refine ⟨_, (quotes_iff o c k).1 hq, ?_⟩
    have := Acc.openText o c b k h1 h2
    simpa only [List.append_assoc] using this
  | nested o b c hq h1 =>
    refine ⟨_, (quotes_iff o c k).1 hq, ?_⟩
    have := Acc.openLit o c b k h1
    simpa only [List.append_assoc] using this

theorem acc_litAt {t : SThread} {c : Str} {k : List Str} {w : Str} (ht : t ∈ litAt c k) (h : Acc t w) : ∃ b, '\r' ∉ b ∧ '\n' ∉ b ∧ w = b ++ (c ++ k.flatten) := by
  unfold litAt at ht
  simp only [List.mem_cons, List.not_mem_nil, or_false] at ht
  rcases ht with rfl | rfl
  · cases h
    exact ⟨[], List.not_mem_nil, List.not_mem_nil, rfl⟩
  · cases h with
    | loop x _ b _ h1 h2 h3 h4 =>
      refine ⟨x :: b, ?_, ?_, rfl⟩
      · rw [List.mem_cons, not_or]; exact ⟨fun e => h1 e.symm, h3⟩
      · rw [List.mem_cons, not_or]; exact ⟨fun e => h2 e.symm, h4⟩

theorem litAt_acc {b c : Str} {k : List Str} (h1 : '\r' ∉ b) (h2 : '\n' ∉ b) : ∃ t ∈ litAt c k, Acc t (b ++ (c ++ k.flatten)) := by
  cases b with
  | nil => exact ⟨_, List.mem_cons_self, .closing c k⟩
  | cons x b =>
    rw [List.mem_cons, not_or] at h1 h2
    exact ⟨_, List.mem_cons_of_mem _ List.mem_cons_self, .loop x c b k (fun e => h1.1 e.symm) (fun e => h2.1 e.symm) h1.2 h2.2⟩

/-- A step is sound and complete for what configurations accept. -/
theorem next_acc (ch : Char) (t : SThread) (w : Str) : (∃ n ∈ t.next ch, Acc n w) → Acc t (ch :: w) := by
  rintro ⟨n, hn, ha⟩
  cases t with
  | opening cs c k =>
    cases cs with
    | nil => cases hn
    | cons x xs =>
      unfold SThread.next at hn
      dsimp only at hn
      by_cases hx : x = ch
      · rw [if_pos hx] at hn
        subst hx
        cases xs with
        | nil =>
          rw [if_pos (show ([] : Str).isEmpty = true from rfl)] at hn
          unfold innerAt at hn
          rcases List.mem_append.1 hn with hn | hn
          · obtain ⟨b, hb, rfl⟩ := acc_strOpen hn ha
            exact .openLit [x] c b k hb
          · obtain ⟨b, h1, h2, rfl⟩ := acc_litAt hn ha
            exact .openText [x] c b k h1 h2
        | cons y ys =>
          rw [if_neg (show ¬ (y :: ys).isEmpty = true from Bool.false_ne_true)] at hn
          rw [List.mem_singleton] at hn
          subst hn
          cases ha with
          | openText _ _ b _ h1 h2 => exact .openText (x :: y :: ys) c b k h1 h2
          | openLit _ _ b _ h1 => exact .openLit (x :: y :: ys) c b k h1
      · rw [if_neg hx] at hn
        cases hn
  | loop c k =>
    unfold SThread.next at hn
    dsimp only at hn
    by_cases hx : ch = '\r' ∨ ch = '\n'
    · rw [if_pos hx] at hn; cases hn
    · rw [if_neg hx] at hn
      rw [not_or] at hx
      obtain ⟨b, h1, h2, rfl⟩ := acc_litAt hn ha
      exact .loop ch c b k hx.1 hx.2 h1 h2
  | closing cs k =>
    cases cs with
    | nil => cases hn
    | cons x xs =>
      unfold SThread.next at hn
      dsimp only at hn
      by_cases hx : x = ch
      · rw [if_pos hx] at hn
        subst hx
        cases xs with
        | nil =>
          rw [if_pos (show ([] : Str).isEmpty = true from rfl), List.mem_singleton] at hn
          subst hn
          cases k with
          | nil => cases ha; exact .closing [x] []
          | cons c k =>
            cases ha
            exact .closing [x] (c :: k)
        | cons y ys =>
          rw [if_neg (show ¬ (y :: ys).isEmpty = true from Bool.false_ne_true), List.mem_singleton] at hn
          subst hn
          cases ha
          exact .closing (x :: y :: ys) k
      · rw [if_neg hx] at hn
        cases hn
  | accept => cases hn

/-- Configurations that can occur: quotes being read are not empty. -/
def SThread.Wf : SThread → Prop
  | .opening cs c k => cs ≠ [] ∧ c ≠ [] ∧ ∀ x ∈ k, x ≠ []
  | .loop c k => c ≠ [] ∧ ∀ x ∈ k, x ≠ []
  | .closing cs k => cs ≠ [] ∧ ∀ x ∈ k, x ≠ []
  | .accept => True

theorem wf_strOpen {k : List Str} (hk : ∀ x ∈ k, x ≠ []) : ∀ t ∈ strOpen k, t.Wf := by
  intro t ht
  obtain ⟨o, c, hq, rfl⟩ := strOpen_mem ht
  obtain ⟨x, xs, y, ys, rfl, rfl, -⟩ := quotes_ne hq
  exact ⟨List.cons_ne_nil _ _, List.cons_ne_nil _ _, hk⟩

theorem wf_litAt {c : Str} {k : List Str} (hc : c ≠ []) (hk : ∀ x ∈ k, x ≠ []) : ∀ t ∈ litAt c k, t.Wf := by
  intro t ht
  unfold litAt at ht
  simp only [List.mem_cons, List.not_mem_nil, or_false] at ht
  rcases ht with rfl | rfl <;> exact ⟨hc, hk⟩

theorem next_wf (ch : Char) (t : SThread) (ht : t.Wf) : ∀ n ∈ t.next ch, n.Wf := by
  intro n hn
  cases t with
  | opening cs c k =>
    cases cs with
    | nil => cases hn
    | cons x xs =>
      unfold SThread.next at hn
      dsimp only at hn
      by_cases hx : x = ch
      · rw [if_pos hx] at hn
        cases xs with
        | nil =>
          rw [if_pos (show ([] : Str).isEmpty = true from rfl)] at hn
          unfold innerAt at hn
          rcases List.mem_append.1 hn with hn | hn
          · refine wf_strOpen ?_ n hn
            intro y hy
            rcases List.mem_cons.1 hy with rfl | hy
            · exact ht.2.1
            · exact ht.2.2 y hy
          · exact wf_litAt ht.2.1 ht.2.2 n hn
        | cons y ys =>
          rw [if_neg (show ¬ (y :: ys).isEmpty = true from Bool.false_ne_true), List.mem_singleton] at hn
          subst hn
          exact ⟨List.cons_ne_nil _ _, ht.2⟩
      · rw [if_neg hx] at hn
        cases hn
  | loop c k =>
    unfold SThread.next at hn
    dsimp only at hn
    by_cases hx : ch = '\r' ∨ ch = '\n'
    · rw [if_pos hx] at hn; cases hn
    · rw [if_neg hx] at hn
      exact wf_litAt ht.1 ht.2 n hn
  | closing cs k =>
    cases cs with
    | nil => cases hn
    | cons x xs =>
      unfold SThread.next at hn
      dsimp only at hn
      by_cases hx : x = ch
      · rw [if_pos hx] at hn
        cases xs with
        | nil =>
          rw [if_pos (show ([] : Str).isEmpty = true from rfl), List.mem_singleton] at hn
          subst hn
          cases k with
          | nil => trivial
          | cons c k => exact ⟨ht.2 c List.mem_cons_self, fun y hy => ht.2 y (List.mem_cons_of_mem _ hy)⟩
        | cons y ys =>
          rw [if_neg (show ¬ (y :: ys).isEmpty = true from Bool.false_ne_true), List.mem_singleton] at hn
          subst hn
          exact ⟨List.cons_ne_nil _ _, ht.2⟩
      · rw [if_neg hx] at hn
        cases hn
  | accept => cases hn

theorem acc_next (ch : Char) (t : SThread) (w : Str) (ht : t.Wf) (h : Acc t (ch :: w)) : ∃ n ∈ t.next ch, Acc n w := by
  generalize hu : ch :: w = u at h
  cases h with
  | openText cs c b k h1 h2 =>
    cases cs with
    | nil => exact absurd rfl ht.1
    | cons x xs =>
      rw [List.cons_append, List.cons.injEq] at hu
      obtain ⟨rfl, rfl⟩ := hu
      unfold SThread.next
      dsimp only
      rw [if_pos rfl]
      cases xs with
      | nil =>
        rw [if_pos (show ([] : Str).isEmpty = true from rfl)]
        obtain ⟨t, ht, ha⟩ := litAt_acc (c := c) (k := k) h1 h2
        exact ⟨t, List.mem_append_right _ ht, ha⟩
      | cons y ys => exact ⟨_, List.mem_singleton.2 rfl, .openText (y :: ys) c b k h1 h2⟩
  | openLit cs c b k h1 =>
    cases cs with
    | nil => exact absurd rfl ht.1
    | cons x xs =>
      rw [List.cons_append, List.cons.injEq] at hu
      obtain ⟨rfl, rfl⟩ := hu
      unfold SThread.next
      dsimp only
      rw [if_pos rfl]
      cases xs with
      | nil =>
        rw [if_pos (show ([] : Str).isEmpty = true from rfl)]
        obtain ⟨t, ht, ha⟩ := strOpen_acc (k := c :: k) h1
        exact ⟨t, List.mem_append_left _ ht, ha⟩
      | cons y ys => exact ⟨_, List.mem_singleton.2 rfl, .openLit (y :: ys) c b k h1⟩
  | loop x c b k h1 h2 h3 h4 =>
    cases hu
    unfold SThread.next
    dsimp only
    rw [if_neg (by rw [not_or]; exact ⟨h1, h2⟩)]
    exact litAt_acc h3 h4
  | closing cs k =>
    cases cs with
    | nil => exact absurd rfl ht.1
    | cons x xs =>
      rw [List.cons_append, List.cons.injEq] at hu
      obtain ⟨rfl, rfl⟩ := hu
      unfold SThread.next
      dsimp only
      rw [if_pos rfl]
      cases xs with
      | nil =>
        refine ⟨_, List.mem_singleton.2 rfl, ?_⟩
        cases k with
        | nil => exact .accept
        | cons c k => exact .closing c k
      | cons y ys => exact ⟨_, List.mem_singleton.2 rfl, .closing (y :: ys) k⟩
  | accept => cases hu

theorem reach_mem (ch : Char) : ∀ (skip : Bool) (ts : List SThread) (n : SThread), n ∈ reach ch skip ts → ∃ t ∈ ts, n ∈ t.next ch
  | _, [], _, h => by cases h
  | skip, t :: ts, n, h => by
    unfold reach at h
    split at h
    · obtain ⟨t', h1, h2⟩ := reach_mem ch skip ts n h
      exact ⟨t', List.mem_cons_of_mem _ h1, h2⟩
    · rcases List.mem_append.1 h with h | h
      · exact ⟨t, List.mem_cons_self, (List.mem_filter.1 h).1⟩
      · obtain ⟨t', h1, h2⟩ := reach_mem ch _ ts n h
        exact ⟨t', List.mem_cons_of_mem _ h1, h2⟩

/-- Without the end of the rule in sight, nothing is dropped. -/
theorem reach_all (ch : Char) : ∀ (ts : List SThread), (∃ t ∈ ts, .accept ∈ t.next ch) → .accept ∈ reach ch false ts
  | [], h => by obtain ⟨t, ht, -⟩ := h; cases ht
  | t :: ts, h => by
    unfold reach
    rw [if_neg (by simp)]
    by_cases ha : .accept ∈ t.next ch
    · exact List.mem_append_left _ (List.mem_filter.2 ⟨ha, rfl⟩)
    · rw [show (t.next ch).contains .accept = false from by rw [Bool.eq_false_iff, Ne, List.contains_iff_mem]; exact ha]
      refine List.mem_append_right _ (reach_all ch ts ?_)
      obtain ⟨t', h1, h2⟩ := h
      rcases List.mem_cons.1 h1 with rfl | h1
      · exact absurd h2 ha
      · exact ⟨t', h1, h2⟩

theorem reach_keeps (ch : Char) : ∀ (ts : List SThread), (∀ t ∈ ts, .accept ∉ t.next ch) → reach ch false ts = (ts.map (SThread.next ch)).flatten
  | [], _ => rfl
  | t :: ts, h => by
    unfold reach
    rw [if_neg (by simp), show (t.next ch).contains .accept = false from by rw [Bool.eq_false_iff, Ne, List.contains_iff_mem]; exact h t List.mem_cons_self]
    rw [Bool.or_false, reach_keeps ch ts fun t' h' => h t' (List.mem_cons_of_mem _ h')]
    rw [List.map_cons, List.flatten_cons]
    congr 1
    rw [List.filter_eq_self]
    intro _ _; rfl

/-- Soundness of reading on. -/
theorem strRun_sound : ∀ (s : Str) (ts : List SThread) (n : Nat) (best : Option Nat) (m : Nat), strRun ts s n best = some m →
    best = some m ∨ ∃ k, 0 < k ∧ k ≤ s.length ∧ m = n + k ∧ ∃ t ∈ ts, Acc t (s.take k)
  | [], ts, n, best, m, h => .inl h
  | c :: s, ts, n, best, m, h => by
    unfold strRun at h
    dsimp only at h
    split at h
    · exact .inl h
    · rcases strRun_sound s _ _ _ m h with hb | ⟨k, h1, h2, h3, t, ht, ha⟩
      · split at hb
        · rename_i hacc
          cases hb
          rw [List.contains_iff_mem] at hacc
          obtain ⟨t, ht, hn⟩ := reach_mem c _ ts _ hacc
          exact .inr ⟨1, by omega, by simp, rfl, t, ht, next_acc c t [] ⟨_, hn, .accept⟩⟩
        · exact .inl hb
      · obtain ⟨t', ht', hn⟩ := reach_mem c _ ts _ ht
        exact .inr ⟨k + 1, by omega, by simp; omega, by omega, t', ht', next_acc c t' _ ⟨_, hn, ha⟩⟩

theorem strRun_ge : ∀ (s : Str) (ts : List SThread) (n : Nat) (b : Nat), (strRun ts s n (some b)).isSome
  | [], _, _, _ => rfl
  | c :: s, ts, n, b => by
    unfold strRun
    dsimp only
    split
    · rfl
    · split <;> exact strRun_ge s _ _ _

theorem acc_nil {t : SThread} (ht : t.Wf) (h : Acc t []) : t = .accept := by
  generalize hu : ([] : Str) = u at h
  cases h with
  | openText cs c b k => cases cs with
    | nil => exact absurd rfl ht.1
    | cons _ _ => cases hu
  | openLit cs c b k => cases cs with
    | nil => exact absurd rfl ht.1
    | cons _ _ => cases hu
  | loop => cases hu
  | closing cs k => cases cs with
    | nil => exact absurd rfl ht.1
    | cons _ _ => cases hu
  | accept => rfl

theorem strRun_complete : ∀ (w : Str) (s : Str) (ts : List SThread) (n : Nat), (∀ t ∈ ts, t.Wf) → (∃ t ∈ ts, Acc t w) → w ≠ [] → (strRun ts (w ++ s) n none).isSome
  | [], _, _, _, _, _, h => absurd rfl h
  | c :: w, s, ts, n, hwf, ⟨t, ht, ha⟩, _ => by
    obtain ⟨t', hn, ha'⟩ := acc_next c t w (hwf t ht) ha
    rw [List.cons_append]
    unfold strRun
    dsimp only
    by_cases hacc : ∃ t ∈ ts, .accept ∈ t.next c
    · have := reach_all c ts hacc
      rw [if_neg (by rw [List.isEmpty_iff]; intro e; rw [e] at this; cases this), if_pos (List.contains_iff_mem.2 this)]
      exact strRun_ge _ _ _ _
    · have hno : ∀ t ∈ ts, .accept ∉ t.next c := fun t ht h => hacc ⟨t, ht, h⟩
      have hm : t' ∈ reach c false ts := by
        rw [reach_keeps c ts hno]
        exact List.mem_flatten.2 ⟨_, List.mem_map_of_mem ht, hn⟩
      have hwf' : ∀ t ∈ reach c false ts, t.Wf := by
        intro u hu
        obtain ⟨v, h1, h2⟩ := reach_mem c _ ts u hu
        exact next_wf c v (hwf v h1) u h2
      rw [if_neg (by rw [List.isEmpty_iff]; intro e; rw [e] at hm; cases hm)]
      cases w with
      | nil =>
        have := acc_nil (hwf' t' hm) ha'
        subst this
        exact absurd hn (hno t ht)
      | cons d w =>
        split
        · exact strRun_ge _ _ _ _
        · exact strRun_complete (d :: w) s _ _ hwf' ⟨t', hm, ha'⟩ (List.cons_ne_nil _ _)

/-- **C94** What is taken as a string literal is one by the grammar; and if some literal of the grammar starts here, one is found. -/
theorem string_token (s : Str) : (∀ n, antlrStr s = some n → n ≤ s.length ∧ StringLit (s.take n)) ∧ ((antlrStr s).isSome ↔ ∃ w, w <+: s ∧ StringLit w) := by
  have hs : ∀ n, antlrStr s = some n → n ≤ s.length ∧ StringLit (s.take n) := by
    intro n h
    rcases strRun_sound s _ _ _ n h with h | ⟨k, h1, h2, h3, t, ht, ha⟩
    · cases h
    · obtain ⟨b, hb, e⟩ := acc_strOpen ht ha
      rw [Nat.zero_add] at h3
      subst h3
      rw [List.flatten_nil, List.append_nil] at e
      rw [e]
      exact ⟨h2, hb⟩
  refine ⟨hs, fun h => ?_, ?_⟩
  · obtain ⟨n, hn⟩ := Option.isSome_iff_exists.1 h
    exact ⟨_, List.take_prefix n s, (hs n hn).2⟩
  · rintro ⟨w, ⟨r, rfl⟩, hw⟩
    obtain ⟨t, ht, ha⟩ := strOpen_acc (k := []) hw
    rw [List.flatten_nil, List.append_nil] at ha
    refine strRun_complete w r _ 0 (wf_strOpen fun _ h => by cases h) ⟨t, ht, ha⟩ ?_
    rintro rfl
    have := acc_nil (wf_strOpen (fun _ h => by cases h) t ht) ha
    subst this
    obtain ⟨o, c, -, h⟩ := strOpen_mem ht
    cases h

theorem lit_bounds {w : Str} (h : StringLit w) : ∃ o b c, Quotes o c ∧ w = o ++ (b ++ c) ∧ '\r' ∉ w ∧ '\n' ∉ w := by
  induction h with
  | text o b c hq h1 h2 =>
    refine ⟨o, b, c, hq, rfl, ?_, ?_⟩
    · rcases hq with ⟨rfl, rfl⟩ | ⟨rfl, rfl⟩ | ⟨rfl, rfl⟩ | ⟨rfl, rfl⟩ <;> simp [h1]
    · rcases hq with ⟨rfl, rfl⟩ | ⟨rfl, rfl⟩ | ⟨rfl, rfl⟩ | ⟨rfl, rfl⟩ <;> simp [h2]
  | nested o b c hq _ ih =>
    obtain ⟨_, _, _, _, _, h1, h2⟩ := ih
    refine ⟨o, b, c, hq, rfl, ?_, ?_⟩
    · rcases hq with ⟨rfl, rfl⟩ | ⟨rfl, rfl⟩ | ⟨rfl, rfl⟩ | ⟨rfl, rfl⟩ <;> simp [h1]
    · rcases hq with ⟨rfl, rfl⟩ | ⟨rfl, rfl⟩ | ⟨rfl, rfl⟩ | ⟨rfl, rfl⟩ <;> simp [h2]

/-- **C94** A string literal stands between equal quotes on one line. -/
theorem string_bounds (s : Str) (n : Nat) (h : antlrStr s = some n) : ∃ o b c, Quotes o c ∧ s.take n = o ++ (b ++ c) ∧ '\r' ∉ s.take n ∧ '\n' ∉ s.take n :=
  lit_bounds ((string_token s).1 n h).2

/-- **C94** A literal that is the only one with its kind of quotes on its line ends at the second quote, whatever is in it. -/
theorem only_literal (q : Char) (hq : q = '"' ∨ q = '\'') (body rest : Str) (h1 : q ∉ body) (h2 : '\r' ∉ body) (h3 : '\n' ∉ body)
    (h4 : ∀ line after, rest = line ++ after → '\r' ∉ line → '\n' ∉ line → q ∉ line) : antlrStr (q :: (body ++ q :: rest)) = some (body.length + 2) := by
  have hlit : StringLit (q :: (body ++ [q])) := by
    rcases hq with rfl | rfl
    · exact .text _ body _ (.inl ⟨rfl, rfl⟩) h2 h3
    · exact .text _ body _ (.inr (.inl ⟨rfl, rfl⟩)) h2 h3
  have hsome := (string_token (q :: (body ++ q :: rest))).2.2 ⟨_, ⟨rest, by simp⟩, hlit⟩
  obtain ⟨n, hn⟩ := Option.isSome_iff_exists.1 hsome
  rw [hn]
  obtain ⟨hle, -⟩ := (string_token _).1 n hn
  obtain ⟨o, b, c, hQ, e, g1, g2⟩ := string_bounds _ n hn
  have hlen : n = (o ++ (b ++ c)).length := by rw [← e, List.length_take, Nat.min_eq_left hle]
  have hn0 : n ≠ 0 := by
    rintro rfl
    obtain ⟨x, xs, y, ys, rfl, -, -⟩ := quotes_ne hQ
    cases hlen
  obtain ⟨n, rfl⟩ := Nat.exists_eq_succ_of_ne_zero hn0
  rw [Nat.succ_eq_add_one, List.take_succ_cons] at e g1 g2
  -- the literal starts and ends with `q`
  have hlast : ∃ u, o ++ (b ++ c) = q :: (u ++ [q]) := by
    rcases hq with rfl | rfl
    · rcases hQ with ⟨rfl, rfl⟩ | ⟨rfl, rfl⟩ | ⟨rfl, rfl⟩ | ⟨rfl, rfl⟩
      · exact ⟨b, rfl⟩
      all_goals cases e
    · rcases hQ with ⟨rfl, rfl⟩ | ⟨rfl, rfl⟩ | ⟨rfl, rfl⟩ | ⟨rfl, rfl⟩
      · cases e
      · exact ⟨b, rfl⟩
      · cases e
      · exact ⟨'\'' :: (b ++ ['\'']), by simp⟩
  obtain ⟨u, hu⟩ := hlast
  rw [hu, List.cons.injEq] at e
  replace e := e.2
  rw [List.mem_cons, not_or] at g1 g2
  replace g1 := g1.2
  replace g2 := g2.2
  have hn' : n = u.length + 1 := by
    have : n + 1 = (q :: (u ++ [q])).length := by rw [← hu]; exact hlen
    simpa using this
  -- where `q` is
  rcases Nat.lt_trichotomy u.length body.length with hlt | heq | hgt
  · -- too early: `q` in the body
    exfalso
    rw [List.take_append_of_le_length (by omega)] at e
    have : q ∈ body.take n := by rw [e]; exact List.mem_append_right _ (List.mem_singleton.2 rfl)
    exact h1 (List.mem_of_mem_take this)
  · rw [hn', heq]
  · exfalso
    rw [List.take_append, List.take_of_length_le (by omega : body.length ≤ n)] at e g1 g2
    obtain ⟨m, hm⟩ : ∃ m, n - body.length = m + 2 := ⟨n - body.length - 2, by omega⟩
    rw [hm, List.take_succ_cons] at e g1 g2
    -- the rest's part on the line
    have hq2 : q ∉ rest.take (m + 1) := by
      apply h4 (rest.take (m + 1)) (rest.drop (m + 1)) (List.take_append_drop _ _).symm
      · intro h; exact g1 (List.mem_append_right _ (List.mem_cons_of_mem _ h))
      · intro h; exact g2 (List.mem_append_right _ (List.mem_cons_of_mem _ h))
    have hl : (rest.take (m + 1)).length = m + 1 := by
      have := congrArg List.length e
      rw [List.length_append, List.length_cons, List.length_append, List.length_singleton] at this
      omega
    have hgl : (body ++ q :: rest.take (m + 1)).getLast? = some q := by rw [e]; simp
    obtain ⟨z, hz⟩ : ∃ z, (rest.take (m + 1)).getLast? = some z := by
      cases hh : (rest.take (m + 1)).getLast? with
      | some z => exact ⟨z, rfl⟩
      | none => rw [List.getLast?_eq_none_iff] at hh; rw [hh] at hl; cases hl
    rw [List.getLast?_append, List.getLast?_cons, hz] at hgl
    simp only [Option.getD_some, Option.some_or] at hgl
    cases hgl
    exact hq2 (List.mem_of_getLast? hz)

/-! #### Exact lengths -/

theorem strRun_accept (s : Str) (n : Nat) (best : Option Nat) : strRun [.accept] s n best = best := by
  cases s with
  | nil => rfl
  | cons c s => rfl

theorem next_opening_ne {ch x : Char} {xs c : Str} {k : List Str} (h : x ≠ ch) : (SThread.opening (x :: xs) c k).next ch = [] := by
  unfold SThread.next; exact if_neg h

theorem next_closing_ne {ch x : Char} {xs : Str} {k : List Str} (h : x ≠ ch) : (SThread.closing (x :: xs) k).next ch = [] := by
  unfold SThread.next; exact if_neg h

theorem next_closing_eq {x : Char} {k : List Str} : (SThread.closing [x] k).next x = [afterClosing k] := by
  unfold SThread.next; exact (if_pos rfl).trans (if_pos rfl)

theorem next_loop {ch : Char} {c : Str} {k : List Str} (h1 : ch ≠ '\r') (h2 : ch ≠ '\n') : (SThread.loop c k).next ch = litAt c k := by
  unfold SThread.next; exact if_neg (by rw [not_or]; exact ⟨h1, h2⟩)

theorem reach_cons_free {ch : Char} {t : SThread} {ts : List SThread} (h : .accept ∉ t.next ch) : reach ch false (t :: ts) = t.next ch ++ reach ch false ts := by
  rw [reach, if_neg (by simp), show (t.next ch).contains .accept = false from by rw [Bool.eq_false_iff, Ne, List.contains_iff_mem]; exact h]
  congr 1
  rw [List.filter_eq_self]
  intro _ _; rfl

theorem reach_skip {ch : Char} : ∀ {ts : List SThread}, (∀ t ∈ ts, t.passed = true) → reach ch true ts = []
  | [], _ => rfl
  | t :: ts, h => by
    unfold reach
    rw [if_pos (by rw [h t List.mem_cons_self]; rfl)]
    exact reach_skip fun t' h' => h t' (List.mem_cons_of_mem _ h')

theorem reach_hit {ch : Char} {ts : List SThread} (h : ∀ t ∈ ts, t.passed = true) : reach ch false (.closing [ch] [] :: ts) = [.accept] := by
  unfold reach
  rw [if_neg (by simp), next_closing_eq]
  have : ([afterClosing []]).contains .accept = true := by decide
  rw [this, Bool.or_true, reach_skip h]
  rfl

theorem not_accept_lit {c : Str} {k : List Str} : SThread.accept ∉ litAt c k := by
  unfold litAt
  simp

/-- The text of a plain literal, up to its closing quote. -/
theorem lit_run (q : Char) : ∀ (body rest : Str) (n : Nat), q ∉ body → '\r' ∉ body → '\n' ∉ body → q ≠ '\r' → q ≠ '\n' →
    strRun (litAt [q] []) (body ++ q :: rest) n none = some (n + body.length + 1)
  | [], rest, n, _, _, _, h1, h2 => by
    rw [List.nil_append]
    unfold strRun
    dsimp only
    have : reach q false (litAt [q] []) = [.accept] := reach_hit (by intro t ht; rw [List.mem_singleton.1 ht]; rfl)
    rw [this]
    exact strRun_accept _ _ _
  | x :: body, rest, n, hq, hr, hn, h1, h2 => by
    rw [List.mem_cons, not_or] at hq hr hn
    rw [List.cons_append]
    unfold strRun
    dsimp only
    have : reach x false (litAt [q] []) = litAt [q] [] := by
      have e1 : (SThread.closing [q] []).next x = [] := next_closing_ne hq.1
      have e2 : (SThread.loop [q] []).next x = litAt [q] [] := next_loop (fun e => hr.1 e.symm) (fun e => hn.1 e.symm)
      change reach x false [.closing [q] [], .loop [q] []] = _
      rw [reach_cons_free (by rw [e1]; exact List.not_mem_nil), reach_cons_free (by rw [e2]; exact not_accept_lit), e1, e2]
      exact List.append_nil _
    rw [this, if_neg (show ¬ (litAt [q] []).isEmpty = true from Bool.false_ne_true), if_neg (by rw [List.contains_iff_mem]; exact not_accept_lit)]
    rw [lit_run q body rest (n + 1) hq.2 hr.2 hn.2 h1 h2, List.length_cons]
    congr 1
    omega

theorem reach_dead {ch : Char} {t : SThread} {ts : List SThread} (h : t.next ch = []) : reach ch false (t :: ts) = reach ch false ts := by
  rw [reach_cons_free (by rw [h]; exact List.not_mem_nil), h]
  rfl

theorem reach_strOpen_dead {ch : Char} {k : List Str} {ts : List SThread} (h : ch ≠ '"' ∧ ch ≠ '\'' ∧ ch ≠ '\\') : reach ch false (strOpen k ++ ts) = reach ch false ts := by
  unfold strOpen
  rw [List.cons_append, List.cons_append, List.cons_append, List.cons_append, List.nil_append]
  change reach ch false (.opening ['"'] ['"'] k :: .opening ['\''] ['\''] k :: .opening ['\\', '"'] ['\\', '"'] k :: .opening ['\'', '\''] ['\'', '\''] k :: ts) = _
  rw [reach_dead (next_opening_ne fun e => h.1 e.symm), reach_dead (next_opening_ne fun e => h.2.1 e.symm), reach_dead (next_opening_ne fun e => h.2.2 e.symm),
    reach_dead (next_opening_ne fun e => h.2.1 e.symm)]

/-- **C94** The generated lexer meets what is assumed of string literals elsewhere (`StrRule`). -/
theorem antlr_strRule : StrRule antlrStr := by
  constructor
  · intro s n h
    obtain ⟨h1, -⟩ := (string_token s).1 n h
    obtain ⟨o, b, c, hq, e, -, -⟩ := string_bounds s n h
    obtain ⟨x, xs, y, ys, rfl, rfl, hx⟩ := quotes_ne hq
    cases n with
    | zero => rw [List.take_zero] at e; cases e
    | succ n =>
      cases s with
      | nil => cases e
      | cons z s =>
        rw [List.take_succ_cons, List.cons_append, List.cons.injEq] at e
        obtain ⟨rfl, -⟩ := e
        exact ⟨by omega, h1, _, _, rfl, hx⟩
  · intro q body rest hq hb h1 h2 h3 h4
    cases body with
    | nil => exact absurd rfl hb
    | cons x body =>
      have hx := h4 x body rfl
      rw [List.mem_cons, not_or] at h1 h2 h3
      have hx2 : x ≠ '\r' := fun e => h2.1 e.symm
      have hx3 : x ≠ '\n' := fun e => h3.1 e.symm
      have e2 : (SThread.loop [q] []).next x = litAt [q] [] := next_loop hx2 hx3
      have key : ∀ ts, (∀ t ∈ ts, t.next x = []) → reach x false (innerAt [q] [] ++ ts) = litAt [q] [] := by
        intro ts hts
        unfold innerAt
        rw [List.append_assoc, reach_strOpen_dead hx]
        change reach x false (.closing [q] [] :: .loop [q] [] :: ts) = _
        rw [reach_dead (next_closing_ne h1.1), reach_cons_free (by rw [e2]; exact not_accept_lit), e2]
        have : reach x false ts = [] := by
          rw [reach_keeps x ts (fun t ht => by rw [hts t ht]; exact List.not_mem_nil)]
          rw [List.flatten_eq_nil_iff]
          intro l hl
          obtain ⟨t, ht, rfl⟩ := List.mem_map.1 hl
          exact hts t ht
        rw [this]
        exact List.append_nil _
      have hqr : q ≠ '\r' ∧ q ≠ '\n' := by rcases hq with rfl | rfl <;> decide
      have main : ∀ ts, reach q false (strOpen []) = innerAt [q] [] ++ ts → (∀ t ∈ ts, t.next x = []) → antlrStr (q :: (x :: body ++ q :: rest)) = some ((x :: body).length + 2) := by
        intro ts e hts
        unfold antlrStr strRun
        dsimp only
        rw [e, if_neg (by unfold innerAt strOpen; simp), List.cons_append]
        unfold strRun
        dsimp only
        have hna : (innerAt [q] [] ++ ts).contains .accept = false := by
          rw [← e]
          rcases hq with rfl | rfl <;> decide +kernel
        rw [key ts hts, hna, if_neg (show ¬ (litAt [q] []).isEmpty = true from Bool.false_ne_true), if_neg (by rw [List.contains_iff_mem]; exact not_accept_lit), if_neg Bool.false_ne_true]
        rw [lit_run q body rest _ h1.2 h2.2 h3.2 hqr.1 hqr.2, List.length_cons]
        congr 1
        omega
      rcases hq with rfl | rfl
      · exact main [] (by decide +kernel) (fun _ h => by cases h)
      · exact main [.opening "'".toList "''".toList []] (by decide +kernel) (fun t ht => by rw [List.mem_singleton.1 ht]; exact next_opening_ne fun e => hx.2.1 e.symm)

/-- Configurations of the outer literal's own text. -/
def Outer (q : Char) (t : SThread) : Prop := t = .closing [q] [] ∨ t = .loop [q] [] ∨ t = .accept

theorem outer_passed {q : Char} {t : SThread} (h : Outer q t) : t.passed = true := by
  rcases h with rfl | rfl | rfl <;> rfl

theorem outer_reach {q ch : Char} {B : List SThread} (h : ∀ t ∈ B, Outer q t) : ∀ t ∈ reach ch false B, Outer q t := by
  intro n hn
  obtain ⟨t, ht, hn⟩ := reach_mem ch _ B n hn
  rcases h t ht with rfl | rfl | rfl
  · unfold SThread.next at hn
    dsimp only at hn
    split at hn
    · rw [if_pos (show ([] : Str).isEmpty = true from rfl), List.mem_singleton] at hn
      exact .inr (.inr hn)
    · cases hn
  · unfold SThread.next at hn
    dsimp only at hn
    split at hn
    · cases hn
    · unfold litAt at hn
      simp only [List.mem_cons, List.not_mem_nil, or_false] at hn
      rcases hn with rfl | rfl
      · exact .inl rfl
      · exact .inr (.inl rfl)
  · cases hn

/-- Before the closing quote of the outer literal, if the inner one has just been closed. -/
def pend (q : Char) (a : Bool) : List SThread := if a then [.closing [q] []] else []

/-- One character of the text in the inner literal. -/
theorem nested_step (q q' x : Char) (a : Bool) (B : List SThread) (hB : ∀ t ∈ B, Outer q t) (hr : x ≠ '\r') (hn : x ≠ '\n') (ha : a = true → x ≠ q) :
    ∃ B', (∀ t ∈ B', Outer q t) ∧ reach x false (pend q a ++ (litAt [q'] [[q]] ++ B)) = pend q (x == q') ++ (litAt [q'] [[q]] ++ B') := by
  refine ⟨reach x false B, outer_reach hB, ?_⟩
  have h0 : reach x false (pend q a ++ (litAt [q'] [[q]] ++ B)) = reach x false (litAt [q'] [[q]] ++ B) := by
    cases a with
    | false => rfl
    | true => exact reach_dead (next_closing_ne fun e => ha rfl e.symm)
  rw [h0]
  change reach x false (.closing [q'] [[q]] :: .loop [q'] [[q]] :: B) = _
  have e2 : (SThread.loop [q'] [[q]]).next x = litAt [q'] [[q]] := next_loop hr hn
  by_cases hx : x = q'
  · subst hx
    have e1 : (SThread.closing [x] [[q]]).next x = [.closing [q] []] := next_closing_eq
    rw [reach_cons_free (by rw [e1]; simp), reach_cons_free (by rw [e2]; exact not_accept_lit), e1, e2, beq_self_eq_true]
    rfl
  · rw [reach_dead (next_closing_ne fun e => hx e.symm), reach_cons_free (by rw [e2]; exact not_accept_lit), e2]
    rw [show (x == q') = false from by rw [beq_eq_false_iff_ne]; exact hx]
    rfl

theorem nested_nonempty (q q' : Char) (a : Bool) (B : List SThread) : (pend q a ++ (litAt [q'] [[q]] ++ B)).isEmpty = false := by
  cases a <;> rfl

theorem nested_run (q q' : Char) (hq : q ≠ '\r' ∧ q ≠ '\n') (hq' : q' ≠ '\r' ∧ q' ≠ '\n') (rest : Str) : ∀ (X : Str) (a : Bool) (B : List SThread) (n : Nat) (best : Option Nat), (∀ t ∈ B, Outer q t) →
    '\r' ∉ X → '\n' ∉ X → ¬ [q', q] <:+: (if a then [q'] else []) ++ (X ++ [q']) →
    strRun (pend q a ++ (litAt [q'] [[q]] ++ B)) (X ++ q' :: q :: rest) n best = some (n + X.length + 2)
  | [], a, B, n, best, hB, _, _, hno => by
    have ha : a = true → q' ≠ q := by
      rintro rfl rfl
      exact hno ⟨[], [], rfl⟩
    obtain ⟨B', hB', e⟩ := nested_step q q' q' a B hB hq'.1 hq'.2 ha
    rw [List.nil_append]
    unfold strRun
    dsimp only
    rw [e, nested_nonempty, if_neg Bool.false_ne_true, beq_self_eq_true]
    unfold strRun
    dsimp only
    have hit : reach q false (pend q true ++ (litAt [q'] [[q]] ++ B')) = [.accept] := by
      refine reach_hit ?_
      intro t ht
      have ht : t ∈ litAt [q'] [[q]] ++ B' := ht
      rcases List.mem_append.1 ht with ht | ht
      · unfold litAt at ht
        simp only [List.mem_cons, List.not_mem_nil, or_false] at ht
        rcases ht with rfl | rfl <;> rfl
      · exact outer_passed (hB' t ht)
    rw [hit]
    exact strRun_accept _ _ _
  | x :: X, a, B, n, best, hB, hr, hn, hno => by
    rw [List.mem_cons, not_or] at hr hn
    have ha : a = true → x ≠ q := by
      rintro rfl rfl
      exact hno ⟨[], X ++ [q'], rfl⟩
    obtain ⟨B', hB', e⟩ := nested_step q q' x a B hB (fun e => hr.1 e.symm) (fun e => hn.1 e.symm) ha
    rw [List.cons_append]
    unfold strRun
    dsimp only
    rw [e, nested_nonempty, if_neg Bool.false_ne_true]
    rw [nested_run q q' hq hq' rest X (x == q') B' (n + 1) _ hB' hr.2 hn.2 ?_]
    · rw [List.length_cons]
      congr 1
      omega
    · rintro ⟨s, t, hst⟩
      refine hno ?_
      by_cases hx : x = q'
      · subst hx
        rw [beq_self_eq_true] at hst
        refine ⟨(if a then [x] else []) ++ s, t, ?_⟩
        rw [List.append_assoc, List.append_assoc, ← List.append_assoc s, hst]
        rfl
      · rw [show (x == q') = false from by rw [beq_eq_false_iff_ne]; exact hx] at hst
        refine ⟨(if a then [q'] else []) ++ (x :: s), t, ?_⟩
        rw [List.append_assoc, List.append_assoc, List.cons_append, ← List.append_assoc s, hst]
        rfl

/-- The configuration expects a quote, or is in the loop, or at the end. -/
def SThread.quoteHead : SThread → Bool
  | .opening (y :: _) _ _ => y == '"' || y == '\'' || y == '\\'
  | .closing (y :: _) _ => y == '"' || y == '\'' || y == '\\'
  | .opening [] _ _ => false
  | .closing [] _ => false
  | .loop _ _ => true
  | .accept => true

def SThread.looping : SThread → List SThread
  | .loop c k => litAt c k
  | _ => []

theorem next_plain {x : Char} (hx : x ≠ '"' ∧ x ≠ '\'' ∧ x ≠ '\\') (hr : x ≠ '\r') (hn : x ≠ '\n') {t : SThread} (ht : t.quoteHead = true) : t.next x = t.looping := by
  have key : ∀ y : Char, (y == '"' || y == '\'' || y == '\\') = true → y ≠ x := by
    rintro y hy rfl
    rw [Bool.or_eq_true, Bool.or_eq_true, beq_iff_eq, beq_iff_eq, beq_iff_eq] at hy
    rcases hy with (h | h) | h
    · exact hx.1 h
    · exact hx.2.1 h
    · exact hx.2.2 h
  cases t with
  | opening cs c k =>
    cases cs with
    | nil => cases ht
    | cons y ys => exact next_opening_ne (key y ht)
  | closing cs k =>
    cases cs with
    | nil => cases ht
    | cons y ys => exact next_closing_ne (key y ht)
  | loop c k => exact next_loop hr hn
  | accept => rfl

theorem reach_plain {x : Char} (hx : x ≠ '"' ∧ x ≠ '\'' ∧ x ≠ '\\') (hr : x ≠ '\r') (hn : x ≠ '\n') {ts : List SThread} (ht : ts.all SThread.quoteHead = true) :
    reach x false ts = (ts.map SThread.looping).flatten := by
  rw [List.all_eq_true] at ht
  rw [reach_keeps x ts]
  · congr 1
    exact List.map_congr_left fun t h => next_plain hx hr hn (ht t h)
  · intro t h
    rw [next_plain hx hr hn (ht t h)]
    cases t with
    | loop c k => exact not_accept_lit
    | _ => exact List.not_mem_nil

/-- **C94** A literal whose text starts with a quote does not end at the next quote of its own kind: up to the first place where the inner and the outer quote stand together, the line is one literal. -/
theorem quoted_start (q q' : Char) (hq : q = '"' ∨ q = '\'') (hq' : q' = '"' ∨ q' = '\'') (x : Char) (X rest : Str) (hx : x ≠ '"' ∧ x ≠ '\'' ∧ x ≠ '\\') (hr : '\r' ∉ x :: X) (hn : '\n' ∉ x :: X)
    (hno : ¬ [q', q] <:+: X ++ [q']) : antlrStr (q :: q' :: x :: (X ++ q' :: q :: rest)) = some (X.length + 5) := by
  rw [List.mem_cons, not_or] at hr hn
  have hqr : q ≠ '\r' ∧ q ≠ '\n' := by rcases hq with rfl | rfl <;> decide
  have hqr' : q' ≠ '\r' ∧ q' ≠ '\n' := by rcases hq' with rfl | rfl <;> decide
  have facts : (reach q false (strOpen [])).isEmpty = false ∧ (reach q' false (reach q false (strOpen []))).isEmpty = false ∧
      (reach q' false (reach q false (strOpen []))).all SThread.quoteHead = true ∧
      ((reach q' false (reach q false (strOpen []))).map SThread.looping).flatten = litAt [q'] [[q]] ++ (if q = q' then [] else litAt [q] []) := by
    rcases hq with rfl | rfl <;> rcases hq' with rfl | rfl <;> decide +kernel
  obtain ⟨f1, f2, f3, f4⟩ := facts
  have hB : ∀ t ∈ (if q = q' then [] else litAt [q] []), Outer q t := by
    intro t ht
    split at ht
    · cases ht
    · unfold litAt at ht
      simp only [List.mem_cons, List.not_mem_nil, or_false] at ht
      rcases ht with rfl | rfl
      · exact .inl rfl
      · exact .inr (.inl rfl)
  have hreach : reach x false (reach q' false (reach q false (strOpen []))) = pend q false ++ (litAt [q'] [[q]] ++ (if q = q' then [] else litAt [q] [])) := by
    rw [reach_plain hx (fun e => hr.1 e.symm) (fun e => hn.1 e.symm) f3, f4]
    rfl
  unfold antlrStr strRun
  dsimp only
  rw [f1, if_neg Bool.false_ne_true]
  unfold strRun
  dsimp only
  rw [f2, if_neg Bool.false_ne_true]
  unfold strRun
  dsimp only
  rw [hreach, nested_nonempty, if_neg Bool.false_ne_true]
  rw [nested_run q q' hqr hqr' rest X false _ _ _ hB hr.2 hn.2 hno]
  congr 1
  omega

/-- **C94** In particular two empty literals on a line are one literal, with everything between them. -/
theorem two_empty_literals (q : Char) (hq : q = '"' ∨ q = '\'') (x : Char) (X rest : Str) (hx : x ≠ '"' ∧ x ≠ '\'' ∧ x ≠ '\\') (hr : '\r' ∉ x :: X) (hn : '\n' ∉ x :: X) (hX : q ∉ X) :
    antlrStr ([q, q] ++ (x :: X ++ ([q, q] ++ rest))) = some ([q, q] ++ (x :: X ++ [q, q])).length := by
  have := quoted_start q q hq hq x X rest hx hr hn ?_
  · refine this.trans ?_
    simp
  · rintro ⟨s, t, h⟩
    have hc := congrArg (List.count q) h
    rw [List.count_append, List.count_append, List.count_append] at hc
    have h0 : List.count q X = 0 := List.count_eq_zero.2 hX
    simp [h0] at hc
    omega

/-! ### Examples -/

/-- Plain literals; a literal with the other quote or an escape in it; the findings. -/
example : antlrStr "\"abc\" or \"d\"".toList = some 5 ∧ antlrStr "\"it's\" c".toList = some 6 ∧ antlrStr "\\\"ab\\\" x".toList = some 6 ∧ antlrStr "'\"a b\"' x".toList = some 7 ∧
    antlrStr "\"open\n\"".toList = none ∧ antlrStr "\"\" # '".toList = some 2 := by decide +kernel

example : antlrStr "\"\" or b = \"\" and c".toList = some 12 := two_empty_literals '"' (.inl rfl) ' ' "or b = ".toList " and c".toList (by decide) (by decide +kernel) (by decide +kernel) (by decide +kernel)

/-- A condition with two empty literals is a comparison of the first field with the text in between. -/
example : tokens antlrStr "a = \"\" or b = \"\"".toList = [⟨.ID, "a".toList⟩, ⟨.EQ, "=".toList⟩, ⟨.STRING, "\"\" or b = \"\"".toList⟩] := by decide +kernel

/-- With one empty literal it is what it seems to be. -/
example : tokens antlrStr "a = \"\" or b = \"x\"".toList =
    [⟨.ID, "a".toList⟩, ⟨.EQ, "=".toList⟩, ⟨.STRING, "\"\"".toList⟩, ⟨.OR, "or".toList⟩, ⟨.ID, "b".toList⟩, ⟨.EQ, "=".toList⟩, ⟨.STRING, "\"x\"".toList⟩] := by decide +kernel

end Verif.Falco
