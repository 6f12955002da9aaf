import Verif.Proofs.StackChain
import Verif.Proofs.StackCost
import Verif.Proofs.StackTree
import Verif.Proofs.StackTurns
import Verif.Props.Grammar
import Verif.Props.Limit
/-!
C123: how deep the parser's recursion gets.
-/

namespace Aql
open Spec

variable (E : Env)

/-- **C123.** The count belongs to the run that C01 to C03 are about: the counting interpreter returns what
the other one returns. -/
theorem C123_same_run (query : List UInt8) : ∃ l r d, runStart E (decode query) = .done l r ∧
    dRun E (depthBound (decode query).length) ⟨false, []⟩ (grammar .Start) [] (.init (decode query)) = some (r, d) ∧
    stackDepth E (decode query) = some d := by
  obtain ⟨d, hd, -⟩ := stackDepth_le (E := E) (decode query)
  have hd' := hd
  rw [stackDepth] at hd
  have hs := dRun_same (E := E) (depthBound (decode query).length) ⟨false, []⟩ (grammar .Start) [] (.init (decode query))
  rcases hr : dRun E (depthBound (decode query).length) ⟨false, []⟩ (grammar .Start) [] (.init (decode query)) with
    _ | ⟨r, d'⟩
  · rw [hr] at hd; cases hd
  · rw [hr] at hd hs
    cases hd
    rcases ho : run E (depthBound (decode query).length) ⟨false, []⟩ (grammar .Start) [] (.init (decode query)) with
      _ | ⟨l, r'⟩
    · rw [ho] at hs; cases hs
    · rw [ho] at hs
      cases hs
      refine ⟨encErr (.init (decode query)) ++ l, _, _, ?_, rfl, hd'⟩
      rw [runStart, ho]
      rfl

/-- **C123.** The count is what it should be: some chain of calls, each made by the one before it, is that
long, and none is longer. -/
theorem C123_longest_chain (query : List UInt8) (d : Nat) : stackDepth E (decode query) = some d ↔
    Chain E d (firstCall (decode query)) ∧ ∀ n, Chain E n (firstCall (decode query)) → n ≤ d := by
  obtain ⟨l, r, d0, -, hr, hd⟩ := C123_same_run E query
  have h1 : Chain E d0 (firstCall (decode query)) := dRun_chain _ _ _ _ _ _ _ hr
  have h2 : ∀ n, Chain E n (firstCall (decode query)) → n ≤ d0 := fun n hn => chain_counted hn _ _ _ hr
  rw [hd]
  constructor
  · rintro ⟨⟩
    exact ⟨h1, h2⟩
  · rintro ⟨h3, h4⟩
    exact congrArg some (Nat.le_antisymm (h4 _ h1) (h2 _ h3))

/-- **C123.** Whatever the input, the recursion is at most forty activations deep for every character, plus
39; and at most fifty deep but for the parentheses and logical words in it: seventeen for every opening
parenthesis, three for every negation, five for every AND or OR. -/
theorem C123_bounded (query : List UInt8) : ∃ d, stackDepth E (decode query) = some d ∧
    d ≤ 40 * (decode query).length + 39 ∧ d ≤ turns ((decode query).map Sym.rune) + 50 := by
  obtain ⟨d, hd, hle⟩ := stackDepth_le (E := E) (decode query)
  exact ⟨d, hd, by omega, stackDepth_turns _ d hd⟩

/-- **C123.** Without parentheses and logical words the depth is at most fifty, however long the text is. -/
theorem C123_flat (s : Str) (h : turns s = 0) : ∃ d ≤ 50, stackDepth E (decode (utf8 s)) = some d := by
  obtain ⟨d, hd, -, hle⟩ := C123_bounded E (utf8 s)
  rw [decode_utf8, List.map_map, show (Sym.rune ∘ Sym.ok) = id from rfl, List.map_id, h] at hle
  exact ⟨d, by omega, hd⟩

/-- **C123.** Any text that begins with `n` opening parentheses, whether it is a query or not, makes the
recursion at least `17 * n` deep. -/
theorem C123_parentheses (n : Nat) (t : Str) :
    ∃ d, stackDepth E (decode (utf8 (List.replicate n '(' ++ t))) = some d ∧ 17 * n ≤ d := by
  obtain ⟨d, hd, -⟩ := C123_bounded E (utf8 (List.replicate n '(' ++ t))
  refine ⟨d, hd, ?_⟩
  rw [decode_utf8, List.map_append] at hd
  have := stackDepth_parens (E := E) _ _ (by
    intro s hs
    obtain ⟨c, hc, rfl⟩ := List.mem_map.1 hs
    exact (List.mem_replicate.1 hc).2) d hd
  simpa using this

/-- **C123.** The recursion is never deeper than the number of evaluations. So a text that the parser accepts
with `MaxExpressions` needs no more depth than that maximum, and one that begins with more than a seventeenth
as many parentheses is not accepted. -/
theorem C123_maximum (query : List UInt8) :
    (∃ d, stackDepth E (decode query) = some d ∧ d ≤ exprCount E (decode query)) ∧
    (∀ o v, o.memoize = false → HasMax o → oParse E o (decode query) = some (.out (.value v)) →
      ∃ d ≤ o.maxExprs, stackDepth E (decode query) = some d) ∧
    ∀ o n t v, o.memoize = false → HasMax o → o.maxExprs < 17 * n →
      oParse E o (decode (utf8 (List.replicate n '(' ++ t))) ≠ some (.out (.value v)) := by
  have count : ∀ query : List UInt8, ∃ d, stackDepth E (decode query) = some d ∧ d ≤ exprCount E (decode query) := by
    intro query
    obtain ⟨l, r, d, hl, hr, hd⟩ := C123_same_run E query
    refine ⟨d, hd, ?_⟩
    unfold exprCount
    rw [hl]
    rw [runStart] at hl
    rcases ho : run E (depthBound (decode query).length) ⟨false, []⟩ (grammar .Start) [] (.init (decode query)) with
      _ | ⟨l1, r1⟩
    · rw [ho] at hl; cases hl
    · rw [ho] at hl
      cases hl
      have h1 := (dRun_paid _ _ _ _ _ _ _ _ _ hr ho).2
      have h2 := ticks_append (encErr (.init (decode query))) (l1 ++ [])
      rw [List.append_nil] at h2
      show _ ≤ ticks _
      omega
  have accepted : ∀ (query : List UInt8) o v, o.memoize = false → HasMax o →
      oParse E o (decode query) = some (.out (.value v)) → ∃ d ≤ o.maxExprs, stackDepth E (decode query) = some d := by
    intro query o v hm hx ho
    obtain ⟨d, hd, hle⟩ := count query
    exact ⟨d, hle.trans (((C116_accepts_iff E o hm hx.2.le _ v).1 ho).2 hx), hd⟩
  refine ⟨count query, accepted query, ?_⟩
  intro o n t v hm hx hn ho
  obtain ⟨d, hle, hd⟩ := accepted _ o v hm hx ho
  obtain ⟨d', hd', hge⟩ := C123_parentheses E n t
  rw [hd] at hd'
  cases hd'
  omega

/-- **C123.** The tree of an accepted query is never higher than a fifth of the depth. -/
theorem C123_tree_height (s : Str) (n : Node) (h : Query E s n) :
    ∃ d, stackDepth E (decode (utf8 s)) = some d ∧ 5 * treeHeight n + 7 ≤ d := by
  obtain ⟨d, hd, -⟩ := C123_bounded E (utf8 s)
  refine ⟨d, hd, ?_⟩
  rw [decode_utf8] at hd
  exact stackDepth_height h hd

/-! ### The rates are exact -/

/-- `n + 1` comparisons joined by a word. -/
def wordRow (w : Str) : Nat → Str
  | 0 => "a:exists".toList
  | n + 1 => "a:exists ".toList ++ (w ++ ' ' :: wordRow w n)

/-- `n` negated parentheses inside one another. -/
def notNest : Nat → Str
  | 0 => "a:exists".toList
  | n + 1 => '!' :: '(' :: (notNest n ++ [')'])

theorem occurs_close {w : Str} (h : ')' ∉ w) (hw : w ≠ []) (s t : Str) :
    occurs w (s ++ ')' :: t) = occurs w s + occurs w t := by
  have hp : ∀ l : Str, w <+: l ++ ')' :: t ↔ w <+: l := by
    intro l
    constructor
    · intro hl
      rcases List.prefix_or_prefix_of_prefix hl (show l ++ [')'] <+: l ++ ')' :: t from ⟨t, by simp⟩) with h1 | h1
      · rcases List.prefix_concat_iff.1 h1 with rfl | h2
        · exact absurd (by simp) h
        · exact h2
      · exact absurd (h1.subset (by simp)) h
    · intro hl; exact hl.trans (List.prefix_append _ _)
  induction s with
  | nil =>
    show (if w <+: ')' :: t then 1 else 0) + occurs w t = 0 + occurs w t
    rw [if_neg]
    intro hl
    exact hw (List.prefix_nil.1 ((hp []).1 hl))
  | cons c s ih =>
    rw [List.cons_append, occurs, occurs, ih]
    have := hp (c :: s)
    rw [List.cons_append] at this
    simp only [this]
    omega

theorem turns_close (s t : Str) : turns (s ++ ')' :: t) = turns s + turns t := by
  unfold turns
  rw [occurs_close (by decide) (by decide), occurs_close (by decide) (by decide), occurs_close (by decide) (by decide),
    occurs_close (by decide) (by decide), occurs_close (by decide) (by decide)]
  omega

theorem turns_open (s : Str) : turns ('(' :: s) = turns s + 17 := by
  simp [turns, occurs, List.cons_prefix_cons]
  omega

theorem turns_bang (s : Str) : turns ('!' :: s) = turns s + 3 := by
  simp [turns, occurs, List.cons_prefix_cons]
  omega

theorem nest_turns (n : Nat) : turns (nest n "a:exists".toList) = 17 * n := by
  induction n with
  | zero => decide +kernel
  | succ n ih =>
    rw [nest, turns_open, turns_close, ih]
    show 17 * n + 0 + 17 = _
    omega

theorem notNest_turns (n : Nat) : turns (notNest n) = 20 * n := by
  induction n with
  | zero => decide +kernel
  | succ n ih =>
    have e : notNest (n + 1) = '!' :: '(' :: (notNest n ++ [')']) := rfl
    rw [e, turns_bang, turns_open, turns_close, ih]
    show 20 * n + 0 + 17 + 3 = _
    omega

theorem turns_plain {c : Char} (s : Str) (h : c ∉ ['(', '!', 'N', 'O', 'A']) : turns (c :: s) = turns s := by
  simp only [List.mem_cons, List.not_mem_nil, or_false, not_or] at h
  have hp : ∀ (x : Char) (w : Str), c ≠ x → occurs (x :: w) (c :: s) = occurs (x :: w) s := by
    intro x w hx
    rw [occurs, if_neg (by rw [List.cons_prefix_cons]; exact fun h => hx h.1.symm), Nat.zero_add]
  show 17 * occurs ['('] (c :: s) + 3 * (occurs ['!'] (c :: s) + occurs ['N', 'O', 'T'] (c :: s)) +
    5 * (occurs ['O', 'R'] (c :: s) + occurs ['A', 'N', 'D'] (c :: s)) = _
  rw [hp _ _ h.1, hp _ _ h.2.1, hp _ _ h.2.2.1, hp _ _ h.2.2.2.1, hp _ _ h.2.2.2.2]
  rfl

theorem turns_or (s : Str) : turns ('O' :: 'R' :: ' ' :: s) = turns s + 5 := by
  have : turns ('O' :: 'R' :: ' ' :: s) = turns ('R' :: ' ' :: s) + 5 := by
    simp [turns, occurs, List.cons_prefix_cons]
    omega
  rw [this, turns_plain _ (by decide), turns_plain _ (by decide)]

theorem turns_and (s : Str) : turns ('A' :: 'N' :: 'D' :: ' ' :: s) = turns s + 5 := by
  have : turns ('A' :: 'N' :: 'D' :: ' ' :: s) = turns ('D' :: ' ' :: s) + 5 := by
    simp [turns, occurs, List.cons_prefix_cons]
    omega
  rw [this, turns_plain _ (by decide), turns_plain _ (by decide)]

theorem turns_exists (s : Str) : turns ("a:exists ".toList ++ s) = turns s := by
  show turns ('a' :: ':' :: 'e' :: 'x' :: 'i' :: 's' :: 't' :: 's' :: ' ' :: s) = _
  rw [turns_plain _ (by decide), turns_plain _ (by decide), turns_plain _ (by decide), turns_plain _ (by decide),
    turns_plain _ (by decide), turns_plain _ (by decide), turns_plain _ (by decide), turns_plain _ (by decide),
    turns_plain _ (by decide)]

theorem wordRow_turns {w : Str} (hw : w = "OR".toList ∨ w = "AND".toList) (n : Nat) : turns (wordRow w n) = 5 * n := by
  induction n with
  | zero => show turns "a:exists".toList = 0; decide +kernel
  | succ n ih =>
    have e : wordRow w (n + 1) = "a:exists ".toList ++ (w ++ ' ' :: wordRow w n) := rfl
    rw [e, turns_exists]
    rcases hw with rfl | rfl
    · have := turns_or (wordRow "OR".toList n)
      show turns ('O' :: 'R' :: ' ' :: _) = _
      omega
    · have := turns_and (wordRow "AND".toList n)
      show turns ('A' :: 'N' :: 'D' :: ' ' :: _) = _
      omega

theorem exists_low (pre : Str) : ∃ r, Text E .cmp pre "a:exists".toList r ∧ treeHeight r = 0 := by
  obtain ⟨r, h⟩ := exists_text E pre
  refine ⟨r, h, ?_⟩
  cases h <;> rfl

theorem orRow_text (n : Nat) : ∀ pre, ∃ r, Text E .or pre (wordRow "OR".toList n) r ∧ treeHeight r = n := by
  induction n with
  | zero =>
    intro pre
    obtain ⟨r, h, h0⟩ := exists_low E pre
    exact ⟨r, .orAnd (.andNot (.notCmp h)), h0⟩
  | succ n ih =>
    intro pre
    obtain ⟨l, h, h0⟩ := exists_low E pre
    obtain ⟨r, h', hn⟩ := ih (pre ++ ("a:exists".toList ++ ([' '] ++ ("OR".toList ++ [' ']))))
    refine ⟨_, .or (.andNot (.notCmp h)) (w1 := [' ']) (by decide) (w2 := [' ']) (by decide) h', ?_⟩
    simp only [treeHeight, h0, hn]
    omega

theorem andRow_text (n : Nat) : ∀ pre, ∃ r, Text E .and pre (wordRow "AND".toList n) r ∧ treeHeight r = n := by
  induction n with
  | zero =>
    intro pre
    obtain ⟨r, h, h0⟩ := exists_low E pre
    exact ⟨r, .andNot (.notCmp h), h0⟩
  | succ n ih =>
    intro pre
    obtain ⟨l, h, h0⟩ := exists_low E pre
    obtain ⟨r, h', hn⟩ := ih (pre ++ ("a:exists".toList ++ ([' '] ++ ("AND".toList ++ [' ']))))
    refine ⟨_, .and (.notCmp h) (w1 := [' ']) (by decide) (w2 := [' ']) (by decide) h', ?_⟩
    simp only [treeHeight, h0, hn]
    omega

theorem notNest_text (n : Nat) : ∀ pre, ∃ r, Text E .not pre (notNest n) r := by
  induction n with
  | zero =>
    intro pre
    obtain ⟨r, h⟩ := exists_text E pre
    exact ⟨r, .notCmp h⟩
  | succ n ih =>
    intro pre
    obtain ⟨r, h⟩ := ih (pre ++ ['!'] ++ ['('])
    exact ⟨_, .not (k := ['!']) (.bang (w := []) ws_nil) (.group (w1 := []) (w2 := []) ws_nil (.orAnd (.andNot h)) ws_nil)⟩

theorem notNest_deep (n : Nat) : ∀ ctx pre b fr f r d,
    dRun E f ctx (.rule .OrClause) fr (cur pre (notNest n ++ b)) = some (r, d) → 20 * n ≤ d := by
  induction n with
  | zero => intro ctx pre b fr f r d _; omega
  | succ n ih =>
    intro ctx pre b fr f r d hd
    obtain ⟨m, hm⟩ := notNest_text E n []
    have e : notNest (n + 1) ++ b = '!' :: '(' :: (notNest n ++ ')' :: b) := by
      show '!' :: '(' :: (notNest n ++ [')']) ++ b = _
      simp
    rw [e] at hd
    obtain ⟨f', r', d', hd', hle⟩ := leads_not_group (E := E) (b := ')' :: b) (text_notWs hm) f r d hd
    have := ih _ _ _ _ _ _ _ hd'
    omega

theorem notNest_start {n d : Nat} (h : stackDepth E ((notNest n).map .ok) = some d) : 20 * n ≤ d := by
  rw [stackDepth, cur_init] at h
  rcases hr : dRun E (depthBound ((notNest n).map Sym.ok).length) ⟨false, []⟩ (grammar .Start) []
      (cur [] (notNest n)) with _ | ⟨r, d'⟩
  · rw [hr] at h; cases h
  · rw [hr] at h
    cases h
    obtain ⟨m, hm⟩ := notNest_text E n []
    have hw : NoHead IsWs (notNest n) := by simpa using text_notWs (b := []) hm
    have hs := leads_seq_cur (E := E) (ctx := ⟨false, []⟩) (pre := []) (a := []) (b := notNest n)
      (es := [.rule .ws]) (e := .label .clause (.rule .OrClause)) (es' := [.rule .ws]) (fr := []) (fr' := [])
      (s := notNest n) (v := .list [.list (charVals [])])
      (by
        simp only [OkS, okR]
        exact ⟨_, [], notNest n, _, ⟨rfl, ws_ok ws_nil hw⟩, [], by simp, rfl, rfl, rfl, rfl⟩)
    have hl : Leads E ⟨false, []⟩ (grammar .Start) [] (cur [] (notNest n)) 7 (.rule .OrClause) []
        (cur ([] ++ []) (notNest n)) :=
      leads_action.trans <| leads_seq.trans <| leads_label.trans <| leads_rule.trans <| leads_action.trans <|
      hs.trans leads_label
    obtain ⟨f', r', d'', hd', hle⟩ := hl _ _ _ hr
    have := notNest_deep E n _ _ [] _ _ _ _ (by rw [List.append_nil]; exact hd')
    show _ ≤ d'
    omega

theorem bounded_text (s : Str) : ∃ d, stackDepth E (decode (utf8 s)) = some d ∧ d ≤ turns s + 50 := by
  obtain ⟨d, hd, -, hle⟩ := C123_bounded E (utf8 s)
  rw [decode_utf8, List.map_map, show (Sym.rune ∘ Sym.ok) = id from rfl, List.map_id] at hle
  exact ⟨d, hd, hle⟩

theorem nest_begins (n : Nat) (t : Str) : ∃ u, nest n t = List.replicate n '(' ++ u := by
  induction n with
  | zero => exact ⟨t, rfl⟩
  | succ n ih =>
    obtain ⟨u, hu⟩ := ih
    exact ⟨u ++ [')'], by rw [nest, hu, List.replicate_succ]; simp⟩

/-- **C123.** The rates are exact, on accepted queries: seventeen for parentheses inside one another, twenty
if they are negated, five for a row of ORs or ANDs. -/
theorem C123_rates (n : Nat) :
    ((∃ m, Query E (nest n "a:exists".toList) m) ∧
      ∃ d, stackDepth E (decode (utf8 (nest n "a:exists".toList))) = some d ∧ 17 * n ≤ d ∧ d ≤ 17 * n + 50) ∧
    ((∃ m, Query E (notNest n) m) ∧
      ∃ d, stackDepth E (decode (utf8 (notNest n))) = some d ∧ 20 * n ≤ d ∧ d ≤ 20 * n + 50) ∧
    ∀ w, w = "OR".toList ∨ w = "AND".toList → (∃ m, Query E (wordRow w n) m) ∧
      ∃ d, stackDepth E (decode (utf8 (wordRow w n))) = some d ∧ 5 * n ≤ d ∧ d ≤ 5 * n + 50 := by
  refine ⟨⟨?_, ?_⟩, ⟨?_, ?_⟩, ?_⟩
  · obtain ⟨m, hm⟩ := nest_text (exists_text E) n []
    exact ⟨m, [], _, [], ws_nil, ws_nil, .orAnd (.andNot (.notCmp hm)), by simp⟩
  · obtain ⟨d, hd, hle⟩ := bounded_text E (nest n "a:exists".toList)
    rw [nest_turns] at hle
    refine ⟨d, hd, ?_, hle⟩
    obtain ⟨u, hu⟩ := nest_begins n "a:exists".toList
    obtain ⟨d', hd', h⟩ := C123_parentheses E n u
    rw [← hu, hd] at hd'
    cases hd'
    exact h
  · obtain ⟨m, hm⟩ := notNest_text E n []
    exact ⟨m, [], _, [], ws_nil, ws_nil, .orAnd (.andNot hm), by simp⟩
  · obtain ⟨d, hd, hle⟩ := bounded_text E (notNest n)
    rw [notNest_turns] at hle
    refine ⟨d, hd, ?_, hle⟩
    rw [decode_utf8] at hd
    exact notNest_start E hd
  · intro w hw
    have ht : ∃ m, Query E (wordRow w n) m ∧ treeHeight m = n := by
      rcases hw with rfl | rfl
      · obtain ⟨m, hm, h0⟩ := orRow_text E n []
        exact ⟨m, ⟨[], _, [], ws_nil, ws_nil, hm, by simp⟩, h0⟩
      · obtain ⟨m, hm, h0⟩ := andRow_text E n []
        exact ⟨m, ⟨[], _, [], ws_nil, ws_nil, .orAnd hm, by simp⟩, h0⟩
    obtain ⟨m, hm, h0⟩ := ht
    obtain ⟨d, hd, hle⟩ := bounded_text E (wordRow w n)
    rw [wordRow_turns hw] at hle
    obtain ⟨d', hd', h⟩ := C123_tree_height E _ m hm
    rw [hd] at hd'
    cases hd'
    exact ⟨⟨m, hm⟩, d, hd, by omega, hle⟩

/-- **C123.** No bound holds for all queries: for every depth there is an accepted query that exceeds it, and
an eighth as many characters are enough. -/
theorem C123_unbounded (D : Nat) : ∃ s n d, Query E s n ∧ s.length ≤ D / 8 + 10 ∧
    stackDepth E (decode (utf8 s)) = some d ∧ D < d := by
  obtain ⟨⟨⟨m, hm⟩, d, hd, hlo, -⟩, -⟩ := C123_rates E (D / 17 + 1)
  refine ⟨_, m, d, hm, ?_, hd, by omega⟩
  rw [nest_length, show ("a:exists".toList).length = 8 by decide]
  omega

/-! ### Examples -/

/-- The depth of a single comparison, and what parentheses, negations and conjunctions add. -/
example : stackDepth testEnv ("a:1".toList.map .ok) = some 46 ∧
    stackDepth testEnv ("((a:1))".toList.map .ok) = some (46 + 2 * 17) ∧
    stackDepth testEnv ("!(!(a:1))".toList.map .ok) = some (46 + 2 * 20) ∧
    stackDepth testEnv ("a:1 OR a:1 OR a:1".toList.map .ok) = some (46 + 2 * 5) := by decide +kernel

/-- A call that is not the first one of a sequence: what comes before it matches. -/
example : ∃ x, Makes testEnv ⟨⟨false, []⟩, .seq [.star .any, .rule .ws], [], .init []⟩ x ∧ x.e = .rule .ws :=
  ⟨_, .seq (.next ⟨2, _, rfl⟩ .here), rfl⟩

/-- A maximum that suffices for a query, and one that does not suffice for two parentheses. -/
example : HasMax ⟨2000, false⟩ ∧
    (∃ v, oParse testEnv ⟨2000, false⟩ (decode (utf8 "a:exists".toList)) = some (.out (.value v))) ∧
    HasMax ⟨33, false⟩ ∧ (⟨33, false⟩ : Opts).maxExprs < 17 * 2 := by
  refine ⟨by unfold HasMax; decide, ?_, by unfold HasMax; decide, by decide⟩
  obtain ⟨n, h⟩ := exists_text testEnv []
  obtain ⟨v, hv⟩ := parse_of_query testEnv
    ⟨[], _, [], ws_nil, ws_nil, .orAnd (.andNot (.notCmp h)), (List.append_nil _).symm⟩
  rw [decode_utf8]
  exact ⟨v, (C116_accepts_iff testEnv _ rfl (by decide) _ v).2 ⟨hv, fun _ => by decide +kernel⟩⟩

/-- A text that is not a query is read just as deeply. -/
example : ∃ d, stackDepth testEnv ("((((".toList.map .ok) = some d ∧ 17 * 4 ≤ d := ⟨106, by decide +kernel⟩

example : turns "f.g: ><\"x y\"".toList = 0 := by decide +kernel

example : turns "((a:1 OR !b:1) AND NOT c:1)".toList = 50 := by decide +kernel

/-- A query with a tree of height 2. -/
example : ∃ n, Query testEnv (wordRow "OR".toList 2) n ∧ treeHeight n = 2 := by
  obtain ⟨n, h, h2⟩ := orRow_text testEnv 2 []
  exact ⟨n, ⟨[], _, [], ws_nil, ws_nil, h, by simp⟩, h2⟩

end Aql
