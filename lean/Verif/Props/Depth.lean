import Verif.Props.Grammar
import Verif.Props.Beginnings
import Verif.Proofs.CostDepth
import Verif.Proofs.Deepest
import Verif.Proofs.DepthAll
/-!
C115: what decides the cost of parsing is how deeply the parentheses are nested, not how many there are.
-/

namespace Aql

open Spec

variable (E : Env)

/-- **C115.** `QueryIn` is about all accepted queries: each has a depth, at most the number of its
parentheses, and nothing else has one. -/
theorem C115_every_query_has_a_depth (s : Str) (n : Node) :
    Query E s n ↔ ∃ d, d ≤ s.count '(' ∧ QueryIn E d s n := by
  constructor
  · rintro ⟨w1, q, w2, h1, h2, h, rfl⟩
    obtain ⟨d, hd, h⟩ := text_count h
    exact ⟨d, by simp only [List.count_append]; omega, w1, q, w2, h1, h2, h, rfl⟩
  · rintro ⟨d, -, w1, q, w2, h1, h2, h, rfl⟩
    exact ⟨w1, q, w2, h1, h2, h.text, rfl⟩

/-- **C115.** An accepted query costs at most cubic time in its length, times four for every level of
nesting. -/
theorem C115_depth_cost (d : Nat) (s : Str) (n : Node) (h : QueryIn E d s n) :
    parseCost E s ≤ 160000 * (s.length + 1) ^ 3 * 4 ^ d := by
  obtain ⟨l, r, hb, hr, -⟩ := parse_big (E := E) (s.map .ok)
  unfold parseCost
  rw [hr]
  dsimp only
  rw [ticks_append, ticks_encErr, Nat.zero_add]
  rw [cur_init] at hb
  exact query_cost (E := E) (k := ticks l) h ⟨l, r, hb, rfl, rfl⟩

/-- **C115.** Outside of quotes and patterns the depth can be read off the text: it is at most the largest
number of parentheses open at once. -/
theorem C115_scanned_depth (s : Str) (n : Node) (h : Query E s n) (hq : '"' ∉ s) (hs : '/' ∉ s) :
    QueryIn E (deepest 0 s) s n ∧ parseCost E s ≤ 160000 * (s.length + 1) ^ 3 * 4 ^ deepest 0 s := by
  have hd : QueryIn E (deepest 0 s) s n := by
    obtain ⟨w1, q, w2, h1, h2, h, rfl⟩ := h
    simp only [List.mem_append, not_or] at hq hs
    obtain ⟨d, h, hd⟩ := text_deepest h hq.2.1 hs.2.1
    refine ⟨w1, q, w2, h1, h2, h.mono ?_, rfl⟩
    rw [deepest_pfree (pfree_ws h1)]
    have := hd 0 w2
    omega
  exact ⟨hd, C115_depth_cost E _ s n hd⟩

/-- **C115.** The same holds of every text without quotes and slashes, whether it is a query or not. -/
theorem C115_any_text (s : Str) (hq : '"' ∉ s) (hs : '/' ∉ s) :
    parseCost E s ≤ 160000 * (s.length + 1) ^ 3 * 4 ^ deepest 0 s := by
  obtain ⟨l, r, hb, hr, -⟩ := parse_big (E := E) (s.map .ok)
  unfold parseCost
  rw [hr]
  dsimp only
  rw [ticks_append, ticks_encErr, Nat.zero_add]
  rw [cur_init] at hb
  have hrest : (cur [] s).rest.map Sym.rune = s := by
    show (s.map Sym.ok).map Sym.rune = s
    rw [List.map_map]
    exact List.map_id _
  have hl : Lvl (deepest 0 s) (cur [] s) := by
    refine ⟨?_, 0, by rw [hrest]; omega⟩
    intro x hx
    obtain ⟨y, hy, rfl⟩ := List.mem_map.1 hx
    exact ⟨fun h => hq (h ▸ hy), fun h => hs (h ▸ hy)⟩
  have := start_at (E := E) (k := ticks l) ⟨l, r, hb, rfl, rfl⟩ hl
  rwa [show (cur [] s).rest.length = s.length from List.length_map _] at this

theorem nest_depth (n : Nat) : ∀ pre, ∃ r, TextIn E n .cmp pre (nest n "a:exists".toList) r := by
  induction n with
  | zero =>
    intro pre
    obtain ⟨r, h⟩ := exists_text E pre
    obtain ⟨d, hd, h⟩ := text_count h
    rw [show ("a:exists".toList).count '(' = 0 by decide] at hd
    exact ⟨r, h.mono hd⟩
  | succ n ih =>
    intro pre
    obtain ⟨r, h⟩ := ih (pre ++ '(' :: [])
    exact ⟨r, .group (w2 := []) ws_nil (.orAnd (.andNot (.notCmp h))) ws_nil⟩

/-- **C115.** The factor per level is exactly four. -/
theorem C115_depth_rate_exact (b : Nat) :
    (∃ c k : Nat, ∀ d s n, QueryIn E d s n → parseCost E s ≤ c * (s.length + 1) ^ k * b ^ d) ↔ 4 ≤ b := by
  constructor
  · rintro ⟨c, k, h⟩
    refine four_le_rate (c := c) (k := k) fun n => ?_
    have hn := (C08_nested_parentheses_cost E _ (exists_text E) n).2
    obtain ⟨r, hr⟩ := nest_depth E n []
    have := h n (nest n "a:exists".toList) r ⟨[], _, [], ws_nil, ws_nil, .orAnd (.andNot (.notCmp hr)), by simp⟩
    rw [nest_length, show ("a:exists".toList).length + 2 * n + 1 = 2 * n + 9 by
        rw [show ("a:exists".toList).length = 8 by decide]; omega] at this
    exact hn.trans this
  · intro hb
    refine ⟨160000, 3, fun d s n h => (C115_depth_cost E d s n h).trans ?_⟩
    exact Nat.mul_le_mul_left _ (Nat.pow_le_pow_left hb _)

/-- `m + 1` comparisons, each in parentheses, joined by AND. -/
def groupsInARow : Nat → Str
  | 0 => "(a:exists)".toList
  | m + 1 => "(a:exists) AND ".toList ++ groupsInARow m

theorem groupsInARow_text (m : Nat) : ∀ pre, ∃ r, TextIn E 1 .and pre (groupsInARow m) r := by
  have hg : ∀ pre, ∃ r, TextIn E 1 .not pre "(a:exists)".toList r := fun pre => by
    obtain ⟨r, h⟩ := nest_depth E 1 pre
    exact ⟨r, .notCmp h⟩
  induction m with
  | zero =>
    intro pre
    obtain ⟨r, h⟩ := hg pre
    exact ⟨r, .andNot h⟩
  | succ m ih =>
    intro pre
    obtain ⟨r, h⟩ := hg pre
    obtain ⟨r', h'⟩ := ih (pre ++ ("(a:exists)".toList ++ ([' '] ++ ("AND".toList ++ [' ']))))
    exact ⟨_, .and h (w1 := [' ']) (by decide) (w2 := [' ']) (by decide) h'⟩

theorem groupsInARow_parens (m : Nat) : (groupsInARow m).count '(' = m + 1 := by
  induction m with
  | zero => rfl
  | succ m ih =>
    have h1 : ("(a:exists) AND ".toList).count '(' = 1 := by decide
    have h2 := List.count_append (a := '(') (l₁ := "(a:exists) AND ".toList) (l₂ := groupsInARow m)
    have h3 : groupsInARow (m + 1) = "(a:exists) AND ".toList ++ groupsInARow m := rfl
    rw [h3, h2, h1, ih]
    exact Nat.add_comm _ _

/-- **C115.** Many parentheses are harmless as long as they are not nested: any number of groups in a row
costs cubic time. -/
theorem C115_groups_in_a_row (m : Nat) :
    (∃ r, Query E (groupsInARow m) r) ∧ (groupsInARow m).count '(' = m + 1 ∧
      parseCost E (groupsInARow m) ≤ 640000 * ((groupsInARow m).length + 1) ^ 3 := by
  obtain ⟨r, h⟩ := groupsInARow_text E m []
  have hq : QueryIn E 1 (groupsInARow m) r := ⟨[], _, [], ws_nil, ws_nil, .orAnd h, by simp⟩
  refine ⟨⟨r, [], _, [], ws_nil, ws_nil, .orAnd h.text, by simp⟩, ?_, ?_⟩
  · exact groupsInARow_parens m
  · refine (C115_depth_cost E 1 _ _ hq).trans (Nat.le_of_eq ?_)
    ring

example : groupsInARow 2 = "(a:exists) AND (a:exists) AND (a:exists)".toList := by decide
example : deepest 0 "(a:1 OR (b:2 AND c:(1,2))) AND ((d:3))".toList = 3 ∧
    "(a:1 OR (b:2 AND c:(1,2))) AND ((d:3))".toList.count '(' = 5 := by decide
example : readsTree testEnv "(a:1 OR (b:2)) AND (c:99999999999999999999) AND (d:".toList = false ∧
    deepest 0 "(a:1 OR (b:2)) AND (c:99999999999999999999) AND (d:".toList = 2 :=
  ⟨by decide +kernel, by decide +kernel⟩
example : ∃ n, Query testEnv "(a:1 OR (b:2)) AND (c:3)".toList n ∧
    QueryIn testEnv 2 "(a:1 OR (b:2)) AND (c:3)".toList n := by
  obtain ⟨n, h⟩ := query_of_reads testEnv (s := "(a:1 OR (b:2)) AND (c:3)".toList) (by decide +kernel)
  exact ⟨n, h, (C115_scanned_depth testEnv _ n h (by decide) (by decide)).1⟩

end Aql
