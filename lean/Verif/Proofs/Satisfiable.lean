import Mathlib.Tactic.Linarith
import Mathlib.Tactic.NormNum
import Mathlib.Tactic.Ring
import Verif.Spec.Satisfiable
import Verif.Proofs.Nesting
import Verif.Proofs.NetWords
/-!
Lemmas about documents made for a query.
-/

namespace Aql

open Spec

variable {E : Env} {sp : Str → Str}

/-- Objects in objects with the scalar at the end of the path. -/
def plant (sp : Str → Str) : List Str → Json → Json
  | [], s => s
  | k :: rest, s => .obj [(sp k, plant sp rest s)]

theorem plant_member (hsp : ∀ k, E.unescape (sp k) = some k) (k : Str) (v : Json) : FirstMember E [(sp k, v)] k v :=
  ⟨[], sp k, [], rfl, hsp k, by simp⟩

theorem plant_resolves (hsp : ∀ k, E.unescape (sp k) = some k) (s : Json) (rest : List Str) : ∀ k,
    Resolves E (plant sp (k :: rest) s) (k :: rest) s := by
  induction rest with
  | nil => exact fun k => .last (plant_member hsp k s)
  | cons k' rest ih => exact fun k => .inObject (plant_member hsp k _) (ih k')

theorem plant_unique (hsp : ∀ k, E.unescape (sp k) = some k) {s v : Json} (rest : List Str) : ∀ k,
    Resolves E (plant sp (k :: rest) s) (k :: rest) v → v = s := by
  induction rest with
  | nil =>
    intro k h
    cases h with
    | last hf => exact firstMember_unique hf (plant_member hsp k s)
  | cons k' rest ih =>
    intro k h
    cases h with
    | inObject hf hr =>
      cases firstMember_unique hf (plant_member hsp k _)
      exact ih k' hr
    | inArray hf => cases firstMember_unique hf (plant_member hsp k _)

/-- What is to be found under the name `k`. -/
def harvest (sp : Str → Str) (goals : List (List Str × Json)) (k : Str) : Json :=
  .arr (goals.filterMap fun g => match g.1 with
    | [] => none
    | k' :: rest => if k' = k then some (plant sp rest g.2) else none)

/-- A document with given scalars under given paths. -/
def garden (sp : Str → Str) (goals : List (List Str × Json)) : List (Str × Json) :=
  goals.map fun g => (sp (g.1.headD []), harvest sp goals (g.1.headD []))

theorem garden_member (hsp : ∀ k, E.unescape (sp k) = some k) (f : Str → Json) (k : Str) : ∀ ks : List Str, k ∈ ks →
    getMember E k (ks.map fun k => (sp k, f k)) = some (f k) := by
  intro ks
  induction ks with
  | nil => simp
  | cons k' ks ih =>
    intro hk
    simp only [List.map_cons, getMember, hsp]
    split
    · rename_i h; rw [h]
    · rename_i h
      rcases List.mem_cons.1 hk with rfl | hk
      · exact absurd rfl h
      · exact ih hk

theorem garden_scalar (hsp : ∀ k, E.unescape (sp k) = some k) {goals : List (List Str × Json)} {p : List Str} {s : Json}
    (hg : (p, s) ∈ goals) (hp : p ≠ []) (hs : IsScalar s) : ScalarUnder E (.obj (garden sp goals)) p s := by
  obtain ⟨k, rest, rfl⟩ := List.exists_cons_of_ne_nil hp
  have hf : FirstMember E (garden sp goals) k (harvest sp goals k) := by
    rw [← getMember_iff]
    have := garden_member (E := E) hsp (harvest sp goals) k (goals.map fun g => g.1.headD [])
      (List.mem_map.2 ⟨_, hg, rfl⟩)
    rwa [List.map_map] at this
  have hm : plant sp rest s ∈ goals.filterMap fun g => match g.1 with
      | [] => none
      | k' :: rest => if k' = k then some (plant sp rest g.2) else none :=
    List.mem_filterMap.2 ⟨_, hg, by simp⟩
  refine ⟨hs, ?_⟩
  cases rest with
  | nil => exact .inr ⟨_, .last hf, hm⟩
  | cons k' rest => exact .inl (.inArray hf hm (plant_resolves hsp s rest k'))

/-- A comparison other than null that holds of a document holds wherever a certain scalar is. -/
theorem sat_wants {d : Json} {op : Op} {f : List Str} {vs : List Val} {pos : Pos} (hop : op ≠ .NUL)
    (h : Sat E d (.expr op f vs pos)) : ∃ s, IsScalar s ∧ ∀ d', ScalarUnder E d' f s → Sat E d' (.expr op f vs pos) := by
  cases op with
  | NUL => exact absurd rfl hop
  | EXS =>
    refine ⟨.null, trivial, fun d' hs => ?_⟩
    obtain ⟨-, h | ⟨_, h, -⟩⟩ := hs
    · exact ⟨_, h⟩
    · exact ⟨_, h⟩
  | EQ | SIM | LT | LTE | GT | GTE =>
    obtain ⟨v, hv, s, hs, he⟩ := h
    exact ⟨s, hs.1, fun d' hs' => ⟨v, hv, s, hs', he⟩⟩
  | BET =>
    obtain ⟨a, b, hv, s, hs, he⟩ := h
    exact ⟨s, hs.1, fun d' hs' => ⟨a, b, hv, s, hs', he⟩⟩

/-- Scalars under paths that make the query hold, or fail. -/
def Goals (E : Env) (R : Json → Prop) : Prop :=
  ∃ goals : List (List Str × Json), (∀ g ∈ goals, g.1 ≠ [] ∧ IsScalar g.2) ∧
    ∀ d, (∀ g ∈ goals, ScalarUnder E d g.1 g.2) → R d

theorem Goals.both {R S T : Json → Prop} (h : Goals E R) (h' : Goals E S) (ht : ∀ d, R d → S d → T d) : Goals E T := by
  obtain ⟨g, h1, h2⟩ := h
  obtain ⟨g', h1', h2'⟩ := h'
  refine ⟨g ++ g', ?_, fun d hd => ht d (h2 d fun x hx => hd x (List.mem_append.2 (.inl hx)))
    (h2' d fun x hx => hd x (List.mem_append.2 (.inr hx)))⟩
  intro x hx
  rcases List.mem_append.1 hx with hx | hx
  · exact h1 x hx
  · exact h1' x hx

theorem Goals.mono {R T : Json → Prop} (h : Goals E R) (ht : ∀ d, R d → T d) : Goals E T :=
  let ⟨g, h1, h2⟩ := h
  ⟨g, h1, fun d hd => ht d (h2 d hd)⟩

/-- The comparison holds of some object. -/
def Holdable (E : Env) (n : Node) : Prop := ∃ ms, Sat E (.obj ms) n

theorem judged_goals {n : Node} (hp : PathsIn (· ≠ []) n) :
    (Polar true n → Judged (Holdable E) n → Goals E fun d => Sat E d n) ∧
    (Polar false n → ¬ Judged (Holdable E) n → Goals E fun d => ¬ Sat E d n) := by
  induction n with
  | and l r ihl ihr =>
    refine ⟨fun h hj => ((ihl hp.1).1 h.1 hj.1).both ((ihr hp.2).1 h.2 hj.2) fun _ h1 h2 => ⟨h1, h2⟩, fun h hj => ?_⟩
    by_cases hl : Judged (Holdable E) l
    · exact ((ihr hp.2).2 h.2 fun hr => hj ⟨hl, hr⟩).mono fun _ h1 h2 => h1 h2.2
    · exact ((ihl hp.1).2 h.1 hl).mono fun _ h1 h2 => h1 h2.1
  | or l r ihl ihr =>
    refine ⟨fun h hj => ?_, fun h hj => ?_⟩
    · rcases hj with hj | hj
      · exact ((ihl hp.1).1 h.1 hj).mono fun _ => .inl
      · exact ((ihr hp.2).1 h.2 hj).mono fun _ => .inr
    · exact ((ihl hp.1).2 h.1 fun h => hj (.inl h)).both ((ihr hp.2).2 h.2 fun h => hj (.inr h))
        fun _ h1 h2 h3 => h3.elim h1 h2
  | not e ih =>
    exact ⟨fun h hj => (ih hp).2 h hj, fun h hj => ((ih hp).1 h (Classical.not_not.1 hj)).mono fun _ h1 h2 => h2 h1⟩
  | subdoc => exact ⟨fun _ h => h.elim, fun _ _ => ⟨[], by simp, fun _ _ h => h⟩⟩
  | expr op f vs pos =>
    refine ⟨fun h hj => ?_, fun h => absurd h.1 (by decide)⟩
    obtain ⟨ms, hs⟩ := hj
    obtain ⟨s, hsc, hw⟩ := sat_wants h.2 hs
    exact ⟨[(f, s)], by simpa using ⟨hp, hsc⟩, fun d hd => hw d (hd _ (List.mem_singleton.2 rfl))⟩

theorem sat_judged {ms : List (Str × Json)} {n : Node} :
    (Polar true n → Sat E (.obj ms) n → Judged (Holdable E) n) ∧
    (Polar false n → ¬ Sat E (.obj ms) n → ¬ Judged (Holdable E) n) := by
  induction n with
  | and l r ihl ihr =>
    refine ⟨fun h hs => ⟨ihl.1 h.1 hs.1, ihr.1 h.2 hs.2⟩, fun h hs hj => ?_⟩
    by_cases hl : Sat E (.obj ms) l
    · exact ihr.2 h.2 (fun hr => hs ⟨hl, hr⟩) hj.2
    · exact ihl.2 h.1 hl hj.1
  | or l r ihl ihr =>
    exact ⟨fun h hs => hs.imp (ihl.1 h.1) (ihr.1 h.2), fun h hs hj =>
      hj.elim (ihl.2 h.1 fun h => hs (.inl h)) (ihr.2 h.2 fun h => hs (.inr h))⟩
  | not e ih => exact ⟨fun h hs => ih.2 h hs, fun h hs hj => hj (ih.1 h (Classical.not_not.1 hs))⟩
  | subdoc => exact ⟨fun _ h => h, fun _ _ h => h⟩
  | expr => exact ⟨fun _ hs => ⟨ms, hs⟩, fun h => absurd h.1 (by decide)⟩

theorem judged_congr {P Q : Node → Prop} {n : Node} (hok : AllOk E n) (hg : FromGrammar n) (hre : LitsIn (ReParses E) n)
    (hp : PathsIn (· ≠ []) n)
    (h : ∀ op f vs pos, f ≠ [] → (∃ m, Ready E (.expr op f vs pos) m) → (P (.expr op f vs pos) ↔ Q (.expr op f vs pos))) :
    Judged P n ↔ Judged Q n := by
  induction n with
  | and l r ihl ihr =>
    exact and_congr (ihl hok.1 ⟨hg.1.1, hg.2.1⟩ hre.1 hp.1) (ihr hok.2 ⟨hg.1.2, hg.2.2⟩ hre.2 hp.2)
  | or l r ihl ihr =>
    exact or_congr (ihl hok.1 ⟨hg.1.1, hg.2.1⟩ hre.1 hp.1) (ihr hok.2 ⟨hg.1.2, hg.2.2⟩ hre.2 hp.2)
  | not e ih => exact not_congr (ih hok hg hre hp)
  | subdoc => exact Iff.rfl
  | expr op f vs pos => exact h op f vs pos hp (ready_of_allOk hok hg hre)

/-! ### values -/

theorem largest_eq : largest = (2 ^ 53 - 1) * 2 ^ 971 ∧ (2 : ℚ) ^ (1024 : ℤ) = 2 ^ 53 * 2 ^ 971 := by
  have h : ∀ a b : ℕ, (2 : ℚ) ^ (a + b) = 2 ^ a * 2 ^ b := pow_add 2
  have h1 : (2 : ℚ) ^ 1024 = 2 ^ 53 * 2 ^ 971 := h 53 971
  have h2 : (2 : ℚ) ^ (1024 : ℤ) = 2 ^ 1024 := zpow_natCast 2 1024
  unfold largest
  rw [h2, h1]
  generalize (2 : ℚ) ^ 971 = B
  exact ⟨by ring, rfl⟩

theorem isDouble_bound {x : ℚ} (h : IsDouble x) : |x| ≤ largest := by
  obtain ⟨⟨m, e, hm, -, rfl⟩, hb⟩ := h
  rw [largest_eq.1]
  rw [largest_eq.2] at hb
  have hm' : |(m : ℚ)| ≤ 2 ^ 53 := by exact_mod_cast hm
  have hB : (0 : ℚ) < 2 ^ 971 := pow_pos (by norm_num) _
  rw [abs_mul, abs_of_pos (zpow_pos (by norm_num : (0 : ℚ) < 2) e)] at hb ⊢
  rcases le_or_gt e 970 with he | he
  · have h1 : (2 : ℚ) ^ e ≤ 2 ^ (970 : ℤ) := zpow_le_zpow_right₀ (by norm_num) he
    have h3 : (2 : ℚ) ^ 971 = 2 ^ (970 : ℤ) * 2 := by
      have := pow_succ (2 : ℚ) 970
      have h4 : (2 : ℚ) ^ (970 : ℤ) = 2 ^ 970 := zpow_natCast 2 970
      rw [h4]
      exact this
    have h2 : |(m : ℚ)| * 2 ^ e ≤ 2 ^ 53 * 2 ^ (970 : ℤ) :=
      mul_le_mul hm' h1 (zpow_nonneg (by norm_num) _) (by norm_num)
    refine h2.trans ?_
    rw [h3] at hB ⊢
    generalize (2 : ℚ) ^ (970 : ℤ) = B at hB
    linarith
  · obtain ⟨k, hk⟩ : ∃ k : ℕ, e = k + 971 := ⟨(e - 971).toNat, by omega⟩
    have h1 : |(m : ℚ)| * 2 ^ e = ((|m| * 2 ^ k : ℤ) : ℚ) * 2 ^ 971 := by
      have h4 : (2 : ℚ) ^ (971 : ℤ) = 2 ^ 971 := zpow_natCast 2 971
      rw [hk, zpow_add₀ (by norm_num), h4]
      generalize (2 : ℚ) ^ 971 = B
      push_cast
      rw [zpow_natCast, mul_assoc]
    rw [h1] at hb ⊢
    generalize (2 : ℚ) ^ 971 = B at hB hb
    have h2 : ((|m| * 2 ^ k : ℤ) : ℚ) < ((2 ^ 53 : ℤ) : ℚ) := by
      rw [show ((2 ^ 53 : ℤ) : ℚ) = 2 ^ 53 by norm_num]
      exact lt_of_mul_lt_mul_right hb hB.le
    have h3 : (|m| * 2 ^ k : ℤ) ≤ 2 ^ 53 - 1 := Int.le_sub_one_of_lt (Int.cast_lt.1 h2)
    have h5 : ((|m| * 2 ^ k : ℤ) : ℚ) ≤ 2 ^ 53 - 1 := by
      have := Int.cast_le (R := ℚ).2 h3
      rwa [show ((2 ^ 53 - 1 : ℤ) : ℚ) = 2 ^ 53 - 1 by norm_num] at this
    exact mul_le_mul_of_nonneg_right h5 hB.le

theorem largest_double : IsDouble largest := by
  have h4 : (2 : ℚ) ^ (971 : ℤ) = 2 ^ 971 := zpow_natCast 2 971
  have hB : (0 : ℚ) < 2 ^ 971 := pow_pos (by norm_num) _
  refine ⟨⟨2 ^ 53 - 1, 971, by norm_num, by norm_num, ?_⟩, ?_⟩
  · rw [largest_eq.1, h4]
    norm_num
  · rw [largest_eq.1, largest_eq.2]
    generalize (2 : ℚ) ^ 971 = B at hB
    rw [abs_of_pos (by norm_num; exact hB)]
    linarith

theorem double_read {x : ℚ} (h : IsDouble x) : ∃ raw, ReadAs E raw (.fin x) := by
  obtain ⟨m, a, r, q, -, -, -, -, -, k6, k7, -⟩ := formatFloat_reads false h
  exact ⟨_, .decimal k6 ((reads_iff h).2 k7) h.2⟩

theorem read_double {raw : Str} {x : ℚ} (h : ReadAs E raw (.fin x)) : IsDouble x := by
  cases h with
  | decimal _ hr hb => exact ⟨hr.1.1, hb⟩
  | exact _ _ hr hb => exact ⟨hr.1.1, hb⟩
  | special _ _ h => exact absurd rfl (h x)

theorem occurs_some {eqv : Char → Char → Prop} (hr : ∀ c, eqv c c) (bounded : Prop) (pat : Str) :
    ∃ text, Occurs eqv bounded pat text := by
  have hi : ∀ ts, ∃ mid, Instance eqv ts mid := by
    intro ts
    induction ts with
    | nil => exact ⟨[], .nil⟩
    | cons t ts ih =>
      obtain ⟨mid, ih⟩ := ih
      cases t with
      | lit c => exact ⟨_, .lit (hr c) ih⟩
      | one => exact ⟨_, .one (x := 'x') (by decide) ih⟩
      | many => exact ⟨_, .many (run := []) (by simp) ih⟩
  obtain ⟨mid, hmid⟩ := hi (toksOf pat)
  have ha : WordChar 'a' := by unfold WordChar; decide
  have key : ∃ pre post, WordBoundary pre (mid ++ post) ∧ WordBoundary (pre ++ mid) post := by
    rcases List.eq_nil_or_concat mid with rfl | ⟨init, z, rfl⟩
    · exact ⟨['a'], [], by simp [WordBoundary, ha], by simp [WordBoundary, ha]⟩
    · have h1 : ∃ pre, ∀ post, WordBoundary pre (init.concat z ++ post) := by
        obtain ⟨c, t, hc⟩ : ∃ c t, init.concat z = c :: t := List.exists_cons_of_ne_nil (by simp)
        rw [hc]
        by_cases hw : WordChar c
        · exact ⟨[], fun post => by simp [WordBoundary, hw]⟩
        · exact ⟨['a'], fun post => by simp [WordBoundary, hw, ha]⟩
      have h2 : ∃ post, ∀ pre, WordBoundary (pre ++ init.concat z) post := by
        by_cases hw : WordChar z
        · exact ⟨[], fun pre => by simp [WordBoundary, hw]⟩
        · exact ⟨['a'], fun pre => by simp [WordBoundary, hw, ha]⟩
      obtain ⟨pre, h1⟩ := h1
      obtain ⟨post, h2⟩ := h2
      exact ⟨pre, post, h1 post, h2 pre⟩
  obtain ⟨pre, post, h1, h2⟩ := key
  exact ⟨_, _, pre, mid, post, toks_toksOf pat, rfl, hmid, fun _ => ⟨h1, h2⟩⟩

theorem mentions_some {t : Str} {a n : Nat} (h : AddrText t a) : Mentions t (Block a n) := by
  obtain ⟨ms, hms⟩ : ∃ ms, Extracted t ms := ⟨_, (extracted_iff _ _).2 rfl⟩
  have hd : Denotes t (fun x => x = a) := .inl ⟨a, h, rfl⟩
  refine ⟨ms, t, _, a, hms, extracted_word (pre := []) (post := []) hms (by simp) (denotes_shape hd) ?_, hd, rfl,
    h.lt, rfl⟩
  simp [StandsAlone]

end Aql
