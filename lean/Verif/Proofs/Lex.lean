import Verif.Proofs.Clean
import Verif.Proofs.Number
import Verif.Proofs.Net
import Verif.Proofs.Time
import Verif.Spec.Grammar
/-!
Clean runs of the lexical rules.
-/

namespace Aql

open Spec

variable {E : Env} {ctx : Ctx} {fr fr' : VFrame} {pre s a b : Str} {v : PV}

/-- The rule matches `a` at the beginning of `s`, leaving `b`. -/
def RuleOk (E : Env) (ctx : Ctx) (x : Rule) (pre s : Str) (v : PV) (a b : Str) : Prop :=
  ∃ g, Ok E ctx (grammar x) [] pre s v a b g

/-- The rule does not match at the beginning of `s`. -/
def RuleNo (E : Env) (ctx : Ctx) (x : Rule) (pre s : Str) : Prop := No E ctx (grammar x) [] pre s

theorem okR {x : Rule} : Ok E ctx (.rule x) fr pre s v a b fr' ↔ fr' = fr ∧ RuleOk E ctx x pre s v a b :=
  ok_rule

theorem noR {x : Rule} : No E ctx (.rule x) fr pre s ↔ RuleNo E ctx x pre s := no_rule

theorem RuleOk.split {x : Rule} (h : RuleOk E ctx x pre s v a b) : s = a ++ b := h.choose_spec.1

/-- The text does not begin with such a character. -/
def NoHead (p : Char → Prop) (s : Str) : Prop := ∀ c t, s = c :: t → ¬ p c

@[simp] theorem noHead_nil {p : Char → Prop} : NoHead p [] := by intro c t h; cases h

@[simp] theorem noHead_cons {p : Char → Prop} {c : Char} {t : Str} : NoHead p (c :: t) ↔ ¬ p c := by
  constructor
  · intro h; exact h c t rfl
  · intro h c' t' he; cases he; exact h

/-! ### Classes -/

theorem reps_cls {chars : List Char} {ranges : List (Char × Char)} {ic inv : Bool} {w : Str}
    {vs : List PV} : Reps E ctx (.cls chars ranges ic inv w) pre s vs a b ↔
    s = a ++ b ∧ vs = a.map (fun c => .bytes [c]) ∧
      (∀ c ∈ a, clsMatch E chars ranges ic inv c = true) ∧
      NoHead (fun c => clsMatch E chars ranges ic inv c = true) b := by
  constructor
  · intro h
    induction h with
    | nil h =>
      refine ⟨rfl, rfl, by simp, ?_⟩
      intro c t ht
      simp [no_cls.1 h c t ht]
    | cons h1 _ ih =>
      obtain ⟨_, x, rfl, rfl, rfl, hm⟩ := ok_cls.1 h1
      obtain ⟨rfl, rfl, h4, h5⟩ := ih
      refine ⟨rfl, rfl, ?_, h5⟩
      intro c hc
      rcases List.mem_cons.1 hc with rfl | hc
      · exact hm
      · exact h4 c hc
  · rintro ⟨rfl, rfl, h3, h4⟩
    induction a generalizing pre with
    | nil =>
      refine .nil (no_cls.2 ?_)
      intro x t ht
      simpa using h4 x t ht
    | cons c a ih =>
      exact .cons (a1 := [c]) (ok_cls.2 ⟨rfl, c, rfl, rfl, rfl, h3 c (by simp)⟩)
        (ih fun c hc => h3 c (by simp [hc]))

theorem no_cls' {chars : List Char} {ranges : List (Char × Char)} {ic inv : Bool} {w : Str} :
    No E ctx (.cls chars ranges ic inv w) fr pre s ↔
      NoHead (fun c => clsMatch E chars ranges ic inv c = true) s := by
  rw [no_cls]
  constructor
  · intro h c t hc; simp [h c t hc]
  · intro h c t hc; simpa using h c t hc

theorem cls_ws {c : Char} : clsMatch E [' ', '\n', '\t', '\r'] [] false false c = true ↔ IsWs c := by
  simp [clsMatch, IsWs]

theorem cls_dig {c : Char} : clsMatch E [] [('0', '9')] false false c = true ↔ '0' ≤ c ∧ c ≤ '9' := by
  simp [clsMatch]

theorem cls_field {c : Char} :
    clsMatch E ['_', '-'] [('a', 'z'), ('0', '9')] true false c = true ↔ FieldChar E c := by
  simp [clsMatch, FieldChar]
  tauto

/-- Values of a repeated class. -/
def charVals (a : Str) : List PV := a.map fun c => .bytes [c]

theorem rule_ws : RuleOk E ctx .ws pre s v a b ↔
    s = a ++ b ∧ v = .list (charVals a) ∧ Ws a ∧ NoHead IsWs b := by
  unfold RuleOk
  simp only [grammar, ok_star, reps_cls, cls_ws]
  constructor
  · rintro ⟨_, rfl, _, rfl, rfl, rfl, h1, h2⟩; exact ⟨rfl, rfl, h1, h2⟩
  · rintro ⟨rfl, rfl, h1, h2⟩; exact ⟨_, rfl, _, rfl, rfl, rfl, h1, h2⟩

theorem rule_ws_no : ¬ RuleNo E ctx .ws pre s := no_star

theorem rule_space : RuleOk E ctx .space pre s v a b ↔
    s = a ++ b ∧ v = .list (charVals a) ∧ Space a ∧ NoHead IsWs b := by
  unfold RuleOk
  simp only [grammar, ok_plus, reps_cls, cls_ws]
  constructor
  · rintro ⟨_, rfl, _, rfl, ⟨rfl, rfl, h1, h2⟩, h3⟩; exact ⟨rfl, rfl, ⟨h1, by simpa using h3⟩, h2⟩
  · rintro ⟨rfl, rfl, ⟨h1, h3⟩, h2⟩; exact ⟨_, rfl, _, rfl, ⟨rfl, rfl, h1, h2⟩, by simpa [charVals] using h3⟩

theorem rule_space_no : RuleNo E ctx .space pre s ↔ NoHead IsWs s := by
  unfold RuleNo
  simp only [grammar, no_plus, no_cls]
  constructor
  · intro h c t hc; rw [← cls_ws (E := E), h c t hc]; simp
  · intro h c t hc
    have := h c t hc
    rw [← cls_ws (E := E)] at this
    simpa using this

theorem rule_eof : RuleOk E ctx .EOF pre s v a b ↔ s = [] ∧ a = [] ∧ b = [] ∧ v = .nil := by
  unfold RuleOk
  simp only [grammar, ok_not, no_any]
  constructor
  · rintro ⟨_, rfl, rfl, rfl, rfl, h⟩; exact ⟨h, rfl, h, rfl⟩
  · rintro ⟨rfl, rfl, rfl, rfl⟩; exact ⟨_, rfl, rfl, rfl, rfl, rfl⟩

theorem rule_eof_no : RuleNo E ctx .EOF pre s ↔ s ≠ [] := by
  unfold RuleNo
  simp only [grammar, no_not, ok_any]
  constructor
  · rintro ⟨_, _, _, _, _, x, _, rfl, _⟩; simp
  · intro h
    cases s with
    | nil => exact absurd rfl h
    | cons c s => exact ⟨_, _, _, _, rfl, c, rfl, rfl, rfl⟩

theorem rule_eol : RuleOk E ctx .EOL pre s v a b ↔ a = ['\n'] ∧ s = '\n' :: b ∧ v = .bytes ['\n'] := by
  unfold RuleOk
  simp only [grammar, ok_lit]
  constructor
  · rintro ⟨_, rfl, rfl, rfl, rfl⟩; exact ⟨rfl, rfl, rfl⟩
  · rintro ⟨rfl, rfl, rfl⟩; exact ⟨_, rfl, rfl, rfl, rfl⟩

theorem rule_eol_no : RuleNo E ctx .EOL pre s ↔ NoHead (· = '\n') s := by
  unfold RuleNo
  simp only [grammar, no_lit]
  constructor
  · rintro h c t rfl rfl; exact h t rfl
  · rintro h b rfl; exact h '\n' b rfl rfl

/-- No match for a one-character literal. -/
theorem no_lit1 {c : Char} {w : Str} : No E ctx (.lit [c] false w) fr pre s ↔ NoHead (· = c) s := by
  rw [no_lit]
  constructor
  · rintro h d t rfl rfl; exact h t rfl
  · rintro h b rfl; exact h c b rfl rfl

theorem ok_lit1 {c : Char} {w : Str} : Ok E ctx (.lit [c] false w) fr pre s v a b fr' ↔
    fr' = fr ∧ a = [c] ∧ s = c :: b ∧ v = .bytes [c] := ok_lit

/-- A literal does not match if the text begins with something else. -/
theorem no_lit_head {c : Char} {t w : Str} (h : NoHead (· = c) s) :
    No E ctx (.lit (c :: t) false w) fr pre s := by
  rw [no_lit]
  rintro b rfl
  exact h c _ rfl rfl

end Aql
