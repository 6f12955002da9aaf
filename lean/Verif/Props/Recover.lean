import Verif.Proofs.FatalList
import Verif.Model.Recover
import Verif.Props.Limit
import Verif.Proofs.MemoLimit
import Verif.Props.Wrong
/-!
C122: what the option `Recover` is for. The actions of the grammar do panic, always after a recorded
error and exactly after those errors that leave no value behind.
-/

namespace Aql
open Spec

variable (E : Env)

/-- Errors that the parser records on a text without options. -/
def recorded (input : List Sym) : List (Loc × RecErr) :=
  match runStart E input with
  | .oof => []
  | .done log _ => errorsOf log

/-- Does one of them leave no value behind? -/
def Fatal (input : List Sym) : Prop := ∃ x ∈ recorded E input, fatalKind x.2.kind = true

variable {E}

theorem run_panics_iff (input : List Sym) : ∃ log r, runStart E input = .done log r ∧
    (r.panics ↔ Fatal E input) ∧ parse E input = some (finish log r) := by
  obtain ⟨l, r, hb, hr, hp⟩ := parse_big (E := E) input
  refine ⟨_, r, hr, ?_, hp⟩
  rw [start_panics_iff hb]
  unfold Fatal recorded
  rw [hr]
  have : hasFatal (encErr (.init input) ++ l) = hasFatal l := by rw [hasFatal_append, hasFatal_encErr, Bool.false_or]
  rw [← this]
  simp [hasFatal, List.any_eq_true]

variable (E)

/-- **C122.** With `Recover(true)`, the default, `Parse` always returns, and what it returns does not depend on
the option. -/
theorem C122_default (o : Opts) (input : List Sym) : rParse E o true input = (oParse E o input).map .returns := by
  unfold rParse oParse
  rcases oRunStart E o input with _ | ⟨log, r, s⟩
  · rfl
  · cases r <;> rfl

/-- **C122.** With `Recover(false)` the parser panics exactly on the texts for which an error is recorded that
leaves no value behind, or that need more evaluations than the maximum (the panics can be told apart). On all
others it returns what it returns by default. -/
theorem C122_panics_iff (o : Opts) (hm : o.memoize = false) (h : o.maxExprs ≤ maxUint64) (input : List Sym) :
    ((∃ p, rParse E o false input = some (.panics (some p))) ↔
      Fatal E input ∧ (HasMax o → exprCount E input ≤ o.maxExprs)) ∧
    (rParse E o false input = some (.panics none) ↔ HasMax o ∧ o.maxExprs < exprCount E input) ∧
    (¬ Fatal E input → (HasMax o → exprCount E input ≤ o.maxExprs) →
      rParse E o false input = (parse E input).map fun r => .returns (.out r)) := by
  obtain ⟨log, r, hr, hf, hp⟩ := run_panics_iff (E := E) input
  rw [← hf]
  have hcount : exprCount E input = ticks log := by unfold exprCount; rw [hr]; rfl
  unfold rParse
  rcases lim_cases (E := E) hm h input with ⟨s, log', r', h1, h2, h3⟩ | ⟨hx, s, pre, suf, c, r', h1, h2, h3⟩
  · rw [hr] at h1
    cases h1
    rw [h2, hp, hcount]
    cases r with
    | panic p c =>
      refine ⟨⟨fun _ => ⟨trivial, h3⟩, fun _ => ⟨p, rfl⟩⟩, ⟨nofun, fun hx => ?_⟩, fun hn => (hn trivial).elim⟩
      have := h3 hx.1
      omega
    | ok v c fr =>
      refine ⟨⟨nofun, fun hx => hx.1.elim⟩, ⟨nofun, fun hx => ?_⟩, fun _ _ => ?_⟩
      · have := h3 hx.1
        omega
      · exact congrArg (fun x => some (RParseOut.returns x)) (oFinish_bare log (.ok v c fr))
    | fail c =>
      refine ⟨⟨nofun, fun hx => hx.1.elim⟩, ⟨nofun, fun hx => ?_⟩, fun _ _ => ?_⟩
      · have := h3 hx.1
        omega
      · exact congrArg (fun x => some (RParseOut.returns x)) (oFinish_bare log (.fail c))
  · rw [hr] at h1
    cases h1
    have hgt : o.maxExprs < exprCount E input := by
      rw [hcount, ticks_append, ticks_cons]
      omega
    rw [h3]
    exact ⟨⟨nofun, fun hy => by have := hy.2 hx; omega⟩, ⟨fun _ => ⟨hx, hgt⟩, fun _ => rfl⟩,
      fun _ hy => by have := hy hx; omega⟩

/-- **C122.** Queries never panic, whatever the options are. -/
theorem C122_queries_safe (o : Opts) (recover : Bool) (input : List Sym) (v : PV)
    (h : oParse E o input = some (.out (.value v))) : rParse E o recover input = some (.returns (.out (.value v))) := by
  unfold oParse at h
  unfold rParse
  rcases hr : oRunStart E o input with _ | ⟨log, r, s⟩
  · rw [hr] at h; cases h
  · rw [hr] at h
    cases h' : r with
    | ok v' c fr =>
      rw [h'] at h
      cases recover <;> exact congrArg (Option.map RParseOut.returns) h
    | fail c =>
      rw [h'] at h
      cases recover <;> exact congrArg (Option.map RParseOut.returns) h
    | panic p c =>
      rw [h'] at h
      cases p <;> simp only [oFinish, finish] at h <;> split at h <;> simp_all

/-- **C122.** Texts that get a list of what was expected do not panic either. -/
theorem C122_no_match_safe (input : List Sym) (q : Loc) (ws : List Str) (k : Option Nat)
    (h : parse E input = some (.error q ⟨.noMatch ws, k⟩)) :
    rParse E ⟨0, false⟩ false input = some (.returns (.out (.error q ⟨.noMatch ws, k⟩))) := by
  rw [(C122_panics_iff E ⟨0, false⟩ rfl (Nat.zero_le _) input).2.2 ?_ (fun hx => absurd hx.1 (Nat.lt_irrefl 0)), h]
  · rfl
  · obtain ⟨log, r, hr, he⟩ := clean_run h (.inr ⟨q, ws, k, rfl⟩)
    rintro ⟨x, hx, -⟩
    unfold recorded at hx
    rw [hr] at hx
    dsimp only at hx
    rw [he] at hx
    cases hx

/-- **C122.** With `Memoize`, too: whatever the options are, a text that is a query or gets a list of what was
expected never makes an action panic. Without a maximum `Parse` returns what it returns by default; with one
it returns that, or panics because of the maximum. -/
theorem C122_clean_safe (o : Opts) (input : List Sym) (x : ParseOut) (h : parse E input = some x)
    (hx : (∃ v, x = .value v) ∨ ∃ q ws k, x = .error q ⟨.noMatch ws, k⟩) :
    rParse E o false input = some (.returns (.out x)) ∨ (o.maxExprs ≠ 0 ∧ rParse E o false input = some (.panics none)) := by
  obtain ⟨log, r, hr, he⟩ := clean_run h hx
  have hnp : ¬ r.panics := by
    obtain ⟨log', r', hr', hf, -⟩ := run_panics_iff (E := E) input
    rw [hr] at hr'
    cases hr'
    rw [hf]
    rintro ⟨y, hy, -⟩
    unfold recorded at hy
    rw [hr] at hy
    dsimp only at hy
    rw [he] at hy
    cases hy
  have h0 : ∃ log' r' s, oRunStart E ⟨0, o.memoize⟩ input = .done log' r' s ∧ (∀ p c, r' ≠ .panic p c) ∧
      oFinish log' r' = .out x := by
    have hout : oParse E ⟨0, o.memoize⟩ input = some (.out x) := by
      cases hm : o.memoize with
      | true => rw [memo_same, h]; rfl
      | false =>
        rw [C116_within_the_maximum E ⟨0, false⟩ rfl (Nat.zero_le _) input fun h => absurd h.1 (Nat.lt_irrefl 0), h]
        rfl
    have hres : ∃ log' r' s, oRunStart E ⟨0, o.memoize⟩ input = .done log' r' s ∧ ∀ p c, r' ≠ .panic p c := by
      cases hm : o.memoize with
      | true =>
        obtain ⟨l, r1, l5, r5, r', s, -, hp, -, hr0, hs, h6⟩ := memo_runs (E := E) input
        rw [hr] at hp
        cases hp
        refine ⟨_, _, _, hr0, ?_⟩
        rw [errorsOf_append] at he
        obtain ⟨-, he⟩ := List.append_eq_nil_iff.1 he
        rcases hs with ⟨y, hy, -⟩ | ⟨-, -, -, -, rfl⟩
        · rw [he] at hy; cases hy
        · rcases h6 with ⟨v, c, fr, -, rfl⟩ | rfl
          · intro p c h; cases h
          · intro p c h
            cases r with
            | ok => cases h
            | fail => cases h
            | panic => exact hnp trivial
      | false =>
        rcases lim_cases (E := E) (o := ⟨0, false⟩) rfl (Nat.zero_le _) input with
          ⟨s, log', r', h1, h2, -⟩ | ⟨hx, -⟩
        · rw [hr] at h1
          cases h1
          refine ⟨_, _, _, h2, ?_⟩
          intro p c h
          cases r with
          | ok => cases h
          | fail => cases h
          | panic => exact hnp trivial
        · exact absurd hx.1 (Nat.lt_irrefl 0)
    obtain ⟨log', r', s, h1, h2⟩ := hres
    refine ⟨log', r', s, h1, h2, ?_⟩
    unfold oParse at hout
    rw [h1] at hout
    exact Option.some.inj hout
  obtain ⟨log', r', s, h1, h2, h3⟩ := h0
  have same : oRunStart E o input = oRunStart E ⟨0, o.memoize⟩ input → rParse E o false input = some (.returns (.out x)) := by
    intro hs
    unfold rParse
    rw [hs, h1]
    cases r' with
    | panic p c => exact absurd rfl (h2 p c)
    | ok => exact congrArg (fun y => some (RParseOut.returns y)) h3
    | fail => exact congrArg (fun y => some (RParseOut.returns y)) h3
  by_cases hz : o.maxExprs = 0
  · refine .inl (same ?_)
    obtain ⟨m, b⟩ := o
    cases hz
    rfl
  · rcases pre_start (E := E) (o := o) input with h4 | ⟨l, c, s', h4, -⟩
    · exact .inl (same h4)
    · exact .inr ⟨hz, by unfold rParse; rw [h4]; rfl⟩

/-- **C122.** If the reported error leaves no value behind, then only `Recover` keeps the parser from
panicking. -/
theorem C122_reported (input : List Sym) (q : Loc) (e : RecErr) (h : parse E input = some (.error q e))
    (hf : fatalKind e.kind = true) : ∃ p, rParse E ⟨0, false⟩ false input = some (.panics (some p)) := by
  refine (C122_panics_iff E ⟨0, false⟩ rfl (Nat.zero_le _) input).1.2
    ⟨?_, fun hx => absurd hx.1 (Nat.lt_irrefl 0)⟩
  obtain ⟨log, r, hr, -, hp⟩ := run_panics_iff (E := E) input
  rw [hp] at h
  unfold Fatal recorded
  rw [hr]
  unfold finish at h
  split at h
  · rename_i he
    cases h
    exact ⟨(q, e), by dsimp only; rw [he]; exact List.mem_cons_self .., hf⟩
  · cases h
  · cases h; cases hf
  · cases h; cases hf

variable {E} in
/-- The message tells whether the error leaves a value behind. -/
theorem fatal_phrase {k : ErrKind} (h : ∃ w ∈ fatalPhrases, w <+: k.text E) : fatalKind k = true := by
  have other : ∀ {a b c d : Str}, a <+: b ++ c ++ d → ¬ (a <+: b ∨ b <+: a) → False := by
    intro a b c d ha hb
    rw [List.append_assoc] at ha
    exact hb (List.prefix_or_prefix_of_prefix ha (List.prefix_append _ _))
  have other' : ∀ {a b c : Str}, a <+: b ++ c → ¬ (a <+: b ∨ b <+: a) → False := by
    intro a b c ha hb
    exact hb (List.prefix_or_prefix_of_prefix ha (List.prefix_append _ _))
  obtain ⟨w, hw, hk⟩ := h
  have no : ∀ b : Str, (∀ w ∈ fatalPhrases, ¬ (w <+: b ∨ b <+: w)) → ¬ (w <+: b ∨ b <+: w) := fun b hb => hb w hw
  cases k
  case badInt => exact (other hk (no _ (by decide +kernel))).elim
  case badBool => exact (other hk (no _ (by decide +kernel))).elim
  case noMatch => exact (other' hk (no _ (by decide +kernel))).elim
  case encoding => exact (no "invalid encoding".toList (by decide +kernel) (.inl hk)).elim
  case untermString => exact (no "unterminated string, check for missing closing [\"] or unescaped [\\]".toList (by decide +kernel) (.inl hk)).elim
  case untermRegex => exact (no "unterminated regular expression, did you forget a closing '/'?".toList (by decide +kernel) (.inl hk)).elim
  case emptyField => exact (no "empty field".toList (by decide +kernel) (.inl hk)).elim
  case panic => exact (no "panic".toList (by decide +kernel) (.inl hk)).elim
  all_goals rfl

/-- **C122.** Whether it does can be read off the message, and off the text: a wrong clause (C119) whose message
begins with one of the phrases. -/
theorem C122_message {q s v msg : Str} {n : Nat} (hq : Spec.Opens E .cmp q) (h : WrongClause E q s v msg n)
    (hm : ∃ w ∈ fatalPhrases, w <+: msg) : ∃ p, rParse E ⟨0, false⟩ false ((q ++ s).map .ok) = some (.panics (some p)) := by
  obtain ⟨r, j, rfl, rfl, rfl, hp⟩ := parse_wrong hq h
  exact C122_reported E _ _ j hp (fatal_phrase hm)

theorem wrong_paren : WrongClause E [] "a:)".toList "a:".toList
    "unexpected closing parenthesis, expecting values".toList 1 := by
  have h : WrongValue E ([')'] ++ []) [] "unexpected closing parenthesis, expecting values".toList 1 :=
    .closing (t := []) ⟨by simp, by simp [IsWs], by simp⟩
  refine .values (p := "a".toList) (w1 := []) (w2 := []) (o := []) (w3 := []) (v := []) (s := [')'])
    (.one (.bare (by simp) (by simp [fieldChar_ascii]; decide)))
    (by simp [Ws]) (by simp [Ws]) .eq (by simp [Ws]) (fun _ => rfl) ?_ ?_ (.one h (by simp))
  · rintro k x (_ | _) <;> simp
  · rintro k x (_ | _ | _ | _ | _ | _ | _) <;> simp

/-- **C122.** So the option matters: there is a text on which `Parse` returns an error with `Recover(true)` and
panics with `Recover(false)`. -/
theorem C122_recover_needed : ∃ input, (∃ q e, rParse E ⟨0, false⟩ true input = some (.returns (.out (.error q e)))) ∧
    ∃ p, rParse E ⟨0, false⟩ false input = some (.panics (some p)) := by
  have hq : Spec.Opens E .cmp [] := .notCmp (.andNot (.orAnd (.start (by simp [Ws]))))
  refine ⟨_, ?_, C122_message E hq (wrong_paren E) ⟨"unexpected closing parenthesis".toList, by decide +kernel, by decide +kernel⟩⟩
  obtain ⟨r, j, -, -, -, hp⟩ := parse_wrong hq (wrong_paren E)
  rw [C122_default, C116_within_the_maximum E ⟨0, false⟩ rfl (Nat.zero_le _) _ (fun hx => absurd hx.1 (Nat.lt_irrefl 0)), hp]
  exact ⟨_, _, rfl⟩

/-! Texts of each kind: some panic, some are errors without a panic, some are queries. -/

/-- How a call ends: `none` for a panic, else whether there is an error. -/
def rEnd (s : String) (max : Nat) : Option (Option Bool) :=
  (rParse testEnv ⟨max, false⟩ false (s.toList.map .ok)).map fun
    | .returns (.out (.value _)) => some false
    | .returns _ => some true
    | .panics _ => none

example : ["a:foo", "a:(1)", "a:\"x", "a:300.1.1.1", "a:2020-13-13", "a:(1,b)", "a:(1 2)", "a:1 OR b:)"].map (rEnd · 0) =
    List.replicate 8 (some none) := by decide +kernel
example : ["a:99999999999999999999", "a:/x", "a:1 AND", "a"].map (rEnd · 0) = List.replicate 4 (some (some true)) := by decide +kernel
example : ["a:1", "NOT (a:1 OR b:\"x\")"].map (rEnd · 0) = List.replicate 2 (some (some false)) := by decide +kernel
-- the maximum
example : rEnd "a:1" 5 = some none ∧ ¬ HasMax ⟨0, false⟩ ∧ HasMax ⟨5, false⟩ ∧
    5 < exprCount testEnv ("a:1".toList.map .ok) := by unfold HasMax; decide +kernel
-- errors recorded for a text that panics and for one that does not
example : (recorded testEnv ("a:\"x".toList.map .ok)).map (·.2.kind) = [.untermString, .badString] := by decide +kernel
example : (recorded testEnv ("a:99999999999999999999".toList.map .ok)).map (fun x => fatalKind x.2.kind) ≠ [] ∧
    ∀ x ∈ recorded testEnv ("a:99999999999999999999".toList.map .ok), fatalKind x.2.kind = false := by decide +kernel

/-- A query and a text that gets a list, with both options and without `Recover`. -/
example : (["a:1 OR (b:2)", "a:1 OR (b:2"].map fun s => (rParse testEnv ⟨5000, true⟩ false (s.toList.map .ok)).map fun
      | .returns (.out (.value _)) => 0
      | .returns (.out (.error _ ⟨.noMatch _, _⟩)) => 1
      | .returns _ => 2
      | .panics _ => 3) = [some 0, some 1] ∧
    (rParse testEnv ⟨50, true⟩ false ("a:1 OR (b:2)".toList.map .ok)).map (fun | .panics none => true | _ => false) =
      some true := by decide +kernel

end Aql
