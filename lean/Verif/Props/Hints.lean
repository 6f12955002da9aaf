import Verif.Spec.Hints
import Verif.Props.Validation
import Verif.Proofs.LexString
/-!
Properties C87 (what becomes of the errors of visitors) and C88 (the messages of a matcher are exactly those
its operands call for).
-/

namespace Aql

open Spec

variable (E : Env)

/-! ### C87 -/

theorem runList_no_skip {σ : Type} (visit : σ → Node → GoM (σ × Option VErr)) :
    ∀ (xs : List (Node × Nat)) (k : Nat) (s s' : σ) (e : VErr), runList visit k s xs = .ok (s', some e) →
      e ≠ .skip ∧ e ≠ .skipAll
  | [], k, s, s', e, h => by cases k <;> cases h
  | (n, below) :: xs, k + 1, s, s', e, h => runList_no_skip visit xs k s s' e h
  | (n, below) :: xs, 0, s, s', e, h => by
    rw [runList] at h
    rcases hv : visit s n with p | ⟨t, _ | f⟩
    · rw [hv] at h; cases h
    · rw [hv] at h; exact runList_no_skip visit xs _ _ _ _ h
    · rw [hv] at h
      cases f with
      | skip => exact runList_no_skip visit xs _ _ _ _ h
      | skipAll => cases h
      | parse q => cases h; exact ⟨by simp, by simp⟩
      | other m => cases h; exact ⟨by simp, by simp⟩

theorem runVisitors_visits {σ : Type} (root : Node) : ∀ (vs : List (Visitor σ)) (s s' : VState σ)
    (out : Except PErr Node), Clean s →
    (Visits root vs s s' out ↔ (match runVisitors vs s root with
      | .error p => (.error p : GoM (VState σ × Except PErr Node))
      | .ok (s, some e) => .ok (s, .error e)
      | .ok (s, none) => .ok (s, .ok root)) = .ok (s', out)) := by
  intro vs
  induction vs with
  | nil =>
    intro s s' out hs
    simp only [runVisitors, Except.ok.injEq, Prod.mk.injEq]
    constructor
    · intro h; cases h; exact ⟨rfl, rfl⟩
    · rintro ⟨rfl, rfl⟩; exact .done
  | cons v vs ih =>
    intro s s' out hs
    rw [runVisitors]
    have hw := walk_runList v s root
    rcases hr : walk v s root with p | ⟨t, _ | e⟩
    · rw [hr] at hw
      simp only [reduceCtorEq, iff_false]
      intro h
      cases h <;> rename_i h <;> simp_all
    · have hc := walk_clean v s t root none hs hr
      rw [hr] at hw
      have ht : v.tapeErr t = none := by
        cases v with
        | func f => rfl
        | message id f => simp [Visitor.tapeErr, hc id]
      simp only [ht]
      rw [← ih t s' out hc]
      constructor
      · intro h
        cases h with
        | next h1 h2 => rw [← hw] at h1; cases h1; exact h2
        | parse h1 => rw [← hw] at h1; cases h1
        | other h1 => rw [← hw] at h1; cases h1
      · exact .next hw.symm
    · rw [hr] at hw
      simp only [Except.ok.injEq, Prod.mk.injEq]
      have hne := runList_no_skip _ _ _ _ _ _ hw.symm
      constructor
      · intro h
        cases h with
        | next h1 h2 => rw [← hw] at h1; cases h1
        | parse h1 => rw [← hw] at h1; cases h1; exact ⟨rfl, rfl⟩
        | other h1 => rw [← hw] at h1; cases h1; exact ⟨rfl, rfl⟩
      · rintro ⟨rfl, rfl⟩
        cases e with
        | skip => exact absurd rfl hne.1
        | skipAll => exact absurd rfl hne.2
        | parse q => exact .parse hw.symm
        | other m => exact .other hw.symm

/-- **C87.** A well-typed query goes through the visitors one after the other; the first error, if any, is what
ParseQuery returns, an error of the parser as it is and another one as a failed validation without position,
and no later visitor is run. Without error the tree is returned unchanged. -/
theorem C87_visitor_errors_returned {σ : Type} (vs : List (Visitor σ)) (s s' : VState σ) (root : Node)
    (out : Except PErr Node) (hs : ∀ i, (s.tapes i).firstErr = none)
    (h : ∀ c ∈ comparisons root, AllOk E c) :
    finishParse E vs s (.ok root) = .ok (s', out) ↔ Visits root vs s s' out := by
  rw [finishParse_accepted E vs s root ((allOk_iff E root).2 h), runVisitors_visits root vs s s' out hs]
  rcases runVisitors vs s root with p | ⟨t, _ | e⟩ <;> rfl

-- the second visitor refuses, the third is not run
example : ∃ s', finishParse testEnv
    [.func fun (n : Nat) _ => .ok (n + 1, none), .func fun n _ => .ok (n, some (.other "no".toList)),
      .func fun n _ => .ok (n + 10, none)] ⟨0, fun _ => Tape.new⟩ (.ok (.expr .EXS ["a".toList] [] noPosition)) =
    .ok (s', .error ⟨noPosition, "validation failure: no".toList⟩) ∧ s'.user = 1 := by
  refine ⟨⟨1, fun _ => Tape.new⟩, rfl, rfl⟩

/-! ### C88 -/

theorem saying_if (P : Prop) (c : Bool) (m : Msg) (h : P ↔ c = true) :
    saying P m = if c = true then [m] else [] := by
  unfold saying
  by_cases hp : P
  · rw [if_pos hp, if_pos (h.1 hp)]
  · rw [if_neg hp, if_neg (fun hc => hp (h.2 hc))]

theorem saying_prop (P Q : Prop) [Decidable Q] (m : Msg) (h : P ↔ Q) :
    saying P m = if Q then [m] else [] := by
  unfold saying
  by_cases hp : P
  · rw [if_pos hp, if_pos (h.1 hp)]
  · rw [if_neg hp, if_neg (fun hc => hp (h.2 hc))]

theorem anyRun_iff (r : ReSyn) : AnyRun r ↔ isDotStar r = true := by
  obtain ⟨op, subs⟩ := r
  unfold AnyRun
  constructor
  · rintro ⟨o, ss, h, ho⟩
    cases h
    rcases ho with rfl | rfl <;> simp [isDotStar, ReSyn.op]
  · intro h
    match subs, h with
    | [.mk o ss], h =>
      simp only [isDotStar, ReSyn.op, Bool.and_eq_true, Bool.or_eq_true, beq_iff_eq] at h
      exact ⟨o, ss, by rw [h.1], h.2⟩
    | [], h => simp [isDotStar] at h
    | _ :: _ :: _, h => simp [isDotStar] at h

theorem anySpecial_iff : ∀ subs, anySpecial subs = true ↔ ∃ r ∈ subs, doesSomethingSpecial r = true
  | [] => by simp [anySpecial]
  | r :: rs => by simp [anySpecial, anySpecial_iff rs]

theorem unusual_special {r : ReSyn} (h : Unusual r) : doesSomethingSpecial r = true := by
  induction h with
  | here h1 h2 h3 => simp [doesSomethingSpecial, h1, h2, h3]
  | @deep op subs r hl hm _ ih =>
    rw [doesSomethingSpecial]
    · exact (anySpecial_iff subs).2 ⟨r, hm, ih⟩
    · rintro x rfl; exact hl rfl

theorem special_unusual : ∀ (r : ReSyn), doesSomethingSpecial r = true → Unusual r
  | .mk op [s], h => by
    simp only [doesSomethingSpecial, Bool.not_eq_true', Bool.or_eq_false_iff, beq_eq_false_iff_ne] at h
    exact .here h.1.1 h.1.2 h.2
  | .mk op [], h => by simp [doesSomethingSpecial, anySpecial] at h
  | .mk op (a :: b :: rest), h => by
    rw [doesSomethingSpecial.eq_2 _ _ (by simp)] at h
    obtain ⟨r, hm, hr⟩ := (anySpecial_iff _).1 h
    exact .deep (by simp) hm (special_unusual r hr)
  termination_by r => sizeOf r
  decreasing_by
    have := List.sizeOf_lt_of_mem hm
    simp only [ReSyn.mk.sizeOf_spec]
    omega

theorem unusual_iff (r : ReSyn) : Unusual r ↔ doesSomethingSpecial r = true :=
  ⟨unusual_special, special_unusual r⟩

/-- The pattern the hints look at. -/
def lookedAt : ReSyn → ReSyn
  | .mk op [r] => if op = opCapture then r else .mk op [r]
  | r => r

theorem looked_iff {src : Str} {reg : ReSyn} (hreg : E.reSyntax src = some reg) (r : ReSyn) :
    Looked E src r ↔ r = lookedAt reg := by
  unfold Looked
  rw [hreg]
  simp only [Option.some.injEq]
  obtain ⟨op, subs⟩ := reg
  match subs with
  | [] =>
    simp only [lookedAt]
    constructor
    · rintro (h | ⟨h, -⟩)
      · cases h
      · exact h.symm
    · rintro rfl; exact .inr ⟨rfl, by simp⟩
  | [x] =>
    simp only [lookedAt]
    by_cases ho : op = opCapture
    · subst ho
      rw [if_pos rfl]
      constructor
      · rintro (h | ⟨rfl, h⟩)
        · cases h; rfl
        · exact absurd rfl (h x)
      · rintro rfl; exact .inl rfl
    · rw [if_neg ho]
      constructor
      · rintro (h | ⟨h, -⟩)
        · cases h; exact absurd rfl ho
        · exact h.symm
      · rintro rfl; exact .inr ⟨rfl, by simp [ho]⟩
  | _ :: _ :: _ =>
    simp only [lookedAt]
    constructor
    · rintro (h | ⟨h, -⟩)
      · cases h
      · exact h.symm
    · rintro rfl; exact .inr ⟨rfl, by simp⟩

theorem joinDots_told : ∀ f, joinDots f = List.intercalate ['.'] f
  | [] => by simp [joinDots]
  | [p] => by simp [joinDots]
  | p :: q :: ps => by
    rw [joinDots, joinDots_told (q :: ps), List.intercalate_cons_cons]
    · simp
    · simp

/-- The hints on the parsed pattern. -/
theorem reHints_told (field : List Str) (src : Str) (pos : Pos) (reg : ReSyn)
    (hreg : E.reSyntax src = some reg) : reHints E field src pos reg =
    saying (∃ r, E.reSyntax src = some (.mk opCapture [r])) ⟨.hint, pos, captureText (E.reSubText src)⟩ ++
    saying (∃ subs, Looked E src (.mk opAlternate subs) ∧ ¬ Unusual (.mk opAlternate subs)) ⟨.hint, pos,
      alternationText (joinDots field)⟩ ++
    saying (∃ o first second rest, Looked E src (.mk o (first :: second :: rest)) ∧ AnyRun first)
      ⟨.hint, pos, leadingText⟩ ++
    saying (∃ o first second more last, Looked E src (.mk o (first :: second :: more ++ [last])) ∧ AnyRun last)
      ⟨.hint, pos, trailingText⟩ := by
  simp only [looked_iff E hreg, anyRun_iff, unusual_iff, hreg, Option.some.injEq]
  have hcap : (∃ r, reg = .mk opCapture [r]) ↔ (reg.subs.length == 1 && reg.op == opCapture) = true := by
    obtain ⟨op, subs⟩ := reg
    simp only [ReSyn.subs, ReSyn.op, Bool.and_eq_true, beq_iff_eq, ReSyn.mk.injEq, List.length_eq_one_iff]
    constructor
    · rintro ⟨r, rfl, rfl⟩; exact ⟨⟨r, rfl⟩, rfl⟩
    · rintro ⟨⟨r, rfl⟩, rfl⟩; exact ⟨r, rfl, rfl⟩
  have hin : (if (reg.subs.length == 1 && reg.op == opCapture) = true then reg.subs.headD reg else reg)
      = lookedAt reg := by
    obtain ⟨op, subs⟩ := reg
    match subs with
    | [] => simp [lookedAt, ReSyn.subs]
    | [x] =>
      by_cases ho : op = opCapture <;> simp [lookedAt, ReSyn.subs, ReSyn.op, ho]
    | _ :: _ :: _ => simp [lookedAt, ReSyn.subs]
  unfold reHints
  simp only [hin]
  generalize lookedAt reg = r
  obtain ⟨op, subs⟩ := r
  rw [saying_if _ _ _ hcap]
  rw [saying_if _ (ReSyn.op (.mk op subs) == opAlternate && !doesSomethingSpecial (.mk op subs))]
  · rw [saying_prop _ (2 ≤ subs.length ∧ (subs.head?).any isDotStar = true)]
    · rw [saying_prop _ (3 ≤ subs.length ∧ (subs.getLast?).any isDotStar = true)]
      · simp only [List.append_assoc, ReSyn.subs]
        congr 2
        by_cases h2 : 2 ≤ subs.length
        · by_cases h3 : 3 ≤ subs.length <;> by_cases h4 : Option.any isDotStar subs.head? = true <;>
            simp [h2, h3, h4]
        · have h3 : ¬ 3 ≤ subs.length := by omega
          simp only [h2, h3, false_and, if_false, List.append_nil]
      · constructor
        · rintro ⟨o, first, second, more, last, h, hl⟩
          cases h
          refine ⟨by simp, ?_⟩
          rw [List.getLast?_concat]
          exact hl
        · rintro ⟨h3, hl⟩
          match subs, h3 with
          | first :: second :: x :: rest, _ =>
            have hne : x :: rest ≠ [] := by simp
            refine ⟨op, first, second, (x :: rest).dropLast, (x :: rest).getLast hne, ?_, ?_⟩
            · rw [List.cons_append, List.cons_append, List.dropLast_append_getLast]
            · rw [List.getLast?_cons_cons, List.getLast?_cons_cons,
                List.getLast?_eq_getLast_of_ne_nil hne] at hl
              exact hl
    · constructor
      · rintro ⟨o, first, second, rest, h, hl⟩
        cases h
        exact ⟨by simp, hl⟩
      · rintro ⟨h2, hl⟩
        match subs, h2 with
        | first :: second :: rest, _ => exact ⟨op, first, second, rest, rfl, hl⟩
  · simp only [ReSyn.op, Bool.and_eq_true, beq_iff_eq, Bool.not_eq_true']
    constructor
    · rintro ⟨ss, h, hs⟩
      cases h
      exact ⟨rfl, by simpa using hs⟩
    · rintro ⟨rfl, hs⟩
      exact ⟨subs, rfl, by simpa using hs⟩

/-- What the visitor says about one operand, if the pattern of a regular expression can be parsed. -/
theorem valMessages_told (op : Op) (field : List Str) (v : Val) (h : (valMessages E op field v).2 = none) :
    (valMessages E op field v).1 = told E op field v := by
  cases v with
  | str sv pos => exact (saying_prop _ _ _ Iff.rfl).symm
  | time sv t d pos => exact (saying_prop _ _ _ Iff.rfl).symm
  | regex sv src pos =>
    cases hreg : E.reSyntax src with
    | none => simp [valMessages, hreg] at h
    | some reg =>
      simp only [valMessages, hreg, told]
      rw [reHints_told E field src pos reg hreg]
      simp only [hreg, joinDots_told, List.append_assoc]
      have hi : (∃ re, Trimmed sv ("(?i)".toList ++ re)) ↔ "(?i)".toList <+: trimSlash sv := by
        constructor
        · rintro ⟨re, h⟩; rw [trimmed_iff.1 h]; exact ⟨re, rfl⟩
        · rintro ⟨re, h⟩; exact ⟨re, trimmed_iff.2 h.symm⟩
      have hp : ∀ re, BareRe sv re ↔ re = trimPrefix (trimSlash sv) "(?i)".toList := by
        intro re
        unfold BareRe trimPrefix
        rw [trimmed_iff, trimmed_iff]
        by_cases hb : "(?i)".toList <+: trimSlash sv
        · rw [if_pos (List.isPrefixOf_iff_prefix.2 hb)]
          obtain ⟨t, ht⟩ := hb
          rw [← ht, List.drop_left]
          constructor
          · rintro (h | ⟨rfl, h⟩)
            · exact (List.append_cancel_left h).symm
            · exact absurd ⟨t, rfl⟩ h
          · rintro rfl; exact .inl rfl
        · rw [if_neg (fun h => hb (List.isPrefixOf_iff_prefix.1 h))]
          constructor
          · rintro (h | ⟨rfl, h⟩)
            · exact absurd ⟨re, h.symm⟩ hb
            · rfl
          · rintro rfl; exact .inr ⟨rfl, hb⟩
      congr 1
      · exact (saying_prop _ _ _ Iff.rfl).symm
      · congr 1
        · refine (saying_if _ _ _ ?_).symm
          rw [hi, Bool.and_eq_true, List.isPrefixOf_iff_prefix, Bool.not_eq_true', ← Bool.not_eq_true,
            isASCII_iff]
          push Not
          rfl
        · congr 1
          refine (saying_if _ _ _ ?_).symm
          simp only [hp, exists_eq_left, Bool.or_eq_true, List.isPrefixOf_iff_prefix, hasSuffix,
            List.reverse_prefix]
  | _ => rfl

theorem exprMessages_told (op : Op) (field : List Str) : ∀ vs, (exprMessages E op field vs).2 = none →
    (exprMessages E op field vs).1 = vs.flatMap (told E op field)
  | [], _ => rfl
  | v :: vs, h => by
    simp only [exprMessages] at h ⊢
    have hv := valMessages_told E op field v
    rcases hm : valMessages E op field v with ⟨ms, _ | e⟩
    · rw [hm] at h hv
      rw [List.flatMap_cons, ← exprMessages_told op field vs h, ← hv rfl]
    · rw [hm] at h; cases h

/-- **C88.** The messages of a matcher are exactly those its operands call for: operand by operand, from left
to right, with the position of the operand; nothing else is said and nothing is left out. -/
theorem C88_messages_exact (query : Str) (root : Node) (m : Matcher) (msgs : List Msg)
    (h : newMatcherFrom E query (.ok root) = .ok (.ok (m, msgs))) :
    msgs = (comparisons root).flatMap (toldBy E) := by
  obtain ⟨h1, h2⟩ := newMatcher_messages E query root m msgs h
  rw [h1]
  apply List.flatMap_congr
  intro c hc
  obtain ⟨op, f, vs, pos, rfl⟩ := comparisons_expr root c hc
  exact exprMessages_told E op f vs (h2 _ hc)

/-- An environment in which patterns are `(.*|x|.*)`. -/
def groupEnv : Env := { testEnv with
  reOk := fun _ => true
  reSyntax := fun _ => some (.mk opCapture [.mk opAlternate
    [.mk opStar [.mk opAnyChar []], .mk opLiteral [], .mk opStar [.mk opAnyCharNotNL []]]]) }

-- all four hints on the parsed pattern, and the one on its text
example : ((newMatcherFrom groupEnv [] (.ok (.expr .EQ ["a".toList] [.regex "/.*é/".toList ".*é".toList ⟨1, 3, 2, 5⟩]
    ⟨1, 1, 0, 7⟩))).toOption.bind Except.toOption).map (fun r => r.2.map Msg.text) =
    some [dotStarText "/.*é/".toList, captureText ".*é".toList, alternationText "a".toList, leadingText,
      trailingText] := by
  decide +kernel

end Aql
