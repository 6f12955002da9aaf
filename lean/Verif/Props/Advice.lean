import Verif.Spec.Advice
import Verif.Props.Hints
import Verif.Props.Patterns
/-!
C128: what becomes of a query if the hints on its pattern are followed.
-/

namespace Aql

open Spec

variable {E : Env}

theorem takes_group {r : Rx} {b m a : Str} : Takes (.group r) b m a ↔ Takes r b m a :=
  ⟨fun h => by cases h; assumption, .group⟩

theorem found_group {r : Rx} {t : Str} : FoundIn (.group r) t ↔ FoundIn r t := by
  simp only [FoundIn, takes_group]

theorem found_bracketed {r s : Rx} (h : Bracketed r s) {t : Str} : FoundIn s t ↔ FoundIn r t := by
  rcases h with rfl | rfl
  · rfl
  · exact found_group

theorem takes_single {r : Rx} {b m a : Str} : Takes (.seq [r]) b m a ↔ Takes r b m a := by
  constructor
  · intro h
    cases h with
    | one h1 h2 =>
      cases h2
      simpa using h1
  · intro h
    have := Takes.one (n := []) (rs := []) (by simpa using h) .none
    simpa using this

theorem found_inTurn {rs : List Rx} {t : Str} : FoundIn (inTurn rs) t ↔ FoundIn (.seq rs) t := by
  match rs with
  | [] => rfl
  | [r] => simp only [inTurn, FoundIn, takes_single]
  | _ :: _ :: _ => rfl

theorem takes_alt {rs : List Rx} {b m a : Str} : Takes (.alt rs) b m a ↔ ∃ r ∈ rs, Takes r b m a :=
  ⟨fun h => by cases h; exact ⟨_, ‹_›, ‹_›⟩, fun ⟨_, h, h2⟩ => .alt h h2⟩

theorem found_alt {rs : List Rx} {t : Str} : FoundIn (.alt rs) t ↔ ∃ r ∈ rs, FoundIn r t := by
  simp only [FoundIn, takes_alt]
  constructor
  · rintro ⟨b, m, a, h, r, hr, h2⟩; exact ⟨r, hr, b, m, a, h, h2⟩
  · rintro ⟨r, hr, b, m, a, h, h2⟩; exact ⟨b, m, a, h, r, hr, h2⟩

theorem found_oneOf {rs : List Rx} {t : Str} : FoundIn (oneOf rs) t ↔ FoundIn (.alt rs) t := by
  match rs with
  | [] => rfl
  | [r] => simp [oneOf, found_alt]
  | _ :: _ :: _ => rfl

theorem takes_dotStar (k : Bool) (b a : Str) : Takes (dotStar k) b [] a :=
  .rep (n := 0) (Nat.zero_le _) (by simp) .none

theorem found_dotStar (k : Bool) (t : Str) : FoundIn (dotStar k) t :=
  ⟨[], [], t, by simp, takes_dotStar k _ _⟩

theorem found_leading (k : Bool) {rs : List Rx} {t : Str} :
    FoundIn (.seq (dotStar k :: rs)) t ↔ FoundIn (.seq rs) t := by
  constructor
  · rintro ⟨b, _, a, h, h2⟩
    cases h2 with
    | @one _ _ _ m n _ h1 h2 => exact ⟨b ++ m, n, a, by simpa using h, h2⟩
  · rintro ⟨b, m, a, h, h2⟩
    exact ⟨b, m, a, h, Takes.one (m := []) (takes_dotStar k _ _) (by simpa using h2)⟩

theorem takes_snoc {rs : List Rx} {last : Rx} {b m a : Str} :
    Takes (.seq (rs ++ [last])) b m a ↔
      ∃ m1 m2, m = m1 ++ m2 ∧ Takes (.seq rs) b m1 (m2 ++ a) ∧ Takes last (b ++ m1) m2 a := by
  induction rs generalizing b m with
  | nil =>
    rw [List.nil_append, takes_single]
    constructor
    · intro h; exact ⟨[], m, rfl, .none, by simpa using h⟩
    · rintro ⟨m1, m2, rfl, h1, h2⟩
      cases h1
      simpa using h2
  | cons r rs ih =>
    constructor
    · intro h
      rw [List.cons_append] at h
      cases h with
      | @one _ _ _ m n _ h1 h2 =>
        obtain ⟨m1, m2, rfl, h3, h4⟩ := ih.1 h2
        exact ⟨m ++ m1, m2, by simp, .one (by simpa using h1) h3, by simpa using h4⟩
    · rintro ⟨m1, m2, rfl, h1, h2⟩
      cases h1 with
      | @one _ _ _ m n _ h3 h4 =>
        rw [List.append_assoc]
        exact .one (by simpa using h3) (ih.2 ⟨n, m2, rfl, h4, by simpa using h2⟩)

theorem found_trailing (k : Bool) {rs : List Rx} {t : Str} :
    FoundIn (.seq (rs ++ [dotStar k])) t ↔ FoundIn (.seq rs) t := by
  constructor
  · rintro ⟨b, m, a, h, h2⟩
    obtain ⟨m1, m2, rfl, h3, -⟩ := takes_snoc.1 h2
    exact ⟨b, m1, m2 ++ a, by simpa using h, h3⟩
  · rintro ⟨b, m, a, h, h2⟩
    exact ⟨b, m, a, h, takes_snoc.2 ⟨m, [], by simp, by simpa using h2, takes_dotStar k _ _⟩⟩

theorem anyRun_dotStar (k : Bool) : AnyRun (dotStar k).shape := by
  cases k
  · exact ⟨opAnyCharNotNL, [], by simp [dotStar, Rx.shape], .inr rfl⟩
  · exact ⟨opAnyChar, [], by simp [dotStar, Rx.shape], .inl rfl⟩

theorem shapes_append (rs ss : List Rx) : Rx.shapes (rs ++ ss) = Rx.shapes rs ++ Rx.shapes ss := by
  induction rs with
  | nil => rfl
  | cons r rs ih => simp [Rx.shapes, ih]

theorem looked_bracketed {src : Str} {r s : Rx} (h : E.reSyntax src = some s.shape) (hb : Bracketed r s)
    (hr : ∀ x, r.shape ≠ .mk opCapture [x]) : Looked E src r.shape := by
  rcases hb with rfl | rfl
  · exact .inr ⟨h, hr⟩
  · exact .inl (by simpa [Rx.shape] using h)

theorem said {P : Prop} (h : P) (m : Msg) : m ∈ saying P m := by simp [saying, h]

theorem sameTexts {src src' : Str} {r r' : Rx} (h : ReadsRx E src r) (h' : ReadsRx E src' r')
    (hs : ∀ t, FoundIn r t ↔ FoundIn r' t) (t : Str) : reMatchString E src t = reMatchString E src' t := by
  rw [Bool.eq_iff_iff, h.2, h'.2, hs]

variable (E) in
/-- **C128.** If the hint about the outer group is followed, the same texts are found. -/
theorem C128_group (field : List Str) (pos : Pos) {src src' : Str} {r : Rx} (h : ReadsRx E src (.group r))
    (h' : ReadsRx E src' r) :
    ⟨.hint, pos, "unnecessary outer capturing group \"()\", consider /".toList ++ E.reSubText src ++ "/".toList⟩
      ∈ reHints E field src pos (Rx.group r).shape ∧
    ∀ t, reMatchString E src t = reMatchString E src' t := by
  refine ⟨?_, sameTexts h h' fun t => found_group⟩
  rw [reHints_told E field src pos _ h.1]
  simp only [List.mem_append]
  exact .inl (.inl (.inl (said ⟨r.shape, by rw [h.1]; rfl⟩ _)))

variable (E) in
/-- **C128.** A leading `.*` before something else: the hint is given, and without it the same texts are found. -/
theorem C128_leading_partial (field : List Str) (pos : Pos) {src src' : Str} {k : Bool} {second s : Rx}
    {rest : List Rx} (hb : Bracketed (.seq (dotStar k :: second :: rest)) s) (h : ReadsRx E src s)
    (h' : ReadsRx E src' (inTurn (second :: rest))) :
    ⟨.hint, pos, "leading \".*\" may not do what you think, if you are searching for a term anywhere in a string, consider just \"/word/\"".toList⟩
      ∈ reHints E field src pos s.shape ∧
    ∀ t, reMatchString E src t = reMatchString E src' t := by
  refine ⟨?_, sameTexts h h' fun t => ?_⟩
  · rw [reHints_told E field src pos _ h.1]
    simp only [List.mem_append]
    refine .inl (.inr (said ?_ _))
    have hl := looked_bracketed h.1 hb (by intro x; simp [Rx.shape, opConcat, opCapture])
    simp only [Rx.shape, Rx.shapes] at hl
    exact ⟨_, _, _, _, hl, anyRun_dotStar k⟩
  · rw [found_bracketed hb, found_inTurn, found_leading]

variable (E) in
/-- **C128.** A trailing `.*` after two parts or more: the hint is given, and without it the same texts are
found. -/
theorem C128_trailing_partial (field : List Str) (pos : Pos) {src src' : Str} {k : Bool} {first second s : Rx}
    {more : List Rx} (hb : Bracketed (.seq (first :: second :: more ++ [dotStar k])) s) (h : ReadsRx E src s)
    (h' : ReadsRx E src' (.seq (first :: second :: more))) :
    ⟨.hint, pos, "trailing \".*\" is probably unnecessary".toList⟩ ∈ reHints E field src pos s.shape ∧
    ∀ t, reMatchString E src t = reMatchString E src' t := by
  refine ⟨?_, sameTexts h h' fun t => ?_⟩
  · rw [reHints_told E field src pos _ h.1]
    simp only [List.mem_append]
    refine .inr (said ?_ _)
    have hl := looked_bracketed h.1 hb (by intro x; simp [Rx.shape, opConcat, opCapture])
    simp only [Rx.shape, List.cons_append, Rx.shapes, shapes_append] at hl
    exact ⟨_, _, _, _, _, hl, anyRun_dotStar k⟩
  · rw [found_bracketed hb, found_trailing]

variable (E) in
/-- **C128.** The same hint is given where `.*` is the first of several alternatives. Such a pattern is found in
every text, so leaving the alternative out changes nothing exactly if in every text one of the others is found. -/
theorem C128_leading_exact (field : List Str) (pos : Pos) {src src' : Str} {k : Bool} {second s : Rx}
    {rest : List Rx} (hb : Bracketed (.alt (dotStar k :: second :: rest)) s) (h : ReadsRx E src s)
    (h' : ReadsRx E src' (oneOf (second :: rest))) :
    ⟨.hint, pos, "leading \".*\" may not do what you think, if you are searching for a term anywhere in a string, consider just \"/word/\"".toList⟩
      ∈ reHints E field src pos s.shape ∧
    (∀ t, reMatchString E src t = true) ∧
    ((∀ t, reMatchString E src t = reMatchString E src' t) ↔
      ∀ t, ∃ r ∈ second :: rest, FoundIn r t) := by
  have hall : ∀ t, reMatchString E src t = true := fun t => by
    rw [h.2, found_bracketed hb, found_alt]
    exact ⟨_, List.mem_cons_self, found_dotStar k t⟩
  refine ⟨?_, hall, by simp only [hall, eq_comm (a := true), h'.2, found_oneOf, found_alt]⟩
  rw [reHints_told E field src pos _ h.1]
  simp only [List.mem_append]
  refine .inl (.inr (said ?_ _))
  have hl := looked_bracketed h.1 hb (by intro x; simp [Rx.shape, opAlternate, opCapture])
  simp only [Rx.shape, Rx.shapes] at hl
  exact ⟨_, _, _, _, hl, anyRun_dotStar k⟩

variable (E) in
/-- **C128.** Likewise for `.*` as the last of three alternatives or more. -/
theorem C128_trailing_exact (field : List Str) (pos : Pos) {src src' : Str} {k : Bool} {first second s : Rx}
    {more : List Rx} (hb : Bracketed (.alt (first :: second :: more ++ [dotStar k])) s) (h : ReadsRx E src s)
    (h' : ReadsRx E src' (.alt (first :: second :: more))) :
    ⟨.hint, pos, "trailing \".*\" is probably unnecessary".toList⟩ ∈ reHints E field src pos s.shape ∧
    (∀ t, reMatchString E src t = true) ∧
    ((∀ t, reMatchString E src t = reMatchString E src' t) ↔
      ∀ t, ∃ r ∈ first :: second :: more, FoundIn r t) := by
  have hall : ∀ t, reMatchString E src t = true := fun t => by
    rw [h.2, found_bracketed hb, found_alt]
    exact ⟨_, by simp, found_dotStar k t⟩
  refine ⟨?_, hall, by simp only [hall, eq_comm (a := true), h'.2, found_alt]⟩
  rw [reHints_told E field src pos _ h.1]
  simp only [List.mem_append]
  refine .inr (said ?_ _)
  have hl := looked_bracketed h.1 hb (by intro x; simp [Rx.shape, opAlternate, opCapture])
  simp only [Rx.shape, List.cons_append, Rx.shapes, shapes_append] at hl
  exact ⟨_, _, _, _, _, hl, anyRun_dotStar k⟩

theorem other_text {k : MsgType} {pos : Pos} {a b : Str} {x y : Char} (ha : a.head? = some x)
    (hb : b.head? = some y) (h : x ≠ y) : (⟨k, pos, a⟩ : Msg) ≠ ⟨k, pos, b⟩ := fun e => by
  rw [Msg.mk.injEq] at e
  rw [e.2.2, hb] at ha
  exact h (Option.some.inj ha).symm

theorem head_kept {a b c : Str} {x : Char} (h : a.head? = some x) : (a ++ b ++ c).head? = some x := by
  rw [List.append_assoc, List.head?_append, h]
  rfl

theorem capture_head (x : Str) : (captureText x).head? = some 'u' := by
  unfold captureText
  exact head_kept (by decide +kernel)

theorem alternation_head (x : Str) : (alternationText x).head? = some 'i' := by
  unfold alternationText
  exact head_kept (by decide +kernel)

theorem leading_head : leadingText.head? = some 'l' := by decide +kernel

theorem trailing_head : trailingText.head? = some 't' := by decide +kernel

theorem saying_mem {P : Prop} {m n : Msg} : n ∈ saying P m ↔ P ∧ n = m := by
  unfold saying
  split <;> simp [*]

theorem looked_shape {src : Str} {s : Rx} {x : ReSyn} (h : E.reSyntax src = some s.shape) (hl : Looked E src x) :
    ∃ r, Bracketed r s ∧ x = r.shape := by
  rcases hl with hl | ⟨hl, -⟩
  · rw [h, Option.some.injEq] at hl
    cases s with
    | group r =>
      simp only [Rx.shape, ReSyn.mk.injEq, List.cons.injEq, and_true, true_and] at hl
      exact ⟨r, .inr rfl, hl.symm⟩
    | leaf op P h => simp [Rx.shape] at hl
    | any k => simp [Rx.shape] at hl
    | rep op lo hi r hr =>
      simp only [Rx.shape, ReSyn.mk.injEq] at hl
      have hop := hl.1
      rcases hr with ⟨h1, -⟩ | ⟨h1, -⟩ | ⟨h1, -⟩ | h1 <;> exact absurd (h1.symm.trans hop) (by decide)
    | seq rs => exact absurd (by simpa [Rx.shape] using (ReSyn.mk.injEq .. ▸ hl : _ ∧ _).1) (by decide : opConcat ≠ opCapture)
    | alt rs => exact absurd (by simpa [Rx.shape] using (ReSyn.mk.injEq .. ▸ hl : _ ∧ _).1) (by decide : opAlternate ≠ opCapture)
  · rw [h, Option.some.injEq] at hl
    exact ⟨s, .inl rfl, hl.symm⟩

theorem dotStar_of_shape {r : Rx} (h : AnyRun r.shape) : ∃ k, r = dotStar k := by
  obtain ⟨o, subs, h, ho⟩ := h
  cases r with
  | rep op lo hi r hr =>
    simp only [Rx.shape, ReSyn.mk.injEq, List.cons.injEq, and_true] at h
    obtain ⟨rfl, h⟩ := h
    have hr' := hr
    rcases hr' with ⟨-, rfl, rfl⟩ | ⟨h1, -⟩ | ⟨h1, -⟩ | h1
    · cases r with
      | any k => exact ⟨k, rfl⟩
      | leaf op P hp =>
        simp only [Rx.shape, ReSyn.mk.injEq] at h
        rcases ho with rfl | rfl
        · exact absurd h.1 hp.2.1
        · exact absurd h.1 hp.2.2
      | rep op lo hi r hr =>
        simp only [Rx.shape, ReSyn.mk.injEq] at h
        rcases hr with ⟨h1, -⟩ | ⟨h1, -⟩ | ⟨h1, -⟩ | h1 <;> rcases ho with rfl | rfl <;>
          exact absurd (h1.symm.trans h.1) (by decide)
      | group r =>
        simp only [Rx.shape, ReSyn.mk.injEq] at h
        rcases ho with rfl | rfl <;> exact absurd h.1 (by decide)
      | seq r =>
        simp only [Rx.shape, ReSyn.mk.injEq] at h
        rcases ho with rfl | rfl <;> exact absurd h.1 (by decide)
      | alt r =>
        simp only [Rx.shape, ReSyn.mk.injEq] at h
        rcases ho with rfl | rfl <;> exact absurd h.1 (by decide)
    all_goals exact absurd h1 (by decide)
  | leaf op P hp => simp [Rx.shape] at h
  | any k => simp [Rx.shape] at h
  | group r =>
    simp only [Rx.shape, ReSyn.mk.injEq] at h
    exact absurd h.1 (by decide)
  | seq r =>
    simp only [Rx.shape, ReSyn.mk.injEq] at h
    exact absurd h.1 (by decide)
  | alt r =>
    simp only [Rx.shape, ReSyn.mk.injEq] at h
    exact absurd h.1 (by decide)

theorem shapes_map (rs : List Rx) : Rx.shapes rs = rs.map Rx.shape := by
  induction rs with
  | nil => rfl
  | cons r rs ih => simp [Rx.shapes, ih]

/-- Only sequences and alternatives have several parts. -/
theorem several_parts {r : Rx} {o : Nat} {x y : ReSyn} {zs : List ReSyn} (h : ReSyn.mk o (x :: y :: zs) = r.shape) :
    ∃ rs, (r = .seq rs ∨ r = .alt rs) ∧ x :: y :: zs = rs.map Rx.shape := by
  cases r with
  | seq rs => exact ⟨rs, .inl rfl, by rw [← shapes_map]; simpa [Rx.shape] using (ReSyn.mk.injEq .. ▸ h : _ ∧ _).2⟩
  | alt rs => exact ⟨rs, .inr rfl, by rw [← shapes_map]; simpa [Rx.shape] using (ReSyn.mk.injEq .. ▸ h : _ ∧ _).2⟩
  | leaf op P hp => simp [Rx.shape] at h
  | any k => simp [Rx.shape] at h
  | rep op lo hi r hr => simp [Rx.shape] at h
  | group r => simp [Rx.shape] at h

variable (E) in
/-- **C128.** The hint about a leading `.*` is given for nothing but the two forms below. -/
theorem C128_leading_given (field : List Str) (pos : Pos) {src : Str} {s : Rx} (h : ReadsRx E src s)
    (hh : ⟨.hint, pos, "leading \".*\" may not do what you think, if you are searching for a term anywhere in a string, consider just \"/word/\"".toList⟩
      ∈ reHints E field src pos s.shape) :
    ∃ k second rest, Bracketed (.seq (dotStar k :: second :: rest)) s ∨
      Bracketed (.alt (dotStar k :: second :: rest)) s := by
  change (⟨.hint, pos, leadingText⟩ : Msg) ∈ _ at hh
  rw [reHints_told E field src pos _ h.1] at hh
  simp only [List.mem_append, saying_mem] at hh
  rcases hh with ((⟨-, hh⟩ | ⟨-, hh⟩) | ⟨hh, -⟩) | ⟨-, hh⟩
  · exact absurd hh (other_text leading_head (capture_head _) (by decide))
  · exact absurd hh (other_text leading_head (alternation_head _) (by decide))
  · obtain ⟨o, x, y, zs, hl, hx⟩ := hh
    obtain ⟨r, hb, hr⟩ := looked_shape h.1 hl
    obtain ⟨rs, hrs, hm⟩ := several_parts hr
    match rs, hm with
    | first :: second :: rest, hm =>
      simp only [List.map_cons, List.cons.injEq] at hm
      obtain ⟨k, rfl⟩ := dotStar_of_shape (hm.1 ▸ hx)
      refine ⟨k, second, rest, ?_⟩
      rcases hrs with rfl | rfl
      · exact .inl hb
      · exact .inr hb
  · exact absurd hh (other_text leading_head trailing_head (by decide))

variable (E) in
/-- **C128.** So is the hint about a trailing `.*`. -/
theorem C128_trailing_given (field : List Str) (pos : Pos) {src : Str} {s : Rx} (h : ReadsRx E src s)
    (hh : ⟨.hint, pos, "trailing \".*\" is probably unnecessary".toList⟩ ∈ reHints E field src pos s.shape) :
    ∃ k first second more, Bracketed (.seq (first :: second :: more ++ [dotStar k])) s ∨
      Bracketed (.alt (first :: second :: more ++ [dotStar k])) s := by
  change (⟨.hint, pos, trailingText⟩ : Msg) ∈ _ at hh
  rw [reHints_told E field src pos _ h.1] at hh
  simp only [List.mem_append, saying_mem] at hh
  rcases hh with ((⟨-, hh⟩ | ⟨-, hh⟩) | ⟨-, hh⟩) | ⟨hh, -⟩
  · exact absurd hh (other_text trailing_head (capture_head _) (by decide))
  · exact absurd hh (other_text trailing_head (alternation_head _) (by decide))
  · exact absurd hh (other_text trailing_head leading_head (by decide))
  · obtain ⟨o, x, y, zs, z, hl, hz⟩ := hh
    obtain ⟨r, hb, hr⟩ := looked_shape h.1 hl
    obtain ⟨rs, hrs, hm⟩ := several_parts hr
    match rs, hm with
    | first :: second :: rest, hm =>
      simp only [List.map_cons, List.cons.injEq] at hm
      obtain ⟨more, last, rfl, -, hlast⟩ := List.map_eq_append_iff.1 hm.2.2.symm
      obtain ⟨last, rfl, rfl⟩ := List.map_eq_singleton_iff.1 hlast
      obtain ⟨k, rfl⟩ := dotStar_of_shape hz
      refine ⟨k, first, second, more, ?_⟩
      rcases hrs with rfl | rfl
      · exact .inl hb
      · exact .inr hb

variable (E) in
/-- **C128.** Behind a single part, a trailing `.*` is just as needless, but the hint on the parsed pattern is not
given: the length of the sequence is asked to be three. -/
theorem C128_trailing_missed (field : List Str) (pos : Pos) {src src' : Str} {k : Bool} {first s : Rx}
    (hb : Bracketed (.seq [first, dotStar k]) s) (h : ReadsRx E src s) (h' : ReadsRx E src' first) :
    ⟨.hint, pos, "trailing \".*\" is probably unnecessary".toList⟩ ∉ reHints E field src pos s.shape ∧
    ∀ t, reMatchString E src t = reMatchString E src' t := by
  refine ⟨fun hh => ?_, sameTexts h h' fun t => ?_⟩
  · obtain ⟨k', first', second, more, hg⟩ := C128_trailing_given E field pos h hh
    rcases hb with rfl | rfl <;> rcases hg with (hg | hg) | (hg | hg) <;>
      (try cases hg) <;> simp at hg
  · rw [found_bracketed hb]
    exact (found_trailing k (rs := [first])).trans (found_inTurn (rs := [first])).symm

variable (E) in
/-- **C128.** Two patterns found in the same texts make queries that accept the same documents. -/
theorem C128_documents {p o t t' u u' src src' : Str} {xs : List Str} {op : Op} {pos pos' : Pos}
    (hp : Path E p xs) (ho : OpText o op) (hop : op = .EQ ∨ op = .SIM)
    (hl : Lit E [] t (.regex u src pos)) (hl' : Lit E [] t' (.regex u' src' pos'))
    (hsyn : E.reSyntax src ≠ none) (hsyn' : E.reSyntax src' ≠ none)
    (hsame : ∀ s, reMatchString E src s = reMatchString E src' s) :
    ∃ m ms m' ms', newMatcher E (utf8 (cmpText p o t)) = some (.ok (.ok (m, ms))) ∧
      newMatcher E (utf8 (cmpText p o t')) = some (.ok (.ok (m', ms'))) ∧
      ∀ d, Plain d (withoutStars xs) → (Accepts E m d ↔ Accepts E m' d) := by
  obtain ⟨m, ms, h, hr⟩ := pattern_matcher hp ho hop hl hsyn
  obtain ⟨m', ms', h', hr'⟩ := pattern_matcher hp ho hop hl' hsyn'
  refine ⟨m, ms, m', ms', h, h', fun d hd => ?_⟩
  rw [accepts_pattern hop hr hd, accepts_pattern hop hr' hd]
  simp only [hsame]

/-! ### A library that reads three patterns -/

/-- The letter. -/
def letter (c : Char) : Rx := .leaf opLiteral (fun _ m _ => m = [c]) (by unfold LeafLabel; decide)

theorem found_letter {c : Char} {t : Str} : FoundIn (letter c) t ↔ c ∈ t := by
  constructor
  · rintro ⟨b, m, a, rfl, h⟩
    cases h with
    | leaf h => subst h; simp
  · intro h
    obtain ⟨b, a, rfl⟩ := List.append_of_mem h
    exact ⟨b, [c], a, by simp, .leaf rfl⟩

/-- Reads `b`, `.*b` and `.*|b`. -/
def readingEnv : Env :=
  { testEnv with
    reMatch := fun src t => if src = ".*|b".toList then true else decide ('b' ∈ t)
    reSyntax := fun src => some (if src = ".*|b".toList then (Rx.alt [dotStar false, letter 'b']).shape
      else if src = ".*b".toList then (Rx.seq [dotStar false, letter 'b']).shape else (letter 'b').shape) }

theorem reads_letter : ReadsRx readingEnv "b".toList (letter 'b') := by
  refine ⟨by simp [readingEnv], fun t => ?_⟩
  rw [found_letter]
  simp [reMatchString, parseFrag, readingEnv]

theorem reads_run : ReadsRx readingEnv ".*b".toList (.seq [dotStar false, letter 'b']) := by
  refine ⟨by simp [readingEnv], fun t => ?_⟩
  rw [found_leading, ← found_inTurn, inTurn, found_letter]
  simp [reMatchString, parseFrag, readingEnv]

theorem reads_either : ReadsRx readingEnv ".*|b".toList (.alt [dotStar false, letter 'b']) := by
  refine ⟨by simp [readingEnv], fun t => ?_⟩
  rw [found_alt]
  simp [reMatchString, parseFrag, readingEnv, found_dotStar]

/-- **C128** is false as it stands: `/.*|b/` gets the hint about a leading `.*`, and without that part another
set of texts is found. -/
theorem C128_refuted : ∃ (E : Env) (src src' : Str) (second : Rx), ReadsRx E src (.alt [dotStar false, second]) ∧
    ReadsRx E src' second ∧
    (∀ field pos, (⟨.hint, pos, "leading \".*\" may not do what you think, if you are searching for a term anywhere in a string, consider just \"/word/\"".toList⟩ : Msg)
      ∈ reHints E field src pos (Rx.alt [dotStar false, second]).shape) ∧
    ∃ t, reMatchString E src t ≠ reMatchString E src' t := by
  refine ⟨readingEnv, _, _, _, reads_either, reads_letter, fun field pos => ?_, [], ?_⟩
  · exact (C128_leading_exact readingEnv field pos (rest := []) (.inl rfl) reads_either reads_letter).1
  · simp [reMatchString, parseFrag, readingEnv]

/-- The hint on the text of a pattern looks at characters only: `/a\.*/`, with a dot that stands for itself, gets
it, and what is left without the last two characters is no query. -/
theorem C128_text_refuted :
    (match newMatcher testEnv (utf8 "a:/a\\.*/".toList) with
      | some (.ok (.ok (_, ms))) => ms.map Msg.text
      | _ => []) =
      ["regular expression /a\\.*/ does not need to begin or end with \".*\", as this is redundant.".toList] ∧
    (match newMatcher testEnv (utf8 "a:/a\\/".toList) with
      | some (.ok (.error _)) => true
      | _ => false) = true :=
  ⟨by decide +kernel, by decide +kernel⟩

/-- The hypotheses are met: `/.*b/` and `/b/`. -/
example (t : Str) : reMatchString readingEnv ".*b".toList t = reMatchString readingEnv "b".toList t :=
  (C128_leading_partial readingEnv [] ⟨0, 0, 0, 0⟩ (rest := []) (.inl rfl) reads_run reads_letter).2 t

theorem found_pair {c e : Char} {t : Str} : FoundIn (.seq [letter c, letter e]) t ↔ [c, e] <:+: t := by
  constructor
  · rintro ⟨b, m, a, rfl, h⟩
    cases h with
    | one h1 h2 =>
      rw [takes_single] at h2
      cases h1 with
      | leaf h1 =>
        cases h2 with
        | leaf h2 => subst h1 h2; exact ⟨b, a, by simp⟩
  · rintro ⟨b, a, rfl⟩
    exact ⟨b, [c, e], a, rfl, Takes.one (m := [c]) (n := [e]) (.leaf rfl) (takes_single.2 (.leaf rfl))⟩

/-- Reads `(b)`, `cb.*`, `b.*`, `b` and `cb`. -/
def groupingEnv : Env :=
  { testEnv with
    reMatch := fun src t => if 'c' ∈ src then decide (['c', 'b'] <:+: t) else decide ('b' ∈ t)
    reSyntax := fun src => some (if src = "(b)".toList then (Rx.group (letter 'b')).shape
      else if src = "cb.*".toList then (Rx.seq [letter 'c', letter 'b', dotStar false]).shape
      else if src = "b.*".toList then (Rx.seq [letter 'b', dotStar false]).shape
      else if src = "cb".toList then (Rx.seq [letter 'c', letter 'b']).shape else (letter 'b').shape) }

/-- The hypotheses are met: `/(b)/` and `/b/`, `/cb.*/` and `/cb/`. -/
example : ReadsRx groupingEnv "(b)".toList (.group (letter 'b')) ∧ ReadsRx groupingEnv "b".toList (letter 'b') ∧
    ReadsRx groupingEnv "cb.*".toList (.seq (letter 'c' :: letter 'b' :: [] ++ [dotStar false])) ∧
    ReadsRx groupingEnv "cb".toList (.seq [letter 'c', letter 'b']) := by
  refine ⟨⟨by simp [groupingEnv], fun t => ?_⟩, ⟨by simp [groupingEnv], fun t => ?_⟩,
    ⟨by simp [groupingEnv], fun t => ?_⟩, ⟨by simp [groupingEnv], fun t => ?_⟩⟩
  · rw [found_group, found_letter]
    simp [reMatchString, parseFrag, groupingEnv]
  · rw [found_letter]
    simp [reMatchString, parseFrag, groupingEnv]
  · rw [found_trailing, found_pair]
    simp [reMatchString, parseFrag, groupingEnv]
  · rw [found_pair]
    simp [reMatchString, parseFrag, groupingEnv]

/-- And `/b.*/`. -/
example : ReadsRx groupingEnv "b.*".toList (.seq [letter 'b', dotStar false]) := by
  refine ⟨by simp [groupingEnv], fun t => ?_⟩
  have h : FoundIn (.seq [letter 'b', dotStar false]) t ↔ FoundIn (letter 'b') t :=
    (found_trailing false (rs := [letter 'b'])).trans (found_inTurn (rs := [letter 'b'])).symm
  rw [h, found_letter]
  simp [reMatchString, parseFrag, groupingEnv]

-- `a:/.*b/` and `a:/b/` accept the same documents
example : ∃ m ms m' ms', newMatcher readingEnv (utf8 (cmpText "a".toList [] "/.*b/".toList)) = some (.ok (.ok (m, ms))) ∧
    newMatcher readingEnv (utf8 (cmpText "a".toList [] "/b/".toList)) = some (.ok (.ok (m', ms'))) ∧
    ∀ d, Plain d (withoutStars ["a".toList]) → (Accepts readingEnv m d ↔ Accepts readingEnv m' d) := by
  obtain ⟨h1, h2, h3⟩ := plain_body (s := ".*b".toList) (by decide)
  obtain ⟨h1', h2', h3'⟩ := plain_body (s := "b".toList) (by decide)
  exact C128_documents readingEnv (.one (piece_ascii "a".toList (by decide))) .eq (.inl rfl)
    (.regex h1 rfl h2 h3 (by decide +kernel)) (.regex h1' rfl h2' h3' (by decide +kernel))
    (by simp [readingEnv]) (by simp [readingEnv])
    (C128_leading_partial readingEnv [] ⟨0, 0, 0, 0⟩ (rest := []) (.inl rfl) reads_run reads_letter).2

/-! ### Patterns that are modelled in full -/

theorem matchHere_star_search (eqv : Char → Char → Bool) (as : List Atom) (prev : Option Char) (s : Str)
    (h : matchHere eqv prev (.star :: as) s = true) : searchFrom eqv as prev s = true := by
  induction s generalizing prev with
  | nil => rw [matchHere] at h; rw [searchFrom]; exact h
  | cons x xs ih =>
    rw [matchHere, Bool.or_eq_true, Bool.and_eq_true] at h
    rw [searchFrom, Bool.or_eq_true]
    exact h.imp id fun h => ih _ h.2

theorem search_star (eqv : Char → Char → Bool) (as : List Atom) (prev : Option Char) (s : Str) :
    searchFrom eqv (.star :: as) prev s = searchFrom eqv as prev s := by
  induction s generalizing prev with
  | nil => rw [searchFrom, searchFrom, matchHere]
  | cons x xs ih =>
    rw [Bool.eq_iff_iff, searchFrom, ih, Bool.or_eq_true]
    constructor
    · rintro (h | h)
      · exact matchHere_star_search _ _ _ _ h
      · rw [searchFrom, h, Bool.or_true]
    · intro h
      rw [searchFrom, Bool.or_eq_true] at h
      refine h.imp (fun h => ?_) id
      rw [matchHere, h, Bool.true_or]

variable (E) in
/-- **C128.** Before a pattern of literal characters, `.`, `.*?` and `\b` that ignores case, `.*?` can be left
out, whatever the library does elsewhere. -/
theorem C128_lazy (s t : Str) (h : parseFrag ("(?i)".toList ++ s) ≠ none) :
    reMatchString E ("(?i).*?".toList ++ s) t = reMatchString E ("(?i)".toList ++ s) t := by
  obtain ⟨as, has⟩ := Option.ne_none_iff_exists'.1 h
  have h1 : parseAtoms s = some as := by simpa [parseFrag] using has
  have h2 : parseFrag ("(?i).*?".toList ++ s) = some (.star :: as) := by
    simp [parseFrag, parseAtoms, h1]
  rw [reMatchString, reMatchString, has, h2]
  exact search_star _ _ _ _

example : parseFrag ("(?i)".toList ++ "a.b".toList) ≠ none := by decide

end Aql
