import Verif.Model.DocText
import Verif.Spec.DocText
/-! Lemmas for C124: the reader of documents reads exactly the texts of the grammar. -/

namespace Aql
open Spec

/-! ### white space -/

theorem docWs_iff (c : Char) : docWs c = true ↔ c = ' ' ∨ c = '\t' ∨ c = '\n' ∨ c = '\r' := by
  simp [docWs, or_assoc]

theorem docSkip_split (s : Str) : ∃ w, Blanks w ∧ s = w ++ docSkip s := by
  refine ⟨s.takeWhile docWs, fun c hc => ?_, (List.takeWhile_append_dropWhile ..).symm⟩
  exact (docWs_iff c).1 (List.all_eq_true.1 List.all_takeWhile c hc)

theorem docSkip_blanks {w : Str} (h : Blanks w) (s : Str) : docSkip (w ++ s) = docSkip s := by
  induction w with
  | nil => rfl
  | cons c w ih =>
    rw [docSkip, List.cons_append, List.dropWhile_cons_of_pos ((docWs_iff c).2 (h c (by simp)))]
    exact ih fun c hc => h c (by simp [hc])

theorem docSkip_cons {c : Char} (h : docWs c = false) (s : Str) : docSkip (c :: s) = c :: s := by
  rw [docSkip, List.dropWhile_cons_of_neg (by simp [h])]

/-! ### strings -/

theorem docHex_iff (c : Char) : docHex c = true ↔ ('0' ≤ c ∧ c ≤ '9') ∨ ('a' ≤ c ∧ c ≤ 'f') ∨ ('A' ≤ c ∧ c ≤ 'F') := by
  simp [docHex, or_assoc]

theorem docString_sound : ∀ (k : Nat) (s : Str), s.length ≤ k → ∀ raw r, docString s = some (raw, r) →
    StringBody raw ∧ s = raw ++ '"' :: r
  | _, [], _, _, _, h => by simp [docString] at h
  | 0, _ :: _, hk, _, _, _ => by simp at hk
  | k + 1, c :: s, hk, raw, r, h => by
    rw [docString.eq_def] at h
    dsimp only at h
    split at h
    · next hc =>
      cases h
      exact ⟨.nil, by simp [hc]⟩
    · next hq =>
      split at h
      · next hc =>
        subst hc
        split at h
        · cases h
        · next e r' =>
          split at h
          · next he =>
            subst he
            split at h
            · next h1 h2 h3 h4 r'' =>
              split at h
              · next hx =>
                rw [Option.map_eq_some_iff] at h
                obtain ⟨⟨raw', r1⟩, h, heq⟩ := h
                cases heq
                obtain ⟨hb, rfl⟩ := docString_sound k r'' (by simp at hk; omega) _ _ h
                simp only [Bool.and_eq_true, docHex_iff] at hx
                refine ⟨.hex ?_ hb, rfl⟩
                simpa [and_assoc] using hx
              · cases h
            · cases h
          · split at h
            · next he =>
              rw [Option.map_eq_some_iff] at h
              obtain ⟨⟨raw', r1⟩, h, heq⟩ := h
              cases heq
              obtain ⟨hb, rfl⟩ := docString_sound k r' (by simp at hk; omega) _ _ h
              exact ⟨.short (by simpa using he) hb, rfl⟩
            · cases h
      · next hb =>
        split at h
        · cases h
        · next hc =>
          rw [Option.map_eq_some_iff] at h
          obtain ⟨⟨raw', r1⟩, h, heq⟩ := h
          cases heq
          obtain ⟨hs, rfl⟩ := docString_sound k s (by simp at hk; omega) _ _ h
          exact ⟨.plain (by omega) hq hb hs, rfl⟩

theorem docString_complete {raw : Str} (h : StringBody raw) (r : Str) : docString (raw ++ '"' :: r) = some (raw, r) := by
  induction h with
  | nil => rw [List.nil_append, docString.eq_def]; simp
  | plain h1 h2 h3 _ ih =>
    rw [List.cons_append, docString.eq_def]
    simp [h2, h3, Nat.not_lt.2 h1, ih]
  | @short e s he _ ih =>
    rw [List.cons_append, List.cons_append, docString.eq_def]
    have hu : e ≠ 'u' := by rintro rfl; simp at he
    have hc : "\"\\/bfnrt".toList.contains e = true := by simpa using he
    simp only [show ('\\' : Char) ≠ '"' by decide, if_false, if_true, hu, hc, ih, Option.map_some]
  | @hex a b c d s hh _ ih =>
    simp only [List.cons_append]
    rw [docString.eq_def]
    have : (docHex a && docHex b && docHex c && docHex d) = true := by
      simp only [Bool.and_eq_true, docHex_iff]
      simpa [and_assoc] using hh
    simp only [show ('\\' : Char) ≠ '"' by decide, if_false, if_true, this, ih, Option.map_some]

/-! ### numbers -/

theorem isDig_between (c : Char) : isDig c = true ↔ '0' ≤ c ∧ c ≤ '9' := by simp [isDig]

theorem docDigits_sound {s ds r : Str} (h : docDigits s = some (ds, r)) : SomeDigits ds ∧ s = ds ++ r := by
  unfold docDigits at h
  split at h
  · cases h
  · next hne =>
    cases h
    refine ⟨⟨fun h => hne h, fun c hc => (isDig_between c).1 (List.all_eq_true.1 List.all_takeWhile c hc)⟩, (List.takeWhile_append_dropWhile ..).symm⟩

/-- The text does not go on with a digit. -/
def NotDigit (r : Str) : Prop := ∀ c t, r = c :: t → isDig c = false

theorem docDigits_complete {ds r : Str} (h : SomeDigits ds) (hr : NotDigit r) : docDigits (ds ++ r) = some (ds, r) := by
  have hp : ∀ c ∈ ds, isDig c = true := fun c hc => (isDig_between c).2 (h.2 c hc)
  have ht : r.takeWhile isDig = [] ∧ r.dropWhile isDig = r := by
    cases r with
    | nil => exact ⟨rfl, rfl⟩
    | cons c t => have := hr c t rfl; simp [this]
  have h1 : (ds ++ r).takeWhile isDig = ds := by rw [List.takeWhile_append_of_pos hp, ht.1, List.append_nil]
  have h2 : (ds ++ r).dropWhile isDig = r := by rw [List.dropWhile_append_of_pos hp, ht.2]
  rw [docDigits, h1, h2]
  cases ds with
  | nil => exact absurd rfl h.1
  | cons c ds => rfl

/-- The text does not go on like a number. -/
def NumberEnds (r : Str) : Prop := ∀ c t, r = c :: t → isDig c = false ∧ c ≠ '.' ∧ c ≠ 'e' ∧ c ≠ 'E'

theorem docWhole_sound {s a r : Str} (h : docWhole s = some (a, r)) :
    (a = ['0'] ∨ (SomeDigits a ∧ a.head? ≠ some '0')) ∧ s = a ++ r := by
  unfold docWhole at h
  split at h
  · cases h; exact ⟨.inl rfl, rfl⟩
  · next hz =>
    obtain ⟨hd, rfl⟩ := docDigits_sound h
    refine ⟨.inr ⟨hd, fun h0 => ?_⟩, rfl⟩
    cases a with
    | nil => cases h0
    | cons c a => cases h0; exact hz (a ++ r) rfl

theorem docFraction_sound {s b r : Str} (h : docFraction s = some (b, r)) :
    (b = [] ∨ ∃ ds, SomeDigits ds ∧ b = '.' :: ds) ∧ s = b ++ r := by
  unfold docFraction at h
  split at h
  · rw [Option.map_eq_some_iff] at h
    obtain ⟨⟨ds, r'⟩, h, heq⟩ := h
    cases heq
    obtain ⟨hd, rfl⟩ := docDigits_sound h
    exact ⟨.inr ⟨ds, hd, rfl⟩, rfl⟩
  · cases h; exact ⟨.inl rfl, rfl⟩

theorem docExponent_sound {s b r : Str} (h : docExponent s = some (b, r)) :
    (b = [] ∨ ∃ e sg ds, (e = 'e' ∨ e = 'E') ∧ (sg = [] ∨ sg = ['+'] ∨ sg = ['-']) ∧ SomeDigits ds ∧
      b = e :: sg ++ ds) ∧ s = b ++ r := by
  unfold docExponent at h
  split at h
  · cases h; exact ⟨.inl rfl, rfl⟩
  · next c t =>
    split at h
    · next hc =>
      split at h
      · rw [Option.map_eq_some_iff] at h
        obtain ⟨⟨ds, r'⟩, h, heq⟩ := h
        cases heq
        obtain ⟨hd, rfl⟩ := docDigits_sound h
        exact ⟨.inr ⟨c, _, ds, hc, .inr (.inl rfl), hd, rfl⟩, rfl⟩
      · rw [Option.map_eq_some_iff] at h
        obtain ⟨⟨ds, r'⟩, h, heq⟩ := h
        cases heq
        obtain ⟨hd, rfl⟩ := docDigits_sound h
        exact ⟨.inr ⟨c, _, ds, hc, .inr (.inr rfl), hd, rfl⟩, rfl⟩
      · rw [Option.map_eq_some_iff] at h
        obtain ⟨⟨ds, r'⟩, h, heq⟩ := h
        cases heq
        obtain ⟨hd, rfl⟩ := docDigits_sound h
        exact ⟨.inr ⟨c, [], ds, hc, .inl rfl, hd, rfl⟩, rfl⟩
    · cases h; exact ⟨.inl rfl, rfl⟩

theorem docUnsigned_sound {s raw r : Str} (h : docUnsigned s = some (raw, r)) :
    ∃ a b e, raw = a ++ b ++ e ∧ s = raw ++ r ∧ (a = ['0'] ∨ (SomeDigits a ∧ a.head? ≠ some '0')) ∧
      (b = [] ∨ ∃ ds, SomeDigits ds ∧ b = '.' :: ds) ∧
      (e = [] ∨ ∃ x sg ds, (x = 'e' ∨ x = 'E') ∧ (sg = [] ∨ sg = ['+'] ∨ sg = ['-']) ∧ SomeDigits ds ∧
        e = x :: sg ++ ds) := by
  unfold docUnsigned at h
  split at h
  · cases h
  · next a s1 h1 =>
    split at h
    · cases h
    · next b s2 h2 =>
      rw [Option.map_eq_some_iff] at h
      obtain ⟨⟨e, r'⟩, h3, heq⟩ := h
      cases heq
      obtain ⟨p1, rfl⟩ := docWhole_sound h1
      obtain ⟨p2, rfl⟩ := docFraction_sound h2
      obtain ⟨p3, rfl⟩ := docExponent_sound h3
      exact ⟨a, b, e, rfl, by simp, p1, p2, p3⟩

theorem docNumber_sound {s raw r : Str} (h : docNumber s = some (raw, r)) : NumberBody raw ∧ s = raw ++ r := by
  unfold docNumber at h
  split at h
  · rw [Option.map_eq_some_iff] at h
    obtain ⟨⟨x, r'⟩, h, heq⟩ := h
    cases heq
    obtain ⟨a, b, e, rfl, rfl, p1, p2, p3⟩ := docUnsigned_sound h
    exact ⟨⟨['-'], a, b, e, by simp, .inr rfl, p1, p2, p3⟩, rfl⟩
  · obtain ⟨a, b, e, rfl, rfl, p1, p2, p3⟩ := docUnsigned_sound h
    exact ⟨⟨[], a, b, e, by simp, .inl rfl, p1, p2, p3⟩, rfl⟩

theorem docExponent_complete {e r : Str} (h : e = [] ∨ ∃ x sg ds, (x = 'e' ∨ x = 'E') ∧
      (sg = [] ∨ sg = ['+'] ∨ sg = ['-']) ∧ SomeDigits ds ∧ e = x :: sg ++ ds) (hr : NumberEnds r) :
    docExponent (e ++ r) = some (e, r) := by
  have hn : NotDigit r := fun c t h => (hr c t h).1
  rcases h with rfl | ⟨x, sg, ds, hx, hs, hd, rfl⟩
  · cases r with
    | nil => rfl
    | cons c t =>
      obtain ⟨-, -, h1, h2⟩ := hr c t rfl
      rw [List.nil_append, docExponent.eq_def]
      simp [h1, h2]
  · rcases hs with rfl | rfl | rfl
    · simp only [List.cons_append, List.nil_append, docExponent, if_pos hx]
      have := docDigits_complete hd hn
      obtain ⟨c, ds, rfl⟩ := List.exists_cons_of_ne_nil hd.1
      have hc := (hd.2 c (by simp))
      have h1 : c ≠ '+' := by rintro rfl; exact absurd hc.1 (by decide)
      have h2 : c ≠ '-' := by rintro rfl; exact absurd hc.1 (by decide)
      rw [List.cons_append] at *
      split
      · next heq => cases heq; exact absurd rfl h1
      · next heq => cases heq; exact absurd rfl h2
      · rw [this]; rfl
    · simp [docExponent, if_pos hx, docDigits_complete hd hn]
    · simp [docExponent, if_pos hx, docDigits_complete hd hn]

theorem exponent_noDigit {e r : Str} (h : e = [] ∨ ∃ x sg ds, (x = 'e' ∨ x = 'E') ∧
      (sg = [] ∨ sg = ['+'] ∨ sg = ['-']) ∧ SomeDigits ds ∧ e = x :: sg ++ ds) (hr : NumberEnds r) :
    ∀ c t, e ++ r = c :: t → isDig c = false ∧ c ≠ '.' := by
  intro c t ht
  rcases h with rfl | ⟨x, sg, ds, hx, hs, hd, rfl⟩
  · exact ⟨(hr c t ht).1, (hr c t ht).2.1⟩
  · simp only [List.cons_append, List.cons.injEq] at ht
    obtain ⟨rfl, -⟩ := ht
    rcases hx with rfl | rfl <;> decide

theorem docFraction_complete {b s : Str} (h : b = [] ∨ ∃ ds, SomeDigits ds ∧ b = '.' :: ds)
    (hs : ∀ c t, s = c :: t → isDig c = false ∧ c ≠ '.') : docFraction (b ++ s) = some (b, s) := by
  rcases h with rfl | ⟨ds, hd, rfl⟩
  · rw [List.nil_append]
    unfold docFraction
    split
    · exact absurd rfl (hs _ _ rfl).2
    · rfl
  · rw [List.cons_append, docFraction, docDigits_complete hd fun c t h => (hs c t h).1]
    rfl

theorem fraction_noDigit {b s : Str} (h : b = [] ∨ ∃ ds, SomeDigits ds ∧ b = '.' :: ds)
    (hs : ∀ c t, s = c :: t → isDig c = false ∧ c ≠ '.') : NotDigit (b ++ s) := by
  intro c t ht
  rcases h with rfl | ⟨ds, hd, rfl⟩
  · exact (hs c t ht).1
  · simp only [List.cons_append, List.cons.injEq] at ht
    obtain ⟨rfl, -⟩ := ht
    decide

theorem docWhole_complete {a s : Str} (h : a = ['0'] ∨ (SomeDigits a ∧ a.head? ≠ some '0')) (hs : NotDigit s) :
    docWhole (a ++ s) = some (a, s) := by
  rcases h with rfl | ⟨hd, h0⟩
  · rfl
  · have := docDigits_complete hd hs
    obtain ⟨c, a, rfl⟩ := List.exists_cons_of_ne_nil hd.1
    rw [List.cons_append] at *
    unfold docWhole
    split
    · next heq => cases heq; exact absurd rfl h0
    · exact this

theorem docUnsigned_complete {a b e r : Str} (h1 : a = ['0'] ∨ (SomeDigits a ∧ a.head? ≠ some '0'))
    (h2 : b = [] ∨ ∃ ds, SomeDigits ds ∧ b = '.' :: ds)
    (h3 : e = [] ∨ ∃ x sg ds, (x = 'e' ∨ x = 'E') ∧ (sg = [] ∨ sg = ['+'] ∨ sg = ['-']) ∧ SomeDigits ds ∧
        e = x :: sg ++ ds) (hr : NumberEnds r) : docUnsigned (a ++ (b ++ (e ++ r))) = some (a ++ b ++ e, r) := by
  have he := exponent_noDigit h3 hr
  rw [docUnsigned, docWhole_complete h1 (fraction_noDigit h2 he)]
  simp only [docFraction_complete h2 he, docExponent_complete h3 hr, Option.map_some]

theorem docNumber_complete {raw r : Str} (h : NumberBody raw) (hr : NumberEnds r) : docNumber (raw ++ r) = some (raw, r) := by
  obtain ⟨sg, a, b, e, rfl, hs, h1, h2, h3⟩ := h
  have hu := docUnsigned_complete h1 h2 h3 hr
  rcases hs with rfl | rfl
  · simp only [List.nil_append, List.append_assoc] at *
    have hc : ∃ c t, a = c :: t ∧ c ≠ '-' := by
      rcases h1 with rfl | ⟨hd, -⟩
      · exact ⟨_, _, rfl, by decide⟩
      · obtain ⟨c, t, rfl⟩ := List.exists_cons_of_ne_nil hd.1
        exact ⟨c, t, rfl, by rintro rfl; exact absurd (hd.2 '-' (by simp)).1 (by decide)⟩
    obtain ⟨c, t, rfl, hc⟩ := hc
    rw [List.cons_append] at *
    unfold docNumber
    split
    · next heq => cases heq; exact absurd rfl hc
    · exact hu
  · simp only [List.append_assoc, List.cons_append, List.nil_append] at *
    rw [docNumber, hu]
    rfl

theorem number_starts {raw : Str} (h : NumberBody raw) : ∃ c u, raw = c :: u ∧ (c = '-' ∨ ('0' ≤ c ∧ c ≤ '9')) := by
  obtain ⟨sg, a, b, e, rfl, hs, h1, -, -⟩ := h
  rcases hs with rfl | rfl
  · rcases h1 with rfl | ⟨hd, -⟩
    · exact ⟨_, _, rfl, .inr (by decide)⟩
    · obtain ⟨c, t, rfl⟩ := List.exists_cons_of_ne_nil hd.1
      exact ⟨c, t ++ b ++ e, by simp, .inr (hd.2 c (by simp))⟩
  · exact ⟨_, _, rfl, .inl rfl⟩

/-! ### values -/

theorem docWord_sound {w s t : Str} (h : docWord w s = some t) : s = w ++ t := by
  unfold docWord at h
  split at h
  · next hp =>
    cases h
    obtain ⟨u, rfl⟩ := List.isPrefixOf_iff_prefix.1 hp
    simp
  · cases h

theorem docWord_complete (w t : Str) : docWord w (w ++ t) = some t := by
  simp [docWord]

/-- What the reader reads is written by the rules, and not too deep. -/
theorem doc_sound (f : Nat) : (∀ n s v r, docVal f n s = some (v, r) →
      ∃ t, Writes t (.value v) ∧ s = t ++ r ∧ nestedIn v ≤ n) ∧
    (∀ n s vs r, docItems f n s = some (vs, r) →
      ∃ t, Writes t (.items vs) ∧ s = t ++ ']' :: r ∧ nestedInItems vs ≤ n) ∧
    (∀ n s ms r, docMembers f n s = some (ms, r) →
      ∃ t, Writes t (.members ms) ∧ s = t ++ '}' :: r ∧ nestedInMembers ms ≤ n) := by
  have nil : Blanks [] := by intro c hc; cases hc
  have front : ∀ {w t x}, Blanks w → Writes t (.items x) → Writes (w ++ t) (.items x) := by
    intro w t x hw h
    have app : ∀ {u}, Blanks u → Blanks (w ++ u) := fun hu c hc =>
      (List.mem_append.1 hc).elim (hw c) (hu c)
    cases h with
    | item h1 h2 h3 => simpa using Writes.item (app h1) h2 h3
    | moreItems h1 h2 h3 h4 => simpa using Writes.moreItems (app h1) h2 h3 h4
  have frontM : ∀ {w t x}, Blanks w → Writes t (.members x) → Writes (w ++ t) (.members x) := by
    intro w t x hw h
    have app : ∀ {u}, Blanks u → Blanks (w ++ u) := fun hu c hc =>
      (List.mem_append.1 hc).elim (hw c) (hu c)
    cases h with
    | member h1 h2 h3 h4 h5 h6 => simpa using Writes.member (app h1) h2 h3 h4 h5 h6
    | moreMembers h1 h2 h3 h4 h5 h6 h7 => simpa using Writes.moreMembers (app h1) h2 h3 h4 h5 h6 h7
  induction f with
  | zero =>
    refine ⟨fun n s v r h => ?_, fun n s v r h => ?_, fun n s v r h => ?_⟩
    · simp [docVal] at h
    · simp [docItems] at h
    · simp [docMembers] at h
  | succ f ih =>
    obtain ⟨ihv, ihi, ihm⟩ := ih
    refine ⟨fun n s v r h => ?_, fun n s vs r h => ?_, fun n s ms r h => ?_⟩
    · cases s with
      | nil => simp [docVal] at h
      | cons c s =>
        rw [docVal.eq_def] at h
        dsimp only at h
        split at h
        · next hc =>
          rw [Option.map_eq_some_iff] at h
          obtain ⟨⟨raw, r'⟩, h, heq⟩ := h
          cases heq
          obtain ⟨hb, rfl⟩ := docString_sound _ s (Nat.le_refl _) _ _ h
          exact ⟨_, .str hb, by simp [hc], by simp [nestedIn]⟩
        split at h
        · next hc =>
          cases n with
          | zero => cases h
          | succ n =>
            obtain ⟨w, hw, hs⟩ := docSkip_split s
            dsimp only at h
            split at h
            · next r' heq =>
              cases h
              rw [heq] at hs
              exact ⟨_, .noItems hw, by simp [hc, hs], by simp [nestedIn, nestedInItems]⟩
            · rw [Option.map_eq_some_iff] at h
              obtain ⟨⟨vs, r'⟩, h, heq⟩ := h
              cases heq
              obtain ⟨t, ht, hs', hn⟩ := ihi _ _ _ _ h
              refine ⟨_, .arr (front hw ht), ?_, by rw [nestedIn]; dsimp only; omega⟩
              rw [hs]
              simp [hc, hs']
        split at h
        · next hc =>
          cases n with
          | zero => cases h
          | succ n =>
            obtain ⟨w, hw, hs⟩ := docSkip_split s
            dsimp only at h
            split at h
            · next r' heq =>
              cases h
              rw [heq] at hs
              exact ⟨_, .noMembers hw, by simp [hc, hs], by simp [nestedIn, nestedInMembers]⟩
            · rw [Option.map_eq_some_iff] at h
              obtain ⟨⟨vs, r'⟩, h, heq⟩ := h
              cases heq
              obtain ⟨t, ht, hs', hn⟩ := ihm _ _ _ _ h
              refine ⟨_, .obj (frontM hw ht), ?_, by rw [nestedIn]; dsimp only; omega⟩
              rw [hs]
              simp [hc, hs']
        split at h
        · next hc =>
          rw [Option.map_eq_some_iff] at h
          obtain ⟨t, h, heq⟩ := h
          cases heq
          exact ⟨_, .null, by rw [docWord_sound h, hc]; rfl, by simp [nestedIn]⟩
        split at h
        · next hc =>
          rw [Option.map_eq_some_iff] at h
          obtain ⟨t, h, heq⟩ := h
          cases heq
          exact ⟨_, .true, by rw [docWord_sound h, hc]; rfl, by simp [nestedIn]⟩
        split at h
        · next hc =>
          rw [Option.map_eq_some_iff] at h
          obtain ⟨t, h, heq⟩ := h
          cases heq
          exact ⟨_, .false, by rw [docWord_sound h, hc]; rfl, by simp [nestedIn]⟩
        · rw [Option.map_eq_some_iff] at h
          obtain ⟨⟨raw, r'⟩, h, heq⟩ := h
          cases heq
          obtain ⟨hb, hs⟩ := docNumber_sound h
          exact ⟨_, .num hb, hs, by simp [nestedIn]⟩
    · rw [docItems] at h
      split at h
      · cases h
      · next v r1 h1 =>
        obtain ⟨t, ht, rfl, hn⟩ := ihv _ _ _ _ h1
        obtain ⟨w, hw, hs⟩ := docSkip_split r1
        split at h
        · next r' heq =>
          cases h
          rw [heq] at hs
          exact ⟨_, .item nil ht hw, by simp [hs], by simpa [nestedInItems] using hn⟩
        · next r' heq =>
          rw [heq] at hs
          rw [Option.map_eq_some_iff] at h
          obtain ⟨⟨vs', r2⟩, h, heq⟩ := h
          cases heq
          obtain ⟨t', ht', hs', hn'⟩ := ihi _ _ _ _ h
          obtain ⟨w', hw', hs2⟩ := docSkip_split r'
          refine ⟨_, .moreItems nil ht hw (front hw' ht'), ?_, by simp only [nestedInItems]; omega⟩
          rw [hs, hs2, hs']
          simp
        · cases h
    · rw [docMembers.eq_def] at h
      split at h
      · next f' n' s heq =>
        cases heq
        split at h
        · cases h
        · next raw r0 h0 =>
          obtain ⟨hb, rfl⟩ := docString_sound _ s (Nat.le_refl _) _ _ h0
          obtain ⟨w1, hw1, hs1⟩ := docSkip_split r0
          split at h
          · next r1 heq1 =>
            rw [heq1] at hs1
            obtain ⟨w2, hw2, hs2⟩ := docSkip_split r1
            split at h
            · cases h
            · next v r2 h1 =>
              obtain ⟨t, ht, hs3, hn⟩ := ihv _ _ _ _ h1
              obtain ⟨w, hw, hs⟩ := docSkip_split r2
              split at h
              · next r' heq =>
                cases h
                rw [heq] at hs
                refine ⟨_, .member nil hb hw1 hw2 ht hw, ?_, by simpa [nestedInMembers] using hn⟩
                rw [hs1, hs2, hs3, hs]
                simp
              · next r' heq =>
                rw [heq] at hs
                rw [Option.map_eq_some_iff] at h
                obtain ⟨⟨ms', r3⟩, h, heq⟩ := h
                cases heq
                obtain ⟨t', ht', hs', hn'⟩ := ihm _ _ _ _ h
                obtain ⟨w', hw', hs4⟩ := docSkip_split r'
                refine ⟨_, .moreMembers nil hb hw1 hw2 ht hw (frontM hw' ht'), ?_, by simp only [nestedInMembers]; omega⟩
                rw [hs1, hs2, hs3, hs, hs4, hs']
                simp
              · cases h
          · cases h
      · cases h

/-- The first character of a value. -/
theorem value_starts {t : Str} {v : Json} (h : Writes t (.value v)) :
    ∃ c u, t = c :: u ∧ docWs c = false ∧ c ≠ ']' ∧ c ≠ '}' := by
  cases h with
  | null => exact ⟨_, _, rfl, by decide, by decide, by decide⟩
  | true => exact ⟨_, _, rfl, by decide, by decide, by decide⟩
  | false => exact ⟨_, _, rfl, by decide, by decide, by decide⟩
  | str _ => exact ⟨_, _, rfl, by decide, by decide, by decide⟩
  | noItems _ => exact ⟨_, _, rfl, by decide, by decide, by decide⟩
  | arr _ => exact ⟨_, _, rfl, by decide, by decide, by decide⟩
  | noMembers _ => exact ⟨_, _, rfl, by decide, by decide, by decide⟩
  | obj _ => exact ⟨_, _, rfl, by decide, by decide, by decide⟩
  | num h =>
    obtain ⟨c, u, rfl, hc⟩ := number_starts h
    have hd : ∀ x : Char, x ≠ '-' → ¬ ('0' ≤ x ∧ x ≤ '9') → c ≠ x := by
      rintro x h1 h2 rfl
      exact hc.elim h1 h2
    refine ⟨c, u, rfl, ?_, hd _ (by decide) (by decide), hd _ (by decide) (by decide)⟩
    have := (docWs_iff c).not
    rw [← Bool.not_eq_true, docWs_iff]
    rintro (rfl | rfl | rfl | rfl)
    all_goals exact absurd hc (by decide)

theorem items_skip {s : Str} {vs : List Json} (h : Writes s (.items vs)) (r : Str) :
    ∃ c u, docSkip (s ++ r) = c :: u ∧ c ≠ ']' := by
  have key : ∀ {w t v} (u : Str), Blanks w → Writes t (.value v) → ∃ c x, docSkip (w ++ (t ++ u)) = c :: x ∧ c ≠ ']' := by
    intro w t v u hw ht
    obtain ⟨c, x, rfl, hc, h1, -⟩ := value_starts ht
    exact ⟨c, x ++ u, by rw [docSkip_blanks hw, List.cons_append, docSkip_cons hc], h1⟩
  cases h with
  | item h1 h2 h3 => simpa using key _ h1 h2
  | moreItems h1 h2 h3 h4 => simpa using key _ h1 h2

theorem members_skip {s : Str} {ms : List (Str × Json)} (h : Writes s (.members ms)) (r : Str) :
    ∃ u, docSkip (s ++ r) = '"' :: u := by
  have key : ∀ {w : Str} (u : Str), Blanks w → ∃ x, docSkip (w ++ '"' :: u) = '"' :: x := fun u hw =>
    ⟨u, by rw [docSkip_blanks hw, docSkip_cons (by decide)]⟩
  cases h with
  | member h1 _ _ _ _ _ => simpa using key _ h1
  | moreMembers h1 _ _ _ _ _ _ => simpa using key _ h1

theorem ends_blanks {w r : Str} {c : Char} (hw : Blanks w) (hc : isDig c = false ∧ c ≠ '.' ∧ c ≠ 'e' ∧ c ≠ 'E') :
    NumberEnds (w ++ c :: r) := by
  intro d t ht
  cases w with
  | nil => cases ht; exact hc
  | cons x w =>
    cases ht
    rcases hw d (by simp) with rfl | rfl | rfl | rfl <;> decide

/-- What is written by the rules is read. -/
theorem doc_complete {t : Str} {x : Thing} (h : Writes t x) : ∀ (n f : Nat) (r : Str), x.nested ≤ n → match x with
    | .value v => 2 * t.length ≤ f → NumberEnds r → docVal f n (t ++ r) = some (v, r)
    | .items vs => 2 * t.length + 1 ≤ f → docItems f n (docSkip (t ++ ']' :: r)) = some (vs, r)
    | .members ms => 2 * t.length + 1 ≤ f → docMembers f n (docSkip (t ++ '}' :: r)) = some (ms, r) := by
  have pos : ∀ {t : Str} {v : Json}, Writes t (.value v) → ∀ {f}, 2 * t.length ≤ f → ∃ f', f = f' + 1 := by
    intro t v h f hf
    obtain ⟨c, u, rfl, -⟩ := value_starts h
    simp at hf
    exact ⟨f - 1, by omega⟩
  have bracket : ∀ {w : Str} (r : Str), Blanks w → docSkip (w ++ ']' :: r) = ']' :: r := fun r hw => by
    rw [docSkip_blanks hw, docSkip_cons (by decide)]
  have brace : ∀ {w : Str} (r : Str), Blanks w → docSkip (w ++ '}' :: r) = '}' :: r := fun r hw => by
    rw [docSkip_blanks hw, docSkip_cons (by decide)]
  have comma : ∀ {w : Str} (r : Str), Blanks w → docSkip (w ++ ',' :: r) = ',' :: r := fun r hw => by
    rw [docSkip_blanks hw, docSkip_cons (by decide)]
  have val : ∀ {t : Str} {v : Json}, Writes t (.value v) → ∀ u, docSkip (t ++ u) = t ++ u := by
    intro t v h u
    obtain ⟨c, x, rfl, hc, -⟩ := value_starts h
    exact docSkip_cons hc _
  induction h with
  | null =>
    intro n f r _ hf _
    obtain ⟨f, rfl⟩ := pos .null hf
    rw [show "null".toList ++ r = 'n' :: ("ull".toList ++ r) from rfl, docVal.eq_def]
    simp
    exact docWord_complete ['u', 'l', 'l'] r
  | true =>
    intro n f r _ hf _
    obtain ⟨f, rfl⟩ := pos .true hf
    rw [show "true".toList ++ r = 't' :: ("rue".toList ++ r) from rfl, docVal.eq_def]
    simp
    exact docWord_complete ['r', 'u', 'e'] r
  | false =>
    intro n f r _ hf _
    obtain ⟨f, rfl⟩ := pos .false hf
    rw [show "false".toList ++ r = 'f' :: ("alse".toList ++ r) from rfl, docVal.eq_def]
    simp
    exact docWord_complete ['a', 'l', 's', 'e'] r
  | @num raw h =>
    intro n f r _ hf hr
    obtain ⟨f, rfl⟩ := pos (.num h) hf
    have hn := docNumber_complete h hr
    obtain ⟨c, u, rfl, hc⟩ := number_starts h
    have hd : ∀ x : Char, x ≠ '-' → ¬ ('0' ≤ x ∧ x ≤ '9') → c ≠ x := by
      rintro x h1 h2 rfl
      exact hc.elim h1 h2
    rw [List.cons_append] at *
    rw [docVal.eq_def]
    dsimp only
    rw [if_neg (hd _ (by decide) (by decide)), if_neg (hd _ (by decide) (by decide)), if_neg (hd _ (by decide) (by decide)),
      if_neg (hd _ (by decide) (by decide)), if_neg (hd _ (by decide) (by decide)), if_neg (hd _ (by decide) (by decide)), hn]
    rfl
  | @str raw h =>
    intro n f r _ hf _
    obtain ⟨f, rfl⟩ := pos (.str h) hf
    have := docString_complete h r
    rw [List.cons_append, List.cons_append, List.append_assoc, docVal.eq_def]
    simp [this]
  | @noItems w h =>
    intro n f r hn hf _
    obtain ⟨f, rfl⟩ := pos (.noItems h) hf
    simp only [Thing.nested, nestedIn, nestedInItems] at hn
    obtain ⟨n, rfl⟩ : ∃ m, n = m + 1 := ⟨n - 1, by omega⟩
    have := bracket r h
    rw [List.cons_append, List.cons_append, List.append_assoc, List.singleton_append, docVal.eq_def]
    simp [this]
  | @arr s vs h ih =>
    intro n f r hn hf _
    obtain ⟨f, rfl⟩ := pos (.arr h) hf
    simp only [Thing.nested, nestedIn] at hn
    obtain ⟨n, rfl⟩ : ∃ m, n = m + 1 := ⟨n - 1, by omega⟩
    have hi := ih n f r (by simp only [Thing.nested]; omega) (by simp at hf; omega)
    obtain ⟨c, u, hs, hc⟩ := items_skip h (']' :: r)
    rw [List.cons_append, List.cons_append, List.append_assoc, List.singleton_append, docVal.eq_def]
    simp only [show ('[' : Char) ≠ '"' by decide, if_false, if_true]
    rw [hs] at hi ⊢
    split
    · next heq => cases heq; exact absurd rfl hc
    · rw [hi]; rfl
  | @noMembers w h =>
    intro n f r hn hf _
    obtain ⟨f, rfl⟩ := pos (.noMembers h) hf
    simp only [Thing.nested, nestedIn, nestedInMembers] at hn
    obtain ⟨n, rfl⟩ : ∃ m, n = m + 1 := ⟨n - 1, by omega⟩
    have := brace r h
    rw [List.cons_append, List.cons_append, List.append_assoc, List.singleton_append, docVal.eq_def]
    simp [this]
  | @obj s ms h ih =>
    intro n f r hn hf _
    obtain ⟨f, rfl⟩ := pos (.obj h) hf
    simp only [Thing.nested, nestedIn] at hn
    obtain ⟨n, rfl⟩ : ∃ m, n = m + 1 := ⟨n - 1, by omega⟩
    have hi := ih n f r (by simp only [Thing.nested]; omega) (by simp at hf; omega)
    obtain ⟨u, hs⟩ := members_skip h ('}' :: r)
    rw [List.cons_append, List.cons_append, List.append_assoc, List.singleton_append, docVal.eq_def]
    simp only [show ('{' : Char) ≠ '"' by decide, show ('{' : Char) ≠ '[' by decide, if_false, if_true]
    rw [hs] at hi ⊢
    split
    · next heq => cases heq
    · rw [hi]; rfl
  | @item w t w' v hw ht hw' ih =>
    intro n f r hn hf
    obtain ⟨f, rfl⟩ : ∃ m, f = m + 1 := ⟨f - 1, by omega⟩
    simp only [Thing.nested, nestedInItems] at hn
    have hv := ih n f (w' ++ ']' :: r) (by simp only [Thing.nested]; omega) (by simp at hf; omega) (ends_blanks hw' (by decide))
    rw [List.append_assoc, List.append_assoc, docSkip_blanks hw, val ht, docItems, hv]
    simp only [bracket r hw']
  | @moreItems w t w' v s vs hw ht hw' _ ih ihs =>
    intro n f r hn hf
    obtain ⟨f, rfl⟩ : ∃ m, f = m + 1 := ⟨f - 1, by omega⟩
    simp only [Thing.nested, nestedInItems] at hn
    have hv := ih n f (w' ++ ',' :: (s ++ ']' :: r)) (by simp only [Thing.nested]; omega) (by simp at hf; omega)
      (ends_blanks hw' (by decide))
    have hi := ihs n f r (by simp only [Thing.nested]; omega) (by simp at hf; omega)
    simp only [List.append_assoc, List.cons_append]
    rw [docSkip_blanks hw, val ht, docItems, hv]
    simp only [comma _ hw', hi, Option.map_some]
  | @member w raw w1 w2 t w' v hw hb hw1 hw2 ht hw' ih =>
    intro n f r hn hf
    obtain ⟨f, rfl⟩ : ∃ m, f = m + 1 := ⟨f - 1, by omega⟩
    simp only [Thing.nested, nestedInMembers] at hn
    have hv := ih n f (w' ++ '}' :: r) (by simp only [Thing.nested]; omega) (by simp at hf; omega) (ends_blanks hw' (by decide))
    simp only [List.append_assoc, List.cons_append]
    rw [docSkip_blanks hw, docSkip_cons (by decide), docMembers.eq_def]
    simp only [docString_complete hb, docSkip_blanks hw1, docSkip_cons (show docWs ':' = false by decide), docSkip_blanks hw2,
      val ht, hv, brace r hw']
  | @moreMembers w raw w1 w2 t w' v s ms hw hb hw1 hw2 ht hw' _ ih ihs =>
    intro n f r hn hf
    obtain ⟨f, rfl⟩ : ∃ m, f = m + 1 := ⟨f - 1, by omega⟩
    simp only [Thing.nested, nestedInMembers] at hn
    have hv := ih n f (w' ++ ',' :: (s ++ '}' :: r)) (by simp only [Thing.nested]; omega) (by simp at hf; omega)
      (ends_blanks hw' (by decide))
    have hi := ihs n f r (by simp only [Thing.nested]; omega) (by simp at hf; omega)
    simp only [List.append_assoc, List.cons_append]
    rw [docSkip_blanks hw, docSkip_cons (by decide), docMembers.eq_def]
    simp only [docString_complete hb, docSkip_blanks hw1, docSkip_cons (show docWs ':' = false by decide), docSkip_blanks hw2,
      val ht, hv, comma _ hw', hi, Option.map_some]

theorem blanks_end {w : Str} (h : Blanks w) : NumberEnds w := by
  intro c t ht
  subst ht
  rcases h c (by simp) with rfl | rfl | rfl | rfl <;> decide

theorem blanks_skip {w : Str} (h : Blanks w) : docSkip w = [] := by
  have := docSkip_blanks h []
  rwa [List.append_nil] at this

/-- Reading a text that encodes a document, with enough room. -/
theorem encodes_read {s : Str} {d : Json} (h : Encodes s d) {n : Nat} (hn : nestedIn d ≤ n) {f : Nat} (hf : 2 * s.length ≤ f) :
    ∃ r, docVal f n (docSkip s) = some (d, r) ∧ docSkip r = [] := by
  obtain ⟨w, t, w', rfl, hw, hw', ht⟩ := h
  refine ⟨w', ?_, blanks_skip hw'⟩
  obtain ⟨c, u, htc, hc, -⟩ := value_starts ht
  have hs : docSkip (w ++ t ++ w') = t ++ w' := by
    rw [List.append_assoc, docSkip_blanks hw, htc, List.cons_append, docSkip_cons hc]
  rw [hs]
  exact doc_complete ht n f w' hn (by simp at hf; omega) (blanks_end hw')

/-! ### writing documents -/

theorem writes_rawsOk {t : Str} {x : Thing} (h : Writes t x) : match x with
    | .value v => rawsOk v
    | .items vs => rawsOkItems vs
    | .members ms => rawsOkMembers ms := by
  induction h <;> simp_all [rawsOk, rawsOkItems, rawsOkMembers]

theorem no_blanks : Blanks [] := by intro c hc; cases hc

mutual

theorem value_written : ∀ d : Json, rawsOk d → ∃ t, Writes t (.value d)
  | .null, _ => ⟨_, .null⟩
  | .bool true, _ => ⟨_, .true⟩
  | .bool false, _ => ⟨_, .false⟩
  | .num raw, h => ⟨_, .num (by simpa only [rawsOk] using h)⟩
  | .str raw, h => ⟨_, .str (by simpa only [rawsOk] using h)⟩
  | .arr vs, h => by
    rcases items_written vs (by simpa only [rawsOk] using h) with rfl | ⟨t, ht⟩
    · exact ⟨_, .noItems no_blanks⟩
    · exact ⟨_, .arr ht⟩
  | .obj ms, h => by
    rcases members_written ms (by simpa only [rawsOk] using h) with rfl | ⟨t, ht⟩
    · exact ⟨_, .noMembers no_blanks⟩
    · exact ⟨_, .obj ht⟩

theorem items_written : ∀ vs : List Json, rawsOkItems vs → vs = [] ∨ ∃ t, Writes t (.items vs)
  | [], _ => .inl rfl
  | v :: vs, h => by
    rw [rawsOkItems] at h
    obtain ⟨t, ht⟩ := value_written v h.1
    rcases items_written vs h.2 with rfl | ⟨u, hu⟩
    · exact .inr ⟨_, .item no_blanks ht no_blanks⟩
    · exact .inr ⟨_, .moreItems no_blanks ht no_blanks hu⟩

theorem members_written : ∀ ms : List (Str × Json), rawsOkMembers ms → ms = [] ∨ ∃ t, Writes t (.members ms)
  | [], _ => .inl rfl
  | (raw, v) :: ms, h => by
    rw [rawsOkMembers] at h
    obtain ⟨t, ht⟩ := value_written v h.2.1
    rcases members_written ms h.2.2 with rfl | ⟨u, hu⟩
    · exact .inr ⟨_, .member no_blanks h.1 no_blanks no_blanks ht no_blanks⟩
    · exact .inr ⟨_, .moreMembers no_blanks h.1 no_blanks no_blanks ht no_blanks hu⟩

end

/-! ### the last character -/

theorem digits_end {ds : Str} (h : SomeDigits ds) : ∃ u c, ds = u ++ [c] ∧ docWs c = false := by
  refine ⟨ds.dropLast, ds.getLast h.1, (List.dropLast_append_getLast h.1).symm, ?_⟩
  have hd := h.2 _ (List.getLast_mem h.1)
  rw [← Bool.not_eq_true, docWs_iff]
  intro hc
  rcases hc with hc | hc | hc | hc <;> rw [hc] at hd <;> exact absurd hd (by decide)

theorem number_ends {raw : Str} (h : NumberBody raw) : ∃ u c, raw = u ++ [c] ∧ docWs c = false := by
  obtain ⟨sg, a, b, e, rfl, -, h1, h2, h3⟩ := h
  rcases h3 with rfl | ⟨x, sg', ds, -, -, hd, rfl⟩
  · rcases h2 with rfl | ⟨ds, hd, rfl⟩
    · rcases h1 with rfl | ⟨hd, -⟩
      · exact ⟨sg, '0', by simp, by decide⟩
      · obtain ⟨u, c, rfl, hc⟩ := digits_end hd
        exact ⟨sg ++ u, c, by simp, hc⟩
    · obtain ⟨u, c, rfl, hc⟩ := digits_end hd
      exact ⟨sg ++ a ++ '.' :: u, c, by simp, hc⟩
  · obtain ⟨u, c, rfl, hc⟩ := digits_end hd
    exact ⟨sg ++ a ++ b ++ x :: sg' ++ u, c, by simp, hc⟩

theorem value_ends {t : Str} {v : Json} (h : Writes t (.value v)) : ∃ u c, t = u ++ [c] ∧ docWs c = false := by
  cases h with
  | null => exact ⟨"nul".toList, 'l', rfl, by decide⟩
  | true => exact ⟨"tru".toList, 'e', rfl, by decide⟩
  | false => exact ⟨"fals".toList, 'e', rfl, by decide⟩
  | num h => exact number_ends h
  | str _ => exact ⟨_, '"', rfl, by decide⟩
  | noItems _ => exact ⟨_, ']', rfl, by decide⟩
  | arr _ => exact ⟨_, ']', rfl, by decide⟩
  | noMembers _ => exact ⟨_, '}', rfl, by decide⟩
  | obj _ => exact ⟨_, '}', rfl, by decide⟩

/-! ### texts without white space -/

mutual

/-- The shortest text of a value. -/
def compact : Json → Str
  | .null => "null".toList
  | .bool true => "true".toList
  | .bool false => "false".toList
  | .num raw => raw
  | .str raw => '"' :: raw ++ ['"']
  | .arr vs => '[' :: compactItems vs ++ [']']
  | .obj ms => '{' :: compactMembers ms ++ ['}']

def compactItems : List Json → Str
  | [] => []
  | [v] => compact v
  | v :: vs => compact v ++ ',' :: compactItems vs

def compactMembers : List (Str × Json) → Str
  | [] => []
  | [(raw, v)] => '"' :: raw ++ '"' :: ':' :: compact v
  | (raw, v) :: ms => '"' :: raw ++ '"' :: ':' :: compact v ++ ',' :: compactMembers ms

end

/-- The shortest text of a part of a value. -/
def compactThing : Thing → Str
  | .value v => compact v
  | .items vs => compactItems vs
  | .members ms => compactMembers ms

theorem compactItems_cons (v : Json) {vs : List Json} (h : vs ≠ []) :
    compactItems (v :: vs) = compact v ++ ',' :: compactItems vs := by
  cases vs with
  | nil => exact absurd rfl h
  | cons w vs => rw [compactItems]; simp

theorem compactMembers_cons (raw : Str) (v : Json) {ms : List (Str × Json)} (h : ms ≠ []) :
    compactMembers ((raw, v) :: ms) = '"' :: raw ++ '"' :: ':' :: compact v ++ ',' :: compactMembers ms := by
  cases ms with
  | nil => exact absurd rfl h
  | cons w ms => rw [compactMembers]; simp

theorem items_ne {s : Str} {vs : List Json} (h : Writes s (.items vs)) : vs ≠ [] := by cases h <;> simp

theorem members_ne {s : Str} {ms : List (Str × Json)} (h : Writes s (.members ms)) : ms ≠ [] := by cases h <;> simp

theorem compact_writes {t : Str} {x : Thing} (h : Writes t x) : Writes (compactThing x) x := by
  induction h with
  | null => exact .null
  | true => exact .true
  | false => exact .false
  | num h => simp only [compactThing, compact]; exact .num h
  | str h => simp only [compactThing, compact]; exact .str h
  | noItems _ => exact .noItems no_blanks
  | noMembers _ => exact .noMembers no_blanks
  | arr _ ih => simp only [compactThing, compact] at *; exact .arr ih
  | obj _ ih => simp only [compactThing, compact] at *; exact .obj ih
  | item _ _ _ ih =>
    have := Writes.item no_blanks ih no_blanks
    simpa [compactThing, compactItems] using this
  | moreItems _ _ _ hs ih ihs =>
    have := Writes.moreItems no_blanks ih no_blanks ihs
    simpa [compactThing, compactItems_cons _ (items_ne hs)] using this
  | member _ hb _ _ _ _ ih =>
    have := Writes.member no_blanks hb no_blanks no_blanks ih no_blanks
    simpa [compactThing, compactMembers] using this
  | moreMembers _ hb _ _ _ _ hs ih ihs =>
    have := Writes.moreMembers no_blanks hb no_blanks no_blanks ih no_blanks ihs
    simpa [compactThing, compactMembers_cons _ _ (members_ne hs)] using this

theorem squeeze_blanks {w : Str} (h : Blanks w) (r : Str) : squeeze .outside (w ++ r) = squeeze .outside r := by
  induction w with
  | nil => rfl
  | cons c w ih =>
    have hc := h c (by simp)
    have hq : c ≠ '"' := by rcases hc with rfl | rfl | rfl | rfl <;> decide
    rw [List.cons_append, squeeze, if_neg hq, if_pos hc, ih fun c hc => h c (by simp [hc])]

theorem squeeze_keep {c : Char} (hq : c ≠ '"') (hc : docWs c = false) (r : Str) :
    squeeze .outside (c :: r) = c :: squeeze .outside r := by
  have hw : ¬ (c = ' ' ∨ c = '\t' ∨ c = '\n' ∨ c = '\r') := by rw [← docWs_iff, hc]; simp
  rw [squeeze, if_neg hq, if_neg hw]

theorem squeeze_all {s : Str} (h : ∀ c ∈ s, c ≠ '"' ∧ docWs c = false) (r : Str) :
    squeeze .outside (s ++ r) = s ++ squeeze .outside r := by
  induction s with
  | nil => rfl
  | cons c s ih =>
    rw [List.cons_append, squeeze_keep (h c (by simp)).1 (h c (by simp)).2, ih fun c hc => h c (by simp [hc])]
    rfl

theorem squeeze_string {raw : Str} (h : StringBody raw) (r : Str) :
    squeeze .inside (raw ++ '"' :: r) = raw ++ '"' :: squeeze .outside r := by
  induction h with
  | nil => rw [List.nil_append, squeeze]; simp
  | plain _ h2 h3 _ ih => rw [List.cons_append, squeeze]; simp [h2, h3, ih]
  | short _ _ ih =>
    rw [List.cons_append, List.cons_append, squeeze]
    simp only [show ('\\' : Char) ≠ '"' by decide, if_false, if_true]
    rw [squeeze, ih]
    rfl
  | @hex a b c d s hh _ ih =>
    have hx : ∀ h ∈ [a, b, c, d], h ≠ '"' ∧ h ≠ '\\' := by
      intro h hm
      have := hh h hm
      constructor <;> rintro rfl <;> exact absurd this (by decide)
    simp only [List.cons_append]
    rw [squeeze]
    simp only [show ('\\' : Char) ≠ '"' by decide, if_false, if_true]
    rw [squeeze]
    obtain ⟨a1, a2⟩ := hx a (by simp)
    obtain ⟨b1, b2⟩ := hx b (by simp)
    obtain ⟨c1, c2⟩ := hx c (by simp)
    obtain ⟨d1, d2⟩ := hx d (by simp)
    simp only [squeeze, a1, a2, b1, b2, c1, c2, d1, d2, if_false, ih]

theorem digit_char {c : Char} (h : '0' ≤ c ∧ c ≤ '9') : c ≠ '"' ∧ docWs c = false := by
  refine ⟨by rintro rfl; exact absurd h (by decide), ?_⟩
  rw [← Bool.not_eq_true, docWs_iff]
  rintro (rfl | rfl | rfl | rfl) <;> exact absurd h (by decide)

theorem number_chars {raw : Str} (h : NumberBody raw) : ∀ c ∈ raw, c ≠ '"' ∧ docWs c = false := by
  obtain ⟨sg, a, b, e, rfl, hs, h1, h2, h3⟩ := h
  have hsg : ∀ c ∈ sg, c ≠ '"' ∧ docWs c = false := by
    rcases hs with rfl | rfl
    · simp
    · simp; decide
  have ha : ∀ c ∈ a, c ≠ '"' ∧ docWs c = false := by
    rcases h1 with rfl | ⟨hd, -⟩
    · simp; decide
    · exact fun c hc => digit_char (hd.2 c hc)
  have hb : ∀ c ∈ b, c ≠ '"' ∧ docWs c = false := by
    rcases h2 with rfl | ⟨ds, hd, rfl⟩
    · simp
    · intro c hc
      rcases List.mem_cons.1 hc with rfl | hc
      · decide
      · exact digit_char (hd.2 c hc)
  have he : ∀ c ∈ e, c ≠ '"' ∧ docWs c = false := by
    rcases h3 with rfl | ⟨x, sg', ds, hx, hs', hd, rfl⟩
    · simp
    · intro c hc
      rcases List.mem_append.1 hc with hc | hc
      · rcases List.mem_cons.1 hc with rfl | hc
        · rcases hx with rfl | rfl <;> decide
        · rcases hs' with rfl | rfl | rfl
          · cases hc
          · rw [List.mem_singleton.1 hc]; decide
          · rw [List.mem_singleton.1 hc]; decide
      · exact digit_char (hd.2 c hc)
  intro c hc
  simp only [List.mem_append] at hc
  rcases hc with ((hc | hc) | hc) | hc
  · exact hsg c hc
  · exact ha c hc
  · exact hb c hc
  · exact he c hc

/-- Without its white space a text is the shortest one. -/
theorem squeeze_writes {t : Str} {x : Thing} (h : Writes t x) :
    ∀ r, squeeze .outside (t ++ r) = compactThing x ++ squeeze .outside r := by
  have quote : ∀ r, squeeze .outside ('"' :: r) = '"' :: squeeze .inside r := fun r => by rw [squeeze]; simp
  have keep : ∀ (c : Char) (r : Str), c ≠ '"' → docWs c = false → squeeze .outside (c :: r) = c :: squeeze .outside r :=
    fun c r h1 h2 => squeeze_keep h1 h2 r
  induction h with
  | null => exact fun r => squeeze_all (by decide) r
  | true => exact fun r => squeeze_all (by decide) r
  | false => exact fun r => squeeze_all (by decide) r
  | num h => intro r; simp only [compactThing, compact]; exact squeeze_all (number_chars h) r
  | str h => intro r; simp [compactThing, compact, quote, squeeze_string h]
  | noItems hw =>
    intro r
    simp [compactThing, compact, compactItems, keep '[' _ (by decide) (by decide), squeeze_blanks hw,
      keep ']' _ (by decide) (by decide)]
  | noMembers hw =>
    intro r
    simp [compactThing, compact, compactMembers, keep '{' _ (by decide) (by decide), squeeze_blanks hw,
      keep '}' _ (by decide) (by decide)]
  | arr _ ih =>
    intro r
    simp [compactThing, compact, keep '[' _ (by decide) (by decide)] at *
    rw [ih, keep ']' _ (by decide) (by decide)]
  | obj _ ih =>
    intro r
    simp [compactThing, compact, keep '{' _ (by decide) (by decide)] at *
    rw [ih, keep '}' _ (by decide) (by decide)]
  | item hw _ hw' ih =>
    intro r
    simp only [List.append_assoc]
    rw [squeeze_blanks hw, ih, squeeze_blanks hw']
    simp [compactThing, compactItems]
  | moreItems hw _ hw' hs ih ihs =>
    intro r
    simp only [List.append_assoc, List.cons_append]
    rw [squeeze_blanks hw, ih, squeeze_blanks hw', keep ',' _ (by decide) (by decide), ihs]
    simp [compactThing, compactItems_cons _ (items_ne hs)]
  | member hw hb hw1 hw2 _ hw' ih =>
    intro r
    simp only [List.append_assoc, List.cons_append]
    rw [squeeze_blanks hw, quote, squeeze_string hb, squeeze_blanks hw1, keep ':' _ (by decide) (by decide), squeeze_blanks hw2,
      ih, squeeze_blanks hw']
    simp [compactThing, compactMembers]
  | moreMembers hw hb hw1 hw2 _ hw' hs ih ihs =>
    intro r
    simp only [List.append_assoc, List.cons_append]
    rw [squeeze_blanks hw, quote, squeeze_string hb, squeeze_blanks hw1, keep ':' _ (by decide) (by decide), squeeze_blanks hw2,
      ih, squeeze_blanks hw', keep ',' _ (by decide) (by decide), ihs]
    simp [compactThing, compactMembers_cons _ _ (members_ne hs)]

end Aql
