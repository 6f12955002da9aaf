import Verif.Proofs.JsonText
import Mathlib.Data.List.TakeWhile
/-! The reader of Spec/JsonRead takes exactly the texts of RFC 8259 with neither fractions, exponents, truth values nor
surrogates. -/

namespace Aql

open Spec

theorem skipWs_split (s : Str) : ∃ w, Blanks w ∧ s = w ++ skipWs s := by
  refine ⟨s.takeWhile isJsonWs, fun c hc => ?_, (List.takeWhile_append_dropWhile).symm⟩
  have := List.mem_takeWhile_imp hc
  simp only [isJsonWs, Bool.or_eq_true, decide_eq_true_eq] at this
  tauto

theorem skipWs_blanks {w : Str} (h : Blanks w) (s : Str) : skipWs (w ++ s) = skipWs s := by
  unfold skipWs
  refine List.dropWhile_append_of_pos fun c hc => ?_
  rcases h c hc with rfl | rfl | rfl | rfl <;> decide

theorem hexValue_hex {c : Char} {n : Nat} (h : hexValue c = some n) :
    ('0' ≤ c ∧ c ≤ '9') ∨ ('a' ≤ c ∧ c ≤ 'f') ∨ ('A' ≤ c ∧ c ≤ 'F') := by
  unfold hexValue at h
  split at h
  · exact .inl ‹_›
  split at h
  · exact .inr (.inl ‹_›)
  split at h
  · exact .inr (.inr ‹_›)
  · cases h

theorem fourHex_hex {a b c d x : Char} (h : fourHex a b c d = some x) :
    ∀ h ∈ [a, b, c, d], ('0' ≤ h ∧ h ≤ '9') ∨ ('a' ≤ h ∧ h ≤ 'f') ∨ ('A' ≤ h ∧ h ≤ 'F') := by
  unfold fourHex at h
  split at h
  · next ha hb hc hd =>
    intro y hy
    simp only [List.mem_cons, List.not_mem_nil, or_false] at hy
    rcases hy with rfl | rfl | rfl | rfl
    · exact hexValue_hex ha
    · exact hexValue_hex hb
    · exact hexValue_hex hc
    · exact hexValue_hex hd
  · cases h

theorem shortEscape_mem {e x : Char} (h : shortEscape e = some x) : e ∈ ['"', '\\', '/', 'b', 'f', 'n', 'r', 't'] := by
  unfold shortEscape at h
  split at h
  · next h1 => rcases h1 with rfl | rfl | rfl <;> simp
  repeat' split at h
  all_goals simp_all

theorem shortEscape_u : shortEscape 'u' = none := by decide

theorem readString_sound : ∀ (k : Nat) (s : Str), s.length ≤ k → ∀ x r, readString s = some (x, r) →
    ∃ raw, StringBody raw ∧ s = raw ++ '"' :: r ∧ ∀ r', readString (raw ++ '"' :: r') = some (x, r') := by
  intro k
  induction k with
  | zero =>
    intro s hs x r h
    cases s with
    | nil => simp [readString] at h
    | cons c s => simp at hs
  | succ k ih =>
    intro s hs x r h
    rw [readString.eq_def] at h
    split at h
    · cases h
    · next a b c d t =>
      split at h
      · cases h
      · next y hy =>
        rw [Option.map_eq_some_iff] at h
        obtain ⟨⟨x', r'⟩, h, heq⟩ := h
        cases heq
        obtain ⟨raw, hb, rfl, hr⟩ := ih t (by simp at hs; omega) _ _ h
        refine ⟨_, .hex (fourHex_hex hy) hb, by simp, fun r'' => ?_⟩
        simp only [List.cons_append]
        rw [readString, hy, hr]
        rfl
    · next e t hne =>
      split at h
      · cases h
      · next y hy =>
        rw [Option.map_eq_some_iff] at h
        obtain ⟨⟨x', r'⟩, h, heq⟩ := h
        cases heq
        obtain ⟨raw, hb, rfl, hr⟩ := ih t (by simp at hs; omega) _ _ h
        have hu : e ≠ 'u' := by rintro rfl; rw [shortEscape_u] at hy; cases hy
        refine ⟨_, .short (shortEscape_mem hy) hb, by simp, fun r'' => ?_⟩
        simp only [List.cons_append]
        rw [readString.eq_def]
        split
        · next h => cases h
        · next h => simp at h; exact absurd h.1 hu
        · next h => cases h; rw [hy, hr]; rfl
        · next h => cases h
        · next h1 h2 h3 h => cases h; exact (h2 _ _ rfl rfl).elim
    · cases h
      exact ⟨[], .nil, by simp, fun r' => by simp [readString]⟩
    · next c t h1 h2 h3 =>
      split at h
      · cases h
      · next hc =>
        rw [Option.map_eq_some_iff] at h
        obtain ⟨⟨x', r'⟩, h, heq⟩ := h
        cases heq
        obtain ⟨raw, hb, rfl, hr⟩ := ih t (by simp at hs; omega) _ _ h
        simp only [not_or] at hc
        have hq : c ≠ '"' := by rintro rfl; exact h3 rfl
        refine ⟨_, .plain (by omega) hq hc.2 hb, by simp, fun r'' => ?_⟩
        simp only [List.cons_append]
        rw [readString.eq_def]
        split
        · next h => cases h
        · next h => simp at h; exact absurd h.1 hc.2
        · next h => simp at h; exact absurd h.1 hc.2
        · next h => cases h; exact absurd rfl hq
        · next h => cases h; rw [if_neg (by simpa using hc), hr]; rfl

theorem isDecimal_between (c : Char) : isDecimal c = true ↔ '0' ≤ c ∧ c ≤ '9' := by simp [isDecimal]

theorem readInt_sound {s : Str} {i : Int} {r : Str} (h : readInt s = some (i, r)) :
    ∃ raw, NumberBody raw ∧ s = raw ++ r ∧ readInt raw = some (i, []) := by
  have key : ∀ (neg : Bool) (s' : Str), (neg = false → ∀ u, s' ≠ '-' :: u) →
      (if s'.takeWhile isDecimal = [] ∨ ((s'.takeWhile isDecimal).head? = some '0' ∧ 1 < (s'.takeWhile isDecimal).length) then none
        else some (if neg then -(digitsValue (s'.takeWhile isDecimal) : Int) else digitsValue (s'.takeWhile isDecimal),
          s'.dropWhile isDecimal)) = some (i, r) →
      ∃ raw, NumberBody raw ∧ (if neg then ['-'] else []) ++ s' = raw ++ r ∧ readInt raw = some (i, []) := by
    intro neg s' hm h
    split at h
    · cases h
    next hz =>
    have hd : ∀ c ∈ s'.takeWhile isDecimal, isDecimal c = true := fun c hc => List.mem_takeWhile_imp hc
    generalize hds : s'.takeWhile isDecimal = ds at *
    have hs : s' = ds ++ s'.dropWhile isDecimal := by rw [← hds]; exact List.takeWhile_append_dropWhile.symm
    simp only [Option.some.injEq, Prod.mk.injEq] at h
    have htw : ds.takeWhile isDecimal = ds ∧ ds.dropWhile isDecimal = [] :=
      ⟨List.takeWhile_eq_self_iff.2 hd, List.dropWhile_eq_nil_iff.2 hd⟩
    have hw : ds = ['0'] ∨ (SomeDigits ds ∧ ds.head? ≠ some '0') := by
      rw [not_or] at hz
      by_cases h0 : ds.head? = some '0'
      · left
        have : ¬ 1 < ds.length := fun h => hz.2 ⟨h0, h⟩
        match ds, h0, this with
        | [c], h0, _ => simpa using h0
        | _ :: _ :: _, _, h => simp at h
      · exact .inr ⟨⟨hz.1, fun c hc => (isDecimal_between c).1 (hd c hc)⟩, h0⟩
    refine ⟨(if neg then ['-'] else []) ++ ds, ⟨if neg then ['-'] else [], ds, [], [], by simp, ?_, hw, .inl rfl, .inl rfl⟩, ?_, ?_⟩
    · cases neg <;> simp
    · rw [← h.2, List.append_assoc, ← hs]
    · cases neg with
      | true =>
        simp only [if_true, List.cons_append, List.nil_append, readInt]
        rw [htw.1, htw.2, if_neg hz]
        simpa using h.1
      | false =>
        simp only [Bool.false_eq_true, if_false, List.nil_append]
        have hm' : ∀ u, ds ≠ '-' :: u := by
          rintro u rfl
          exact absurd (hd '-' (by simp)) (by decide)
        unfold readInt
        split
        next neg' s'' heq =>
        split at heq
        · next u => exact absurd rfl (hm' u)
        · simp only [Prod.mk.injEq] at heq
          obtain ⟨rfl, rfl⟩ := heq
          rw [htw.1, htw.2, if_neg hz]
          simpa using h.1
  unfold readInt at h
  split at h
  next neg s' heq =>
  split at heq
  · next u =>
    simp only [Prod.mk.injEq] at heq
    obtain ⟨rfl, rfl⟩ := heq
    simpa using key true u (by simp) h
  · next u hu =>
    simp only [Prod.mk.injEq] at heq
    obtain ⟨rfl, rfl⟩ := heq
    simpa using key false s (fun _ u h => hu u h) h

theorem items_front {w t : Str} {x : List Json} (hw : Blanks w) (h : Writes t (.items x)) : Writes (w ++ t) (.items x) := by
  have app : ∀ {u}, Blanks u → Blanks (w ++ u) := fun hu c hc => (List.mem_append.1 hc).elim (hw c) (hu c)
  cases h with
  | item h1 h2 h3 => simpa using Writes.item (app h1) h2 h3
  | moreItems h1 h2 h3 h4 => simpa using Writes.moreItems (app h1) h2 h3 h4

theorem members_front {w t : Str} {x : List (Str × Json)} (hw : Blanks w) (h : Writes t (.members x)) :
    Writes (w ++ t) (.members x) := by
  have app : ∀ {u}, Blanks u → Blanks (w ++ u) := fun hu c hc => (List.mem_append.1 hc).elim (hw c) (hu c)
  cases h with
  | member h1 h2 h3 h4 h5 h6 => simpa using Writes.member (app h1) h2 h3 h4 h5 h6
  | moreMembers h1 h2 h3 h4 h5 h6 h7 => simpa using Writes.moreMembers (app h1) h2 h3 h4 h5 h6 h7

theorem read_sound (f : Nat) : (∀ s v r, readValue f s = some (v, r) →
      ∃ w t d, Blanks w ∧ Writes t (.value d) ∧ DocFor d v ∧ s = w ++ t ++ r) ∧
    (∀ s vs r, readItems f s = some (vs, r) →
      ∃ t ds, Writes t (.items ds) ∧ DocsForItems ds vs ∧ s = t ++ ']' :: r) ∧
    (∀ s ms r, readMembers f s = some (ms, r) →
      ∃ t ds, Writes t (.members ds) ∧ DocsForMembers ds ms ∧ s = t ++ '}' :: r) := by
  induction f with
  | zero =>
    refine ⟨fun s v r h => ?_, fun s v r h => ?_, fun s v r h => ?_⟩
    · simp [readValue] at h
    · simp [readItems] at h
    · simp [readMembers] at h
  | succ f ih =>
    obtain ⟨ihv, ihi, ihm⟩ := ih
    refine ⟨fun s v r h => ?_, fun s vs r h => ?_, fun s ms r h => ?_⟩
    · rw [readValue] at h
      obtain ⟨w, hw, hs⟩ := skipWs_split s
      split at h
      · next s' heq =>
        rw [Option.map_eq_some_iff] at h
        obtain ⟨⟨x, r'⟩, h, he⟩ := h
        cases he
        obtain ⟨raw, hb, rfl, hr⟩ := readString_sound _ s' (Nat.le_refl _) _ _ h
        refine ⟨w, _, _, hw, .str hb, by simpa [DocFor] using hr [], ?_⟩
        rw [hs, heq]
        simp
      · next s' heq =>
        obtain ⟨w', hw', hs'⟩ := skipWs_split s'
        split at h
        · next t he =>
          cases h
          rw [he] at hs'
          refine ⟨w, _, _, hw, .noItems hw', by simp [DocFor, DocsForItems], ?_⟩
          rw [hs, heq, hs']
          simp
        · rw [Option.map_eq_some_iff] at h
          obtain ⟨⟨x, r'⟩, h, he⟩ := h
          cases he
          obtain ⟨t, ds, ht, hd, he⟩ := ihi _ _ _ h
          refine ⟨w, _, _, hw, .arr (items_front hw' ht), by simpa [DocFor] using hd, ?_⟩
          rw [hs, heq, hs', he]
          simp
      · next s' heq =>
        obtain ⟨w', hw', hs'⟩ := skipWs_split s'
        split at h
        · next t he =>
          cases h
          rw [he] at hs'
          refine ⟨w, _, _, hw, .noMembers hw', by simp [DocFor, DocsForMembers], ?_⟩
          rw [hs, heq, hs']
          simp
        · rw [Option.map_eq_some_iff] at h
          obtain ⟨⟨x, r'⟩, h, he⟩ := h
          cases he
          obtain ⟨t, ds, ht, hd, he⟩ := ihm _ _ _ h
          refine ⟨w, _, _, hw, .obj (members_front hw' ht), by simpa [DocFor] using hd, ?_⟩
          rw [hs, heq, hs', he]
          simp
      · next t heq =>
        cases h
        refine ⟨w, _, _, hw, .null, by simp [DocFor], ?_⟩
        rw [hs, heq]
        simp
      · rw [Option.map_eq_some_iff] at h
        obtain ⟨⟨x, r'⟩, h, he⟩ := h
        cases he
        obtain ⟨raw, hb, he, hr⟩ := readInt_sound h
        refine ⟨w, _, _, hw, .num hb, by simpa [DocFor] using hr, ?_⟩
        rw [hs, he]
        simp
    · rw [readItems] at h
      split at h
      · cases h
      · next v r1 h1 =>
        obtain ⟨w, t, d, hw, ht, hd, rfl⟩ := ihv _ _ _ h1
        obtain ⟨w', hw', hs⟩ := skipWs_split r1
        split at h
        · next r' heq =>
          rw [heq] at hs
          rw [Option.map_eq_some_iff] at h
          obtain ⟨⟨vs', r2⟩, h, he⟩ := h
          cases he
          obtain ⟨t', ds, ht', hd', rfl⟩ := ihi _ _ _ h
          refine ⟨_, _, .moreItems hw ht hw' ht', by simpa [DocsForItems] using ⟨hd, hd'⟩, ?_⟩
          rw [hs]
          simp
        · next r' heq =>
          cases h
          rw [heq] at hs
          refine ⟨_, _, .item hw ht hw', by simpa [DocsForItems] using hd, ?_⟩
          rw [hs]
          simp
        · cases h
    · rw [readMembers] at h
      obtain ⟨w, hw, hs⟩ := skipWs_split s
      split at h
      · next s' heq =>
        split at h
        · cases h
        · next k r0 h0 =>
          obtain ⟨raw, hb, rfl, hr⟩ := readString_sound _ s' (Nat.le_refl _) _ _ h0
          obtain ⟨w1, hw1, hs1⟩ := skipWs_split r0
          split at h
          · next r1 heq1 =>
            rw [heq1] at hs1
            split at h
            · cases h
            · next v r2 h1 =>
              obtain ⟨w2, t, d, hw2, ht, hd, rfl⟩ := ihv _ _ _ h1
              obtain ⟨w', hw', hs2⟩ := skipWs_split r2
              split at h
              · next r' heq2 =>
                rw [heq2] at hs2
                rw [Option.map_eq_some_iff] at h
                obtain ⟨⟨ms', r3⟩, h, he⟩ := h
                cases he
                obtain ⟨t', ds, ht', hd', rfl⟩ := ihm _ _ _ h
                refine ⟨_, _, .moreMembers hw hb hw1 hw2 ht hw' ht', by simpa [DocsForMembers] using ⟨hr [], hd, hd'⟩, ?_⟩
                rw [hs, heq, hs1, hs2]
                simp
              · next r' heq2 =>
                cases h
                rw [heq2] at hs2
                refine ⟨_, _, .member hw hb hw1 hw2 ht hw', by simpa [DocsForMembers] using ⟨hr [], hd⟩, ?_⟩
                rw [hs, heq, hs1, hs2]
                simp
              · cases h
          · cases h
      · cases h

theorem readString_more {raw x : Str} (h : readString (raw ++ ['"']) = some (x, [])) (r : Str) :
    readString (raw ++ '"' :: r) = some (x, r) := by
  obtain ⟨raw', -, he, hr⟩ := readString_sound _ _ (Nat.le_refl _) _ _ h
  rw [List.append_cancel_right he]
  exact hr r

theorem readInt_more {raw : Str} {i : Int} (h : readInt raw = some (i, [])) {r : Str} (hr : NoDigit r) :
    readInt (raw ++ r) = some (i, r) := by
  have htw : r.takeWhile isDecimal = [] ∧ r.dropWhile isDecimal = r := by
    cases r with
    | nil => simp
    | cons c r =>
      have : isDecimal c = false := hr c rfl
      simp [this]
  have key : ∀ ds : Str, ds.dropWhile isDecimal = [] → ds.takeWhile isDecimal = ds ∧
      (ds ++ r).takeWhile isDecimal = ds ∧ (ds ++ r).dropWhile isDecimal = r := by
    intro ds hd
    have hall := List.dropWhile_eq_nil_iff.1 hd
    refine ⟨List.takeWhile_eq_self_iff.2 hall, ?_, ?_⟩
    · rw [List.takeWhile_append_of_pos hall, htw.1, List.append_nil]
    · rw [List.dropWhile_append_of_pos hall, htw.2]
  by_cases hm : ∃ u, raw = '-' :: u
  · obtain ⟨u, rfl⟩ := hm
    simp only [readInt, List.cons_append] at h ⊢
    split at h
    · cases h
    next hz =>
    simp only [Option.some.injEq, Prod.mk.injEq] at h
    obtain ⟨h1, h2, h3⟩ := key u h.2
    rw [h2, h3]
    rw [h1] at hz h
    rw [if_neg hz]
    simpa using h.1
  · have h0 : ∀ s : Str, (∀ u, s ≠ '-' :: u) → readInt s =
        (if s.takeWhile isDecimal = [] ∨ ((s.takeWhile isDecimal).head? = some '0' ∧ 1 < (s.takeWhile isDecimal).length) then none
        else some ((digitsValue (s.takeWhile isDecimal) : Int), s.dropWhile isDecimal)) := by
      intro s hs
      unfold readInt
      split
      next neg s' heq =>
      split at heq
      · next u => exact absurd rfl (hs u)
      · simp only [Prod.mk.injEq] at heq
        obtain ⟨rfl, rfl⟩ := heq
        simp
    rw [h0 raw fun u hu => hm ⟨u, hu⟩] at h
    split at h
    · cases h
    next hz =>
    simp only [Option.some.injEq, Prod.mk.injEq] at h
    obtain ⟨h1, h2, h3⟩ := key raw h.2
    rw [h1] at hz h
    rw [h0, h2, h3, if_neg hz, h.1]
    intro u hu
    cases raw with
    | nil => simp at hz
    | cons c raw =>
      simp only [List.cons_append, List.cons.injEq] at hu
      exact hm ⟨raw, by rw [hu.1]⟩

theorem docWs_isJsonWs (c : Char) : docWs c = isJsonWs c := by
  rw [Bool.eq_iff_iff, docWs_iff]
  simp [isJsonWs, or_assoc]

theorem noDigit_blanks {w r : Str} {c : Char} (hw : Blanks w) (hc : isDig c = false) : NoDigit (w ++ c :: r) := by
  intro d hd
  cases w with
  | nil => simp at hd; rw [← hd]; exact hc
  | cons x w =>
    simp at hd
    subst hd
    rcases hw x (by simp) with rfl | rfl | rfl | rfl <;> decide

theorem readValue_blanks {w : Str} (hw : Blanks w) (f : Nat) (s : Str) : readValue f (w ++ s) = readValue f s := by
  rw [← readValue_skip, skipWs_blanks hw, readValue_skip]

theorem items_skipWs {s : Str} {vs : List Json} (h : Writes s (.items vs)) (r : Str) :
    ∃ c u, skipWs (s ++ r) = c :: u ∧ c ≠ ']' := by
  have key : ∀ {w t v} (u : Str), Blanks w → Writes t (.value v) → ∃ c x, skipWs (w ++ (t ++ u)) = c :: x ∧ c ≠ ']' := by
    intro w t v u hw ht
    obtain ⟨c, x, rfl, hc, h1, -⟩ := value_starts ht
    rw [docWs_isJsonWs] at hc
    exact ⟨c, x ++ u, by rw [skipWs_blanks hw, List.cons_append, skipWs_cons _ hc], h1⟩
  cases h with
  | item h1 h2 h3 => simpa using key _ h1 h2
  | moreItems h1 h2 h3 h4 => simpa using key _ h1 h2

theorem members_skipWs {s : Str} {ms : List (Str × Json)} (h : Writes s (.members ms)) (r : Str) :
    ∃ u, skipWs (s ++ r) = '"' :: u := by
  have key : ∀ {w : Str} (u : Str), Blanks w → ∃ x, skipWs (w ++ '"' :: u) = '"' :: x := fun u hw =>
    ⟨u, by rw [skipWs_blanks hw, skipWs_cons _ (by decide)]⟩
  cases h with
  | member h1 _ _ _ _ _ => simpa using key _ h1
  | moreMembers h1 _ _ _ _ _ _ => simpa using key _ h1

theorem read_complete {t : Str} {x : Thing} (h : Writes t x) : ∀ (f : Nat) (r : Str), match x with
    | .value d => ∀ v, DocFor d v → t.length + 1 ≤ f → NoDigit r → readValue f (t ++ r) = some (v, r)
    | .items ds => ∀ vs, DocsForItems ds vs → t.length + 2 ≤ f → readItems f (t ++ ']' :: r) = some (vs, r)
    | .members ds => ∀ ms, DocsForMembers ds ms → t.length + 2 ≤ f → readMembers f (t ++ '}' :: r) = some (ms, r) := by
  have fuel : ∀ {n f : Nat}, n + 1 ≤ f → ∃ f', f = f' + 1 := fun h => ⟨_, (Nat.sub_add_cancel (by omega)).symm⟩
  induction h with
  | null =>
    intro f r v hv hf _
    obtain ⟨f, rfl⟩ := fuel hf
    cases v <;> simp only [DocFor] at hv
    simp [readValue, skipWs, isJsonWs]
  | true => intro f r v hv; cases v <;> simp [DocFor] at hv
  | false => intro f r v hv; cases v <;> simp [DocFor] at hv
  | @num raw hb =>
    intro f r v hv hf hr
    obtain ⟨f, rfl⟩ := fuel hf
    cases v with
    | num i =>
      simp only [DocFor] at hv
      obtain ⟨c, u, rfl, hc⟩ := number_starts hb
      have hp := digit_plain (c := c) (hc.imp id (isDig_between c).2)
      rw [readValue, List.cons_append, skipWs_cons _ hp.1, ← List.cons_append]
      have hi := readInt_more hv hr
      split
      · next he => simp at he; exact absurd he.1 hp.2.2.2.1
      · next he => simp at he; exact absurd he.1 hp.2.2.2.2.1
      · next he => simp at he; exact absurd he.1 hp.2.2.2.2.2.1
      · next he => simp at he; exact absurd he.1 hp.2.2.2.2.2.2
      · rw [hi]; rfl
    | _ => simp [DocFor] at hv
  | @str raw hb =>
    intro f r v hv hf _
    obtain ⟨f, rfl⟩ := fuel hf
    cases v with
    | str s =>
      simp only [DocFor] at hv
      rw [readValue, List.cons_append, List.cons_append, List.append_assoc, skipWs_cons _ (by decide)]
      simp only [List.cons_append, List.nil_append]
      rw [readString_more hv]
      rfl
    | _ => simp [DocFor] at hv
  | @noItems w hw =>
    intro f r v hv hf _
    obtain ⟨f, rfl⟩ := fuel hf
    cases v with
    | arr vs =>
      cases vs with
      | nil =>
        rw [readValue, List.cons_append, List.cons_append, List.append_assoc, skipWs_cons _ (by decide)]
        simp only [List.cons_append, List.nil_append]
        rw [skipWs_blanks hw, skipWs_cons _ (by decide)]
        rfl
      | cons => simp [DocFor, DocsForItems] at hv
    | _ => simp [DocFor] at hv
  | @arr s ds hs ih =>
    intro f r v hv hf _
    obtain ⟨f, rfl⟩ := fuel hf
    cases v with
    | arr vs =>
      simp only [DocFor] at hv
      have := ih f r vs hv (by simp at hf; omega)
      rw [readValue, List.cons_append, List.cons_append, List.append_assoc, skipWs_cons _ (by decide)]
      simp only [List.cons_append, List.nil_append]
      obtain ⟨c, u, he, hc⟩ := items_skipWs hs (']' :: r)
      rw [← readItems_skip, he] at this
      rw [he]
      split
      · next h => simp at h; exact absurd h.1 hc
      · rw [this]; rfl
    | _ => simp [DocFor] at hv
  | @noMembers w hw =>
    intro f r v hv hf _
    obtain ⟨f, rfl⟩ := fuel hf
    cases v with
    | obj vs =>
      cases vs with
      | nil =>
        rw [readValue, List.cons_append, List.cons_append, List.append_assoc, skipWs_cons _ (by decide)]
        simp only [List.cons_append, List.nil_append]
        rw [skipWs_blanks hw, skipWs_cons _ (by decide)]
        rfl
      | cons => simp [DocFor, DocsForMembers] at hv
    | _ => simp [DocFor] at hv
  | @obj s ds hs ih =>
    intro f r v hv hf _
    obtain ⟨f, rfl⟩ := fuel hf
    cases v with
    | obj vs =>
      simp only [DocFor] at hv
      have := ih f r vs hv (by simp at hf; omega)
      rw [readValue, List.cons_append, List.cons_append, List.append_assoc, skipWs_cons _ (by decide)]
      simp only [List.cons_append, List.nil_append]
      obtain ⟨u, he⟩ := members_skipWs hs ('}' :: r)
      rw [← readMembers_skip, he] at this
      rw [he]
      split
      · next h => simp at h
      · rw [this]; rfl
    | _ => simp [DocFor] at hv
  | @item w t w' d hw ht hw' ih =>
    intro f r vs hv hf
    obtain ⟨f, rfl⟩ := fuel hf
    rcases vs with _ | ⟨v, _ | ⟨_, _⟩⟩
    · simp [DocsForItems] at hv
    · simp only [DocsForItems, and_true] at hv
      have := ih f (w' ++ ']' :: r) v hv (by simp at hf; omega) (noDigit_blanks hw' (by decide))
      rw [readItems, List.append_assoc, List.append_assoc, readValue_blanks hw, this]
      simp only []
      rw [skipWs_blanks hw', skipWs_cons _ (by decide)]
      rfl
    · simp [DocsForItems] at hv
  | @moreItems w t w' d s ds hw ht hw' hs ih ih' =>
    intro f r vs hv hf
    obtain ⟨f, rfl⟩ := fuel hf
    rcases vs with _ | ⟨v, vs⟩
    · simp [DocsForItems] at hv
    · simp only [DocsForItems] at hv
      have h1 := ih f (w' ++ ',' :: (s ++ ']' :: r)) v hv.1 (by simp at hf; omega) (noDigit_blanks hw' (by decide))
      have h2 := ih' f r vs hv.2 (by
        obtain ⟨c, u, rfl, -⟩ := value_starts ht
        simp at hf; omega)
      rw [readItems]
      have : w ++ t ++ w' ++ ',' :: s ++ ']' :: r = w ++ (t ++ (w' ++ ',' :: (s ++ ']' :: r))) := by simp
      rw [this, readValue_blanks hw, h1]
      simp only []
      rw [skipWs_blanks hw', skipWs_cons _ (by decide)]
      simp only []
      rw [h2]
      rfl
  | @member w raw w1 w2 t w' d hw hb hw1 hw2 ht hw' ih =>
    intro f r vs hv hf
    obtain ⟨f, rfl⟩ := fuel hf
    rcases vs with _ | ⟨⟨k, v⟩, _ | ⟨_, _⟩⟩
    · simp [DocsForMembers] at hv
    · simp only [DocsForMembers, and_true] at hv
      have := ih f (w' ++ '}' :: r) v hv.2 (by simp at hf; omega) (noDigit_blanks hw' (by decide))
      rw [readMembers]
      have e : w ++ '"' :: raw ++ '"' :: w1 ++ ':' :: w2 ++ t ++ w' ++ '}' :: r =
        w ++ ('"' :: (raw ++ '"' :: (w1 ++ (':' :: (w2 ++ (t ++ (w' ++ '}' :: r))))))) := by simp
      rw [e, skipWs_blanks hw, skipWs_cons _ (by decide)]
      simp only []
      rw [readString_more hv.1]
      simp only []
      rw [skipWs_blanks hw1, skipWs_cons _ (by decide)]
      simp only []
      rw [readValue_blanks hw2, this]
      simp only []
      rw [skipWs_blanks hw', skipWs_cons _ (by decide)]
      rfl
    · simp [DocsForMembers] at hv
  | @moreMembers w raw w1 w2 t w' d s ds hw hb hw1 hw2 ht hw' hs ih ih' =>
    intro f r vs hv hf
    obtain ⟨f, rfl⟩ := fuel hf
    rcases vs with _ | ⟨⟨k, v⟩, vs⟩
    · simp [DocsForMembers] at hv
    · simp only [DocsForMembers] at hv
      have h1 := ih f (w' ++ ',' :: (s ++ '}' :: r)) v hv.2.1 (by simp at hf; omega) (noDigit_blanks hw' (by decide))
      have h2 := ih' f r vs hv.2.2 (by simp at hf; omega)
      rw [readMembers]
      have e : w ++ '"' :: raw ++ '"' :: w1 ++ ':' :: w2 ++ t ++ w' ++ ',' :: s ++ '}' :: r =
        w ++ ('"' :: (raw ++ '"' :: (w1 ++ (':' :: (w2 ++ (t ++ (w' ++ ',' :: (s ++ '}' :: r)))))))) := by simp
      rw [e, skipWs_blanks hw, skipWs_cons _ (by decide)]
      simp only []
      rw [readString_more hv.1]
      simp only []
      rw [skipWs_blanks hw1, skipWs_cons _ (by decide)]
      simp only []
      rw [readValue_blanks hw2, h1]
      simp only []
      rw [skipWs_blanks hw', skipWs_cons _ (by decide)]
      simp only []
      rw [h2]
      rfl

/-- The reader takes a text exactly if it encodes a document that stands for the value. -/
theorem readJson_iff (s : Str) (v : JOut) : readJson s = some v ↔ ∃ d, Encodes s d ∧ DocFor d v := by
  constructor
  · intro h
    unfold readJson at h
    split at h
    · next v' r hv =>
      split at h
      · next hr =>
        cases h
        obtain ⟨w, t, d, hw, ht, hd, he⟩ := (read_sound _).1 _ _ _ hv
        obtain ⟨w', hw', hs⟩ := skipWs_split r
        rw [hr, List.append_nil] at hs
        exact ⟨d, ⟨w, t, w', by rw [he, hs], hw, hw', ht⟩, hd⟩
      · cases h
    · cases h
  · rintro ⟨d, ⟨w, t, w', rfl, hw, hw', ht⟩, hd⟩
    have hnd : NoDigit w' := by
      intro c hc
      rcases hw' c (List.mem_of_mem_head? hc) with rfl | rfl | rfl | rfl <;> decide
    have := read_complete ht ((w ++ t ++ w').length + 1) w' v hd (by simp; omega) hnd
    unfold readJson
    rw [List.append_assoc, readValue_blanks hw, ← List.append_assoc, this]
    dsimp only
    rw [if_pos]
    have := skipWs_blanks hw' []
    rw [List.append_nil] at this
    rw [this]
    rfl

end Aql
