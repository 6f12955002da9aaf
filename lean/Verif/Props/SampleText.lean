import Verif.Spec.SampleText
import Verif.Props.Sampled
import Verif.Props.Sharp
import Verif.Props.Cmd
import Verif.Props.DocText
/-!
Property C125: the sampler on JSON texts (sampler/sampler.go:40-122).
-/

namespace Aql

open Spec

variable {E : Env}

theorem ofJson_scalar {v : Json} : SJson.ofJson E v = .scalar ↔ IsScalar v := by
  cases v <;> simp [SJson.ofJson, IsScalar]

theorem ofJson_isArr (v : Json) : (SJson.ofJson E v).isArr = true ↔ ∃ xs, v = .arr xs := by
  cases v <;> simp [SJson.ofJson, SJson.isArr]

theorem ofMembers_closed (ms : List (Str × Json)) :
    (SJson.ofMembers E ms).2 = true ↔ ∀ m ∈ ms, E.unescape m.1 ≠ none := by
  induction ms with
  | nil => simp [SJson.ofMembers]
  | cons p ms ih =>
    obtain ⟨raw, v⟩ := p
    rw [SJson.ofMembers]
    cases hu : E.unescape raw with
    | none => simp [hu]
    | some k => simp [hu, ih]

theorem ofMembers_mem {ms : List (Str × Json)} (h : ∀ m ∈ ms, E.unescape m.1 ≠ none) {raw : Str} {v : Json} {k : Str}
    (hm : (raw, v) ∈ ms) (hk : E.unescape raw = some k) : (k, SJson.ofJson E v) ∈ (SJson.ofMembers E ms).1 := by
  induction ms with
  | nil => cases hm
  | cons p ms ih =>
    obtain ⟨raw', v'⟩ := p
    rw [SJson.ofMembers]
    cases hu : E.unescape raw' with
    | none => exact absurd hu (h (raw', v') (by simp))
    | some k' =>
      rcases List.mem_cons.1 hm with e | hm
      · cases e
        rw [hk] at hu
        cases hu
        exact List.mem_cons_self
      · exact List.mem_cons_of_mem _ (ih (fun m hm => h m (by simp [hm])) hm)

theorem decodes_intact {m : Int} {dep : Int} {v : Json} (h : Decodes E m dep v) : Intact m dep (SJson.ofJson E v) := by
  induction h with
  | deep h => exact .deep h
  | scalar h => rw [ofJson_scalar.2 h]; exact .scalar
  | obj h1 _ ih =>
    rw [SJson.ofJson, (ofMembers_closed _).2 h1]
    refine .obj fun kv hkv => ?_
    obtain ⟨raw, w, hm, -, hw⟩ := mem_ofMembers hkv
    rw [hw]
    exact ih _ hm
  | arr _ ih =>
    rw [SJson.ofJson]
    refine .arr fun x hx hl => ?_
    obtain ⟨w, hw, rfl⟩ := mem_ofItems hx
    refine ih w hw ?_
    rintro xs rfl
    rw [isList_eq, (ofJson_isArr _).2 ⟨xs, rfl⟩] at hl
    cases hl

theorem intact_decodes {m : Int} {dep : Int} {x : SJson} (h : Intact m dep x) :
    ∀ v, x = SJson.ofJson E v → Decodes E m dep v := by
  induction h with
  | deep h => exact fun v _ => .deep h
  | scalar => exact fun v hv => .scalar (ofJson_scalar.1 hv.symm)
  | @obj dep ms _ ih =>
    intro v hv
    cases v with
    | obj ms' =>
      rw [SJson.ofJson] at hv
      injection hv with h1 h2
      have hall := (ofMembers_closed ms').1 h2.symm
      refine .obj hall fun p hp => ?_
      obtain ⟨raw, w⟩ := p
      cases hu : E.unescape raw with
      | none => exact absurd hu (hall _ hp)
      | some k => exact ih _ (h1 ▸ ofMembers_mem hall hp hu) _ rfl
    | _ => rw [SJson.ofJson] at hv; cases hv
  | @arr dep items _ ih =>
    intro v hv
    cases v with
    | arr vs =>
      rw [SJson.ofJson] at hv
      injection hv with h1 h2
      refine .arr fun w hw hn => ?_
      refine ih _ (h1 ▸ ofItems_mem hw) ?_ w rfl
      rw [isList_eq, Bool.eq_false_iff]
      intro ha
      obtain ⟨xs, rfl⟩ := (ofJson_isArr _).1 ha
      exact hn xs rfl
    | _ => rw [SJson.ofJson] at hv; cases hv

theorem leaf_lead {x : SJson} {p : List Str} (h : LeafPath x p) : ∀ v, x = SJson.ofJson E v → NamesLead E v p := by
  induction h with
  | scalar => exact fun v hv => .scalar (ofJson_scalar.1 hv.symm)
  | member hm _ ih =>
    intro v hv
    cases v with
    | obj ms' =>
      rw [SJson.ofJson] at hv
      injection hv with h1 h2
      subst h1
      obtain ⟨raw, w, hw, hu, he⟩ := mem_ofMembers hm
      exact .member hw hu (ih w he)
    | _ => rw [SJson.ofJson] at hv; cases hv
  | element hm hl _ ih =>
    intro v hv
    cases v with
    | arr vs =>
      rw [SJson.ofJson] at hv
      injection hv with h1 h2
      subst h1
      obtain ⟨w, hw, he⟩ := mem_ofItems hm
      refine .element hw ?_ (ih w he)
      rintro xs rfl
      rw [he, isList_eq, (ofJson_isArr _).2 ⟨xs, rfl⟩] at hl
      cases hl
    | _ => rw [SJson.ofJson] at hv; cases hv

theorem lead_leaf {v : Json} {p : List Str} (h : NamesLead E v p) :
    ∀ {m dep : Int}, Decodes E m dep v → p.length + dep ≤ m → LeafPath (SJson.ofJson E v) p := by
  induction h with
  | scalar h => intro _ _ _ _; rw [ofJson_scalar.2 h]; exact .scalar
  | member hm hu _ ih =>
    intro m dep hd hp
    simp only [List.length_cons, Nat.cast_add, Nat.cast_one] at hp
    cases hd with
    | deep h => omega
    | scalar h => exact h.elim
    | obj h1 h2 =>
      rw [SJson.ofJson]
      exact .member (ofMembers_mem h1 hm hu) (ih (h2 _ hm) (by omega))
  | element hm hn _ ih =>
    intro m dep hd hp
    cases hd with
    | deep h => omega
    | scalar h => exact h.elim
    | arr h1 =>
      rw [SJson.ofJson]
      refine .element (ofItems_mem hm) ?_ (ih (h1 _ hm hn) hp)
      rw [isList_eq, Bool.eq_false_iff]
      intro ha
      obtain ⟨xs, rfl⟩ := (ofJson_isArr _).1 ha
      exact hn xs rfl

/-! ### texts and bytes -/

theorem blanks_bytes {w : Str} (h : Blanks w) : ∀ b ∈ utf8 w, IsSpaceByte b := by
  intro b hb
  obtain ⟨c, hc, hb⟩ := List.mem_flatMap.1 hb
  rcases h c hc with rfl | rfl | rfl | rfl <;>
    · have : b = _ := List.mem_singleton.1 hb
      subst this
      unfold IsSpaceByte
      decide

theorem utf8_nil_iff {w : Str} : utf8 w = [] ↔ w = [] := by
  constructor
  · intro h
    cases w with
    | nil => rfl
    | cons c w =>
      have := congrArg decode h
      rw [decode_utf8] at this
      simp [decode] at this
  · rintro rfl; rfl

/-- The brackets of an object or an array. -/
def bracketsOf : Json → Option (Char × Char)
  | .obj _ => some ('{', '}')
  | .arr _ => some ('[', ']')
  | _ => none

theorem writes_brackets {t : Str} {d : Json} {o c : Char} (h : Writes t (.value d)) (hb : bracketsOf d = some (o, c)) :
    ∃ body, t = o :: (body ++ [c]) := by
  cases h <;> simp [bracketsOf] at hb <;> obtain ⟨rfl, rfl⟩ := hb <;> exact ⟨_, rfl⟩

theorem writes_first {t : Str} {d : Json} (h : Writes t (.value d)) (hs : IsScalar d) :
    ∃ c r, t = c :: r ∧ c ≠ '{' ∧ c ≠ '[' := by
  cases h with
  | null => exact ⟨_, _, rfl, by decide, by decide⟩
  | true => exact ⟨_, _, rfl, by decide, by decide⟩
  | false => exact ⟨_, _, rfl, by decide, by decide⟩
  | str _ => exact ⟨_, _, rfl, by decide, by decide⟩
  | num h =>
    obtain ⟨sg, a, b, e, rfl, hs, h1, -, -⟩ := h
    rcases hs with rfl | rfl
    · have ha : ∃ c r, a = c :: r ∧ '0' ≤ c ∧ c ≤ '9' := by
        rcases h1 with rfl | ⟨hd, -⟩
        · exact ⟨_, _, rfl, by decide, by decide⟩
        · obtain ⟨c, r, rfl⟩ := List.exists_cons_of_ne_nil hd.1
          exact ⟨c, r, rfl, hd.2 c (by simp)⟩
      obtain ⟨c, r, rfl, hc⟩ := ha
      refine ⟨c, _, rfl, ?_, ?_⟩ <;> rintro rfl <;> exact absurd hc (by decide)
    · exact ⟨_, _, rfl, by decide, by decide⟩
  | _ => exact hs.elim

theorem noMargin_iff {w t w' : Str} {o c : Char} (hw : Blanks w) (hw' : Blanks w') (ho : ¬ (o = ' ' ∨ o = '\t' ∨ o = '\n' ∨ o = '\r'))
    (hc : ¬ (c = ' ' ∨ c = '\t' ∨ c = '\n' ∨ c = '\r')) : NoMargin (w ++ o :: (t ++ [c]) ++ w') ↔ w = [] ∧ w' = [] := by
  constructor
  · intro h
    constructor
    · cases w with
      | nil => rfl
      | cons x w => exact absurd (hw x (by simp)) (h x (.inl rfl))
    · by_contra hn
      refine h (w'.getLast hn) (.inr ?_) (hw' _ (List.getLast_mem hn))
      rw [List.getLast?_append_of_ne_nil _ hn, List.getLast?_eq_some_getLast hn]
  · rintro ⟨rfl, rfl⟩ x (hx | hx)
    · simp only [List.nil_append, List.append_nil, List.head?_cons, Option.some.injEq] at hx
      exact hx ▸ ho
    · have : (o :: (t ++ [c])).getLast? = some c := by rw [← List.cons_append, List.getLast?_append]; simp
      simp only [List.nil_append, List.append_nil, this, Option.some.injEq] at hx
      exact hx ▸ hc

/-- What is sampled of a document that is an object or an array. -/
def sampledOf (E : Env) : Json → SampleIn
  | .obj ms => .object (SJson.ofMembers E ms).1 (SJson.ofMembers E ms).2
  | .arr vs => .array (SJson.ofItems E vs) true
  | _ => .rejected

theorem sampledOf_complete {m : Int} {d : Json} (h : ¬ IsScalar d) : Complete m (sampledOf E d) ↔ Decodes E m 0 d := by
  have : Complete m (sampledOf E d) ↔ Intact m 0 (SJson.ofJson E d) := by
    cases d <;> first | exact absurd trivial h | (simp only [sampledOf, Complete, SJson.ofJson])
  rw [this]
  exact ⟨fun hi => intact_decodes hi d rfl, decodes_intact⟩

theorem sampledOf_leaf {d : Json} (h : ¬ IsScalar d) (p : List Str) : DocLeaf (sampledOf E d) p ↔ LeafPath (SJson.ofJson E d) p := by
  cases d <;> first | exact absurd trivial h | (simp only [sampledOf, DocLeaf, SJson.ofJson])

theorem leaf_root {d : Json} (h : ¬ IsScalar d) :
    DocLeaf (sampledOf E d) [] ↔ ∃ vs, d = .arr vs ∧ ∃ v ∈ vs, IsScalar v := by
  rw [sampledOf_leaf h]
  constructor
  · intro hl
    cases leaf_lead hl d rfl with
    | scalar hs => exact absurd hs h
    | element hm hn hv =>
      refine ⟨_, rfl, _, hm, ?_⟩
      cases hv with
      | scalar hs => exact hs
      | element _ _ _ => exact absurd rfl (hn _)
  · rintro ⟨vs, rfl, v, hv, hs⟩
    rw [SJson.ofJson]
    refine .element (ofItems_mem hv) ?_ ?_
    · rw [isList_eq, ofJson_scalar.2 hs]; rfl
    · rw [ofJson_scalar.2 hs]; exact .scalar

/-- The text of an object or an array, and what is sampled of it. -/
theorem text_bytes {L : ScanLib} (hL : Finds E L) {t : Str} {d : Json} (h : Encodes t d) (hd : ¬ IsScalar d) :
    ∃ (w w' : Str) (o c : UInt8) (body : List UInt8), utf8 t = utf8 w ++ (o :: (body ++ [c])) ++ utf8 w' ∧ Blanks w ∧ Blanks w' ∧
      ((o = 123 ∧ c = 125) ∨ (o = 91 ∧ c = 93)) ∧ (NoMargin t ↔ w = [] ∧ w' = []) ∧
      contentOf L (o :: (body ++ [c])) = sampledOf E d ∧
      ((o = 123 ∧ sampledOf E d = .object (L.members (o :: (body ++ [c]))).1 (L.members (o :: (body ++ [c]))).2) ∨
        (o = 91 ∧ sampledOf E d = .array (L.items (o :: (body ++ [c]))).1 (L.items (o :: (body ++ [c]))).2)) := by
  obtain ⟨w, t, w', rfl, hw, hw', ht⟩ := h
  have he : Encodes t d := ⟨[], t, [], by simp, no_blanks, no_blanks, ht⟩
  have one : ∀ c : Char, utf8 [c] = String.utf8EncodeChar c := fun c => by simp [utf8]
  have enc : ∀ body, utf8 ('{' :: (body ++ ['}'])) = 123 :: (utf8 body ++ [125]) := fun body => by
    rw [show '{' :: (body ++ ['}']) = ['{'] ++ (body ++ ['}']) from rfl, utf8_append, utf8_append, one, one]; rfl
  have enc' : ∀ body, utf8 ('[' :: (body ++ [']'])) = 91 :: (utf8 body ++ [93]) := fun body => by
    rw [show '[' :: (body ++ [']']) = ['['] ++ (body ++ [']']) from rfl, utf8_append, utf8_append, one, one]; rfl
  cases d with
  | obj ms =>
    obtain ⟨body, rfl⟩ := writes_brackets ht rfl
    have hm := hL.members he
    rw [enc] at hm
    refine ⟨w, w', 123, 125, utf8 body, ?_, hw, hw', .inl ⟨rfl, rfl⟩, noMargin_iff hw hw' (by decide) (by decide), ?_,
      .inl ⟨rfl, ?_⟩⟩
    · rw [utf8_append, utf8_append, enc]
    · simp [contentOf, sampledOf, hm]
    · simp [sampledOf, hm]
  | arr vs =>
    obtain ⟨body, rfl⟩ := writes_brackets ht rfl
    have hm := hL.items he
    rw [enc'] at hm
    refine ⟨w, w', 91, 93, utf8 body, ?_, hw, hw', .inr ⟨rfl, rfl⟩, noMargin_iff hw hw' (by decide) (by decide), ?_,
      .inr ⟨rfl, ?_⟩⟩
    · rw [utf8_append, utf8_append, enc']
    · simp [contentOf, sampledOf, hm]
    · simp [sampledOf, hm]
  | _ => exact absurd trivial hd

/-- Only a bracket begins with the byte of a bracket. -/
theorem encode_first {c : Char} {b : UInt8} (h : (String.utf8EncodeChar c).head? = some b) (hb : b.toNat < 128) :
    c.toNat = b.toNat := by
  unfold String.utf8EncodeChar at h
  dsimp only at h
  split_ifs at h with h1 h2 h3
  · simp only [List.head?_cons, Option.some.injEq] at h
    have := congrArg UInt8.toNat h
    simp only [UInt8.toNat_ofNat'] at this
    have : c.val.toNat = b.toNat := by omega
    exact this
  all_goals
    simp only [List.head?_cons, Option.some.injEq] at h
    have := congrArg UInt8.toNat h
    simp only [UInt8.toNat_ofNat'] at this
    omega

theorem utf8_head {c : Char} {r : Str} {b : UInt8} (h : (utf8 (c :: r)).head? = some b) (hb : b.toNat < 128) : c.toNat = b.toNat := by
  refine encode_first ?_ hb
  rw [show utf8 (c :: r) = String.utf8EncodeChar c ++ utf8 r by simp [utf8]] at h
  rwa [List.head?_append_of_ne_nil _ (by
    intro h0
    have := decode_utf8 [c]
    rw [show utf8 [c] = String.utf8EncodeChar c by simp [utf8], h0] at this
    simp [decode] at this)] at h

theorem space_head {w : Str} (h : Blanks w) (hne : w ≠ []) (r : List UInt8) : ∃ b, (utf8 w ++ r).head? = some b ∧ IsSpaceByte b := by
  have : utf8 w ≠ [] := fun h0 => hne (utf8_nil_iff.1 h0)
  obtain ⟨b, l, hl⟩ := List.exists_cons_of_ne_nil this
  exact ⟨b, by rw [hl]; rfl, blanks_bytes h b (by rw [hl]; simp)⟩

theorem space_last {w : Str} (h : Blanks w) (hne : w ≠ []) (r : List UInt8) : ∃ b, (r ++ utf8 w).getLast? = some b ∧ IsSpaceByte b := by
  have : utf8 w ≠ [] := fun h0 => hne (utf8_nil_iff.1 h0)
  exact ⟨_, by rw [List.getLast?_append_of_ne_nil _ this, List.getLast?_eq_some_getLast this],
    blanks_bytes h _ (List.getLast_mem this)⟩

/-- A text that is refused before its content is looked at. -/
theorem text_refused {L : ScanLib} (s : Sampler) {t : Str} {d : Json} (h : Encodes t d) (hd : IsScalar d ∨ ¬ NoMargin t) :
    ∃ e q, s.sampleBytes L (utf8 t) = .ok (s, some (.text e q)) := by
  have hne : utf8 t ≠ [] := by
    rw [Ne, utf8_nil_iff]
    rintro rfl
    obtain ⟨w, t, w', he, -, -, ht⟩ := h
    have : t = [] := by
      have := congrArg List.length he
      simp only [List.length_nil, List.length_append] at this
      exact List.length_eq_zero_iff.1 (by omega)
    subst this
    by_cases hs : IsScalar d
    · obtain ⟨c, r, hc, -⟩ := writes_first ht hs
      cases hc
    · cases d with
      | obj ms => obtain ⟨b, hb⟩ := writes_brackets ht rfl; cases hb
      | arr vs => obtain ⟨b, hb⟩ := writes_brackets ht rfl; cases hb
      | _ => exact hs trivial
  rcases C74_first_last L s (utf8 t) hne with hc | ⟨e, q, r, hq, -⟩
  · exfalso
    have ne : ∀ b, IsSpaceByte b → b ≠ 123 ∧ b ≠ 125 ∧ b ≠ 91 ∧ b ≠ 93 := by
      rintro b (rfl | rfl | rfl | rfl) <;> decide
    obtain ⟨w, t, w', rfl, hw, hw', ht⟩ := h
    have hwe : w = [] := by
      by_contra h0
      obtain ⟨b, hb, hs⟩ := space_head hw h0 (utf8 t ++ utf8 w')
      rw [utf8_append, utf8_append, List.append_assoc, hb] at hc
      have := ne b hs
      simp only [Option.some.injEq] at hc
      tauto
    have hwe' : w' = [] := by
      by_contra h0
      obtain ⟨b, hb, hs⟩ := space_last hw' h0 (utf8 w ++ utf8 t)
      rw [utf8_append, utf8_append, hb] at hc
      have := ne b hs
      simp only [Option.some.injEq] at hc
      tauto
    subst hwe hwe'
    simp only [List.nil_append, List.append_nil] at *
    by_cases hs : IsScalar d
    · obtain ⟨c, r, rfl, h1, h2⟩ := writes_first ht hs
      rcases hc with ⟨hc, -⟩ | ⟨hc, -⟩
      · exact h1 (Char.ext (UInt32.toNat_inj.1 (utf8_head hc (by decide))))
      · exact h2 (Char.ext (UInt32.toNat_inj.1 (utf8_head hc (by decide))))
    · refine (hd.resolve_left hs) ?_
      cases d with
      | obj ms =>
        obtain ⟨b, rfl⟩ := writes_brackets ht rfl
        have := (noMargin_iff (t := b) no_blanks no_blanks (o := '{') (c := '}') (by decide) (by decide)).2 ⟨rfl, rfl⟩
        simpa using this
      | arr vs =>
        obtain ⟨b, rfl⟩ := writes_brackets ht rfl
        have := (noMargin_iff (t := b) no_blanks no_blanks (o := '[') (c := ']') (by decide) (by decide)).2 ⟨rfl, rfl⟩
        simpa using this
      | _ => exact absurd trivial hs
  · exact ⟨e, q, hq⟩

/-- **C125.** `Sample` accepts a JSON text exactly if there is no white space around it, it is an object or an array, the
names in reach can be decoded, and no element of an outermost array is a scalar; and, if the sampler has lost its map, if
no scalar is in reach. -/
theorem C125_accepted {L : ScanLib} (hL : Finds E L) (s : Sampler) {t : Str} {d : Json} (h : Encodes t d) :
    (∃ s', s.sampleBytes L (utf8 t) = .ok (s', none)) ↔
      NoMargin t ∧ ¬ IsScalar d ∧ Decodes E s.maxDepth 0 d ∧
        (0 ≤ s.maxDepth → ¬ ∃ vs, d = .arr vs ∧ ∃ v ∈ vs, IsScalar v) ∧
        (s.keys = none → ∀ p, NamesLead E d p → s.maxDepth < p.length) := by
  by_cases hd : IsScalar d
  · obtain ⟨e, q, hq⟩ := text_refused (L := L) s h (.inl hd)
    simp [hq, hd]
  · obtain ⟨w, w', o, c, body, ht, hw, hw', hoc, hn, hcon, -⟩ := text_bytes hL h hd
    rw [ht, C74_accepted_exact L s _ _ body o c (blanks_bytes hw) (blanks_bytes hw') hoc, hn, hcon, sampledOf_complete hd,
      leaf_root hd, utf8_nil_iff, utf8_nil_iff]
    constructor
    · rintro ⟨h1, h2, h3, h4, h5⟩
      refine ⟨⟨h1, h2⟩, hd, h3, h4, fun hk p hp => ?_⟩
      by_contra hlt
      have := h5 hk p ((sampledOf_leaf hd p).2 (lead_leaf hp h3 (by omega)))
      omega
    · rintro ⟨⟨h1, h2⟩, -, h3, h4, h5⟩
      exact ⟨h1, h2, h3, h4, fun hk p hp => h5 hk p (leaf_lead ((sampledOf_leaf hd p).1 hp) d rfl)⟩

/-- A text with white space around it, or of a scalar, is refused, and leaves the sampler as it is. -/
theorem C125_refused {L : ScanLib} (s : Sampler) {t : Str} {d : Json} (h : Encodes t d) (hd : IsScalar d ∨ ¬ NoMargin t) :
    ∃ e q, s.sampleBytes L (utf8 t) = .ok (s, some (.text e q)) :=
  text_refused s h hd

theorem bracketed {L : ScanLib} (hL : Finds E L) (s : Sampler) {t : Str} {d : Json} (h : Encodes t d) (hd : ¬ IsScalar d)
    (hm : NoMargin t) :
    (∀ p, s.sampleBytes L (utf8 t) = .error p ↔ s.sample (sampledOf E d) = .error p) ∧
    (∀ s', s.sampleBytes L (utf8 t) = .ok (s', none) ↔ s.sample (sampledOf E d) = .ok (s', false)) ∧
    (∀ s', (∃ e, s.sampleBytes L (utf8 t) = .ok (s', some e)) ↔ s.sample (sampledOf E d) = .ok (s', true)) := by
  obtain ⟨w, w', o, c, body, ht, -, -, hoc, hn, -, hk⟩ := text_bytes hL h hd
  obtain ⟨rfl, rfl⟩ := hn.1 hm
  have hu : utf8 t = o :: (body ++ [c]) := by rw [ht]; simp [utf8]
  rw [hu]
  refine C74_bracketed_partial L s _ _ ?_
  have hl : (o :: (body ++ [c])).getLast? = some c := by rw [← List.cons_append, List.getLast?_append]; simp
  rcases hk with ⟨rfl, hk⟩ | ⟨rfl, hk⟩
  · rcases hoc with ⟨-, rfl⟩ | ⟨h0, -⟩
    · exact .inl ⟨rfl, hl, hk⟩
    · exact absurd h0 (by decide)
  · rcases hoc with ⟨h0, -⟩ | ⟨-, rfl⟩
    · exact absurd h0 (by decide)
    · exact .inr ⟨rfl, hl, hk⟩

theorem ofItems_map (vs : List Json) : SJson.ofItems E vs = vs.map (SJson.ofJson E) := by
  induction vs with
  | nil => rfl
  | cons v vs ih => rw [SJson.ofItems, ih]; rfl

/-- **C125.** A sampler that has its map panics on a JSON text exactly if it is an array, without white space around it,
with a scalar element before which all names in reach can be decoded. -/
theorem C125_panics {L : ScanLib} (hL : Finds E L) {s : Sampler} (hk : s.keys ≠ none) {t : Str} {d : Json} (h : Encodes t d) :
    (∃ p, s.sampleBytes L (utf8 t) = .error p) ↔
      NoMargin t ∧ ∃ before v after, d = .arr (before ++ v :: after) ∧ IsScalar v ∧ 0 ≤ s.maxDepth ∧
        ∀ u ∈ before, (∀ xs, u ≠ .arr xs) → Decodes E s.maxDepth 0 u := by
  by_cases hr : IsScalar d ∨ ¬ NoMargin t
  · obtain ⟨e, q, hq⟩ := text_refused (L := L) s h hr
    rw [hq]
    constructor
    · rintro ⟨p, hp⟩; cases hp
    · rintro ⟨hm, b, v, a, rfl, -⟩
      rcases hr with hr | hr
      · exact hr.elim
      · exact absurd hm hr
  · rw [not_or, not_not] at hr
    obtain ⟨hd, hm⟩ := hr
    have : (∃ p, s.sampleBytes L (utf8 t) = .error p) ↔ ∃ p, s.sample (sampledOf E d) = .error p :=
      exists_congr fun p => (bracketed hL s h hd hm).1 p
    rw [this, C47_panics_exact hk]
    constructor
    · rintro (h0 | ⟨b, a, cl, hb, h0, hall⟩)
      · cases d <;> cases h0
      · cases d with
        | arr vs =>
          simp only [sampledOf, SampleIn.array.injEq] at hb
          rw [ofItems_map] at hb
          obtain ⟨b', r', rfl, hb', hr'⟩ := List.map_eq_append_iff.1 hb.1
          obtain ⟨v, a', rfl, hv, -⟩ := List.map_eq_cons_iff.1 hr'
          refine ⟨hm, b', v, a', rfl, ofJson_scalar.1 hv, h0, fun u hu hn => ?_⟩
          refine intact_decodes (hall (SJson.ofJson E u) (hb' ▸ List.mem_map_of_mem hu) ?_) u rfl
          rw [isList_eq, Bool.eq_false_iff]
          intro ha
          obtain ⟨xs, rfl⟩ := (ofJson_isArr _).1 ha
          exact hn xs rfl
        | _ => cases hb
    · rintro ⟨-, b, v, a, rfl, hv, h0, hall⟩
      refine .inr ⟨b.map (SJson.ofJson E), a.map (SJson.ofJson E), true, ?_, h0, ?_⟩
      · simp only [sampledOf, ofItems_map, List.map_append, List.map_cons, ofJson_scalar.2 hv]
      · intro x hx hl
        obtain ⟨u, hu, rfl⟩ := List.mem_map.1 hx
        refine decodes_intact (hall u hu ?_)
        rintro xs rfl
        rw [isList_eq, (ofJson_isArr _).2 ⟨xs, rfl⟩] at hl
        cases hl

/-- **C125.** In every other case the scan ends with an error, and all keys are lost. -/
theorem C125_lost {L : ScanLib} (hL : Finds E L) {s : Sampler} {t : Str} {d : Json} (h : Encodes t d)
    (hm : NoMargin t) (hd : ¬ IsScalar d) (hn : ¬ Decodes E s.maxDepth 0 d) {s' : Sampler} {e : Option SampleErr}
    (hs : s.sampleBytes L (utf8 t) = .ok (s', e)) : e = some .scan ∧ s'.getKeys = [] ∧ s'.keys = none := by
  obtain ⟨-, b2, b3⟩ := bracketed hL s h hd hm
  have fin : ∀ {s s' : Sampler}, s.sample (sampledOf E d) = .ok (s', true) → s'.keys = none := by
    intro s s' hr
    have fin' : ∀ {r}, s.finish r = .ok (s', true) → s'.keys = none := by
      intro r hr
      rcases r with p | ⟨keys, _ | _⟩ <;> cases hr
      rfl
    cases d with
    | obj ms => exact fin' hr
    | arr vs => exact fin' hr
    | _ => exact absurd trivial hd
  cases e with
  | none => exact absurd ((C125_accepted hL s h).1 ⟨s', hs⟩).2.2.1 hn
  | some e =>
    have h1 := (b3 s').1 ⟨e, hs⟩
    have hnone : s'.keys = none := fin h1
    refine ⟨?_, by rw [Sampler.getKeys, Sampler.entries, hnone]; rfl, hnone⟩
    unfold Sampler.sampleBytes at hs
    split at hs
    · cases hs
    · next e' hk =>
      have h0 := (bracketed hL { s with keys := some [] } h hd hm).2.2 { s with keys := some [] }
      have := fin (h0.1 ⟨e', by unfold Sampler.sampleBytes; rw [hk]⟩)
      cases this
    · split at hs <;> cases hs
      rfl

/-- JSON texts given to a sampler one after the other, all accepted; with their documents. -/
inductive TextsSampled (L : ScanLib) : Sampler → List (Str × Json) → Sampler → Prop
  | nil (s) : TextsSampled L s [] s
  | cons {s s1 s' t d ds} : Encodes t d → s.sampleBytes L (utf8 t) = .ok (s1, none) → TextsSampled L s1 ds s' →
      TextsSampled L s ((t, d) :: ds) s'

theorem textsSampled_samples {L : ScanLib} (hL : Finds E L) {s s' : Sampler} {ds : List (Str × Json)} (h : TextsSampled L s ds s') :
    Samples s (ds.map fun x => sampledOf E x.2) s' ∧
      ∀ x ∈ ds, Decodes E s.maxDepth 0 x.2 ∧ ¬ IsScalar x.2 := by
  induction h with
  | nil => exact ⟨.nil _, by simp⟩
  | cons he hs _ ih =>
    have hacc := (C125_accepted hL _ he).1 ⟨_, hs⟩
    have h1 := ((bracketed hL _ he hacc.2.1 hacc.1).2.1 _).1 hs
    obtain ⟨keys, -, hs1⟩ := sample_visited h1
    refine ⟨.cons h1 ih.1, fun x hx => ?_⟩
    rcases List.mem_cons.1 hx with rfl | hx
    · exact ⟨hacc.2.2.1, hacc.2.1⟩
    · have := ih.2 x hx
      rw [hs1] at this
      exact this

/-- **C125.** After any JSON texts, all accepted, the keys are exactly the written forms of the lists of names, no longer
than the depth, that lead to a scalar in one of the documents; every text is counted. -/
theorem C125_keys {L : ScanLib} (hL : Finds E L) {maxDepth : Int} {ds : List (Str × Json)} {s : Sampler}
    (h : TextsSampled L (Sampler.new maxDepth) ds s) :
    (∀ k, k ∈ s.getKeys ↔ ∃ x ∈ ds, ∃ path, NamesLead E x.2 path ∧ (path.length : Int) ≤ maxDepth ∧ dotted path = k) ∧
      s.getKeys.Nodup ∧ s.scanned = ds.length := by
  obtain ⟨h1, h2⟩ := textsSampled_samples hL h
  obtain ⟨h3, h4⟩ := C44_keys h1
  refine ⟨fun k => ?_, h4, ?_⟩
  swap
  · have hc : ∀ {s s' : Sampler} {ds : List SampleIn}, Samples s ds s' → s'.scanned = s.scanned + ds.length := by
      intro s s' ds hs
      induction hs with
      | nil => rfl
      | cons h1 _ ih =>
        obtain ⟨keys, -, hs1⟩ := sample_visited h1
        rw [ih, hs1, List.length_cons]
        simp only [Sampler.scanned]
        omega
    have := hc h1
    rw [List.length_map] at this
    rw [this]
    simp [Sampler.new, Sampler.scanned]
  rw [h3]
  constructor
  · rintro ⟨_, hd, path, hp, hl, hk⟩
    obtain ⟨x, hx, rfl⟩ := List.mem_map.1 hd
    exact ⟨x, hx, path, leaf_lead ((sampledOf_leaf (h2 x hx).2 path).1 hp) x.2 rfl, hl, hk⟩
  · rintro ⟨x, hx, path, hp, hl, hk⟩
    exact ⟨_, List.mem_map.2 ⟨x, hx, rfl⟩, path,
      (sampledOf_leaf (h2 x hx).2 path).2 (lead_leaf hp (h2 x hx).1 (by rw [Int.add_zero]; exact hl)), hl, hk⟩

/-- **C125.** From the texts to the sampler, from there to a query, and back to a text: every key reported for texts of
objects (names distinct and plain, not nested too deeply for `Match`), typed in with `:exists` behind it, gives a matcher
that matches one of the texts. -/
theorem C125_typed_back {L : ScanLib} (hL : Finds E L) {maxDepth : Int} {ds : List (Str × Json)} {s : Sampler}
    (h : TextsSampled L (Sampler.new maxDepth) ds s) (ho : ∀ x ∈ ds, ∃ ms, x.2 = .obj ms) (hk : ∀ x ∈ ds, Keyed E x.2)
    (hd : ∀ x ∈ ds, nestedIn x.2 ≤ 10000)
    (hn : ∀ x ∈ ds, ∀ path y, ScalarUnder E x.2 path y → ∀ k ∈ path, PlainKey E k) {key : Str} (hm : key ∈ s.getKeys) :
    ∃ m msgs, newMatcher E (utf8 (key ++ ":exists".toList)) = some (.ok (.ok (m, msgs))) ∧
      ∃ x ∈ ds, (m.match E (docOfText x.1)).2 = .result true := by
  have he : ∀ {s s' : Sampler} {ds : List (Str × Json)}, TextsSampled L s ds s' → ∀ x ∈ ds, Encodes x.1 x.2 := by
    intro s s' ds h
    induction h with
    | nil => simp
    | cons h1 _ _ ih =>
      intro x hx
      rcases List.mem_cons.1 hx with rfl | hx
      · exact h1
      · exact ih x hx
  obtain ⟨h1, -⟩ := textsSampled_samples hL h
  have key1 : ∀ ds : List (Str × Json), (∀ x ∈ ds, ∃ ms, x.2 = .obj ms) →
      ∃ docs : List (List (Str × Json)), ds.map (fun x => sampledOf E x.2) = docs.map (sampleOf E) ∧ docs.map Json.obj = ds.map (·.2) := by
    intro ds
    induction ds with
    | nil => exact fun _ => ⟨[], rfl, rfl⟩
    | cons x ds ih =>
      intro ho
      obtain ⟨docs, e1, e2⟩ := ih fun y hy => ho y (by simp [hy])
      obtain ⟨ms, hms⟩ := ho x (by simp)
      refine ⟨ms :: docs, ?_, by simp [e2, hms]⟩
      rw [List.map_cons, List.map_cons, e1, hms]
      rfl
  obtain ⟨docs, e1, e2⟩ := key1 ds ho
  rw [e1] at h1
  have back : ∀ ms ∈ docs, ∃ x ∈ ds, x.2 = .obj ms := by
    intro ms hms
    have : Json.obj ms ∈ ds.map (·.2) := e2 ▸ List.mem_map_of_mem hms
    obtain ⟨x, hx, e⟩ := List.mem_map.1 this
    exact ⟨x, hx, e⟩
  obtain ⟨m, msgs, hM, ms, hms, ha⟩ := C73_key_text_partial (fun ms hms => by
    obtain ⟨x, hx, e⟩ := back ms hms
    exact e ▸ hk x hx) h1 (fun ms hms => by
    obtain ⟨x, hx, e⟩ := back ms hms
    exact e ▸ hn x hx) hm
  obtain ⟨x, hx, e⟩ := back ms hms
  refine ⟨m, msgs, hM, x, hx, ?_⟩
  rw [(C124_document x.1 x.2).2 ⟨he h x hx, hd x hx⟩, e]
  exact ha

/-! ### where `Match` and `Sample` differ -/

/-- A JSON text that `Match` takes for a document costs the sampler all its keys, if a name in
it cannot be decoded. -/
theorem C125_name_not_decoded {L : ScanLib} (hL : Finds E L) {s : Sampler} (hm : 0 ≤ s.maxDepth) {raw : Str} (hb : StringBody raw)
    (hu : E.unescape raw = none) :
    docOfText ('{' :: '"' :: (raw ++ "\":null}".toList)) = .valid (.obj [(raw, .null)]) ∧
      ∀ s' e, s.sampleBytes L (utf8 ('{' :: '"' :: (raw ++ "\":null}".toList))) = .ok (s', e) → e = some .scan ∧ s'.getKeys = [] := by
  have hw := Writes.obj (.member no_blanks hb no_blanks no_blanks .null no_blanks)
  have he : Encodes ('{' :: '"' :: (raw ++ "\":null}".toList)) (.obj [(raw, .null)]) := by
    refine ⟨[], _, [], ?_, no_blanks, no_blanks, hw⟩
    simp
  refine ⟨(C124_document _ _).2 ⟨he, by simp [nestedIn, nestedInMembers]⟩, fun s' e hs => ?_⟩
  have hn : NoMargin ('{' :: '"' :: (raw ++ "\":null}".toList)) := by
    have := (noMargin_iff (t := '"' :: (raw ++ "\":null".toList)) no_blanks no_blanks (o := '{') (c := '}') (by decide) (by decide)).2
      ⟨rfl, rfl⟩
    simpa using this
  obtain ⟨h1, h2, -⟩ := C125_lost hL he hn id (by
    intro hd
    cases hd with
    | deep h => omega
    | scalar h => exact h
    | obj h _ => exact h (raw, .null) (by simp) hu) hs
  exact ⟨h1, h2⟩

/-- `Sample` has no limit on brackets within brackets: it accepts what `Match` refuses. -/
theorem C125_too_deep {L : ScanLib} (hL : Finds E L) {s : Sampler} (n : Nat) (hn : 10000 ≤ n) :
    docOfText (List.replicate (n + 1) '[' ++ List.replicate (n + 1) ']') = .invalid ∧
      ∃ s', s.sampleBytes L (utf8 (List.replicate (n + 1) '[' ++ List.replicate (n + 1) ']')) = .ok (s', none) := by
  obtain ⟨he, hi⟩ := C124_too_deep n hn
  refine ⟨hi, (C125_accepted hL s he).2 ?_⟩
  obtain ⟨k, rfl⟩ : ∃ k, n = k + 1 := ⟨n - 1, by omega⟩
  have helem : ∀ v ∈ [deepArrays k], ∃ xs, v = .arr xs := by
    intro v hv
    rw [List.mem_singleton.1 hv]
    cases k <;> exact ⟨_, rfl⟩
  refine ⟨?_, id, .arr fun v hv hx => ?_, ?_, ?_⟩
  · have := (noMargin_iff (t := List.replicate (k + 1) '[' ++ List.replicate (k + 1) ']') no_blanks no_blanks (o := '[') (c := ']')
      (by decide) (by decide)).2 ⟨rfl, rfl⟩
    rw [List.replicate_succ (n := k + 1), List.replicate_succ' (n := k + 1)]
    simpa using this
  · obtain ⟨xs, rfl⟩ := helem v hv
    exact absurd rfl (hx xs)
  · rintro - ⟨vs, hvs, v, hv, hs⟩
    simp only [deepArrays, Json.arr.injEq] at hvs
    subst hvs
    obtain ⟨xs, rfl⟩ := helem v hv
    exact hs
  · intro _ p hp
    cases hp with
    | scalar h => exact h.elim
    | element hv hx _ =>
      obtain ⟨xs, rfl⟩ := helem _ hv
      exact absurd rfl (hx xs)

/-! ### a library and a text meeting the hypotheses -/

theorem utf8_inj {s t : Str} (h : utf8 s = utf8 t) : s = t := by
  have := congrArg decode h
  rw [decode_utf8, decode_utf8] at this
  exact List.map_injective_iff.2 (fun a b hab => by injection hab) this

theorem bytes_unique {s t : Str} {d d' : Json} (h : utf8 s = utf8 t) (h1 : Encodes s d) (h2 : Encodes t d') : d = d' := by
  have := utf8_inj h
  subst this
  exact C124_unique h1 h2

open Classical in
/-- There is such a library. -/
theorem finds_exists (E : Env) : ∃ L, Finds E L := by
  refine ⟨⟨fun b => if h : ∃ t ms, utf8 t = b ∧ Encodes t (.obj ms) then SJson.ofMembers E h.choose_spec.choose else ([], false),
    fun b => if h : ∃ t vs, utf8 t = b ∧ Encodes t (.arr vs) then (SJson.ofItems E h.choose_spec.choose, true) else ([], false)⟩,
    ⟨fun {t ms} he => ?_, fun {t vs} he => ?_⟩⟩
  · have h : ∃ t' ms', utf8 t' = utf8 ('{' :: t) ∧ Encodes t' (.obj ms') := ⟨_, _, rfl, he⟩
    obtain ⟨h1, h2⟩ := h.choose_spec.choose_spec
    have := bytes_unique h1 h2 he
    injection this with hms
    simp only [dif_pos h, hms]
  · have h : ∃ t' vs', utf8 t' = utf8 ('[' :: t) ∧ Encodes t' (.arr vs') := ⟨_, _, rfl, he⟩
    obtain ⟨h1, h2⟩ := h.choose_spec.choose_spec
    have := bytes_unique h1 h2 he
    injection this with hms
    simp only [dif_pos h, hms]

theorem sample_example : Encodes "{\"a b\":[{\"c\" : true}]}".toList
    (.obj [("a b".toList, .arr [.obj [(['c'], .bool true)]])]) := by
  have hc : StringBody ['c'] := .plain (by decide) (by decide) (by decide) .nil
  have ha : StringBody "a b".toList :=
    .plain (by decide) (by decide) (by decide) (.plain (by decide) (by decide) (by decide) (.plain (by decide) (by decide) (by decide) .nil))
  have hb : Blanks [' '] := by simp [Blanks]
  exact ⟨[], _, [], rfl, no_blanks, no_blanks,
    .obj (.member no_blanks ha no_blanks no_blanks
      (.arr (.item no_blanks (.obj (.member no_blanks hc hb hb .true no_blanks)) no_blanks)) no_blanks)⟩

/-- One text with an object in an array, sampled to depth 2. -/
example (L : ScanLib) (hL : Finds testEnv L) :
    ∃ s, TextsSampled L (Sampler.new 2) [("{\"a b\":[{\"c\" : true}]}".toList, .obj [("a b".toList, .arr [.obj [(['c'], .bool true)]])])] s ∧
      "\"a b\".c".toList ∈ s.getKeys := by
  have hlead : NamesLead testEnv (.obj [("a b".toList, .arr [.obj [(['c'], .bool true)]])]) ["a b".toList, ['c']] :=
    .member (List.mem_singleton.2 rfl) (by decide)
      (.element (List.mem_singleton.2 rfl) (by simp) (.member (List.mem_singleton.2 rfl) (by decide) (.scalar trivial)))
  obtain ⟨s, hs⟩ := (C125_accepted hL (Sampler.new 2) sample_example).2 (by
    refine ⟨?_, id, .obj ?_ ?_, ?_, ?_⟩
    · rintro c (h | h) <;> cases h <;> decide
    · intro m hm; rw [List.mem_singleton.1 hm]; decide
    · intro m hm
      rw [List.mem_singleton.1 hm]
      refine .arr fun v hv _ => ?_
      rw [List.mem_singleton.1 hv]
      refine .obj ?_ ?_
      · intro m hm; rw [List.mem_singleton.1 hm]; decide
      · intro m hm; rw [List.mem_singleton.1 hm]; exact .scalar trivial
    · rintro - ⟨vs, h, -⟩; cases h
    · intro h; cases h)
  have ht : TextsSampled L (Sampler.new 2) _ s := .cons sample_example hs (.nil _)
  exact ⟨s, ht, ((C125_keys hL ht).1 _).2 ⟨_, List.mem_singleton.2 rfl, _, hlead, by decide, by decide⟩⟩

/-- Names that cannot be decoded, as C125_name_not_decoded has them: here a half of a pair. -/
example : StringBody "\\ud800".toList ∧ testEnv.unescape "\\ud800".toList = none :=
  ⟨.hex (by decide) .nil, by decide⟩

end Aql
