import Verif.Props.Sampler
import Verif.Props.Sampling
import Verif.Props.Readme
import Verif.Model.SampleBytes
/-!
Properties C72–C74: sampled keys as query texts, and the bytes given to the sampler.
-/

namespace Aql

open Spec

variable {E : Env}

/-! ### C72 -/

theorem scalar_leaf {v : Json} (h : IsScalar v) : SJson.ofJson E v = .scalar := by
  cases v <;> first | rfl | exact h.elim

theorem leaf_scalar {x : SJson} {p : List Str} (h : LeafPath x p) :
    ∀ v, x = SJson.ofJson E v → Keyed E v →
      (∀ ms, v = .obj ms → ∃ s, ScalarUnder E v p s) ∧
      (∀ items, v = .arr items → (p = [] ∧ ∃ s ∈ items, IsScalar s) ∨ ∃ o ∈ items, ∃ s, ScalarUnder E o p s) ∧
      (p = [] → IsScalar v ∨ ∃ items, v = .arr items) := by
  induction h with
  | scalar =>
    intro v he _
    refine ⟨?_, ?_, ?_⟩
    · rintro ms rfl; rw [SJson.ofJson] at he; cases he
    · rintro ms rfl; rw [SJson.ofJson] at he; cases he
    · intro _
      cases v <;> first | exact .inl trivial | (rw [SJson.ofJson] at he; cases he)
  | @member sms closed k sv path hm hl ih =>
    intro v he hk
    cases v with
    | obj ms =>
      rw [SJson.ofJson] at he
      cases he
      cases hk with
      | obj hd hall =>
      refine ⟨fun _ _ => ?_, fun _ h => (by cases h), fun h => (by cases h)⟩
      obtain ⟨raw, w, hmem, hu, rfl⟩ := mem_ofMembers hm
      have hf : FirstMember E ms k w := (firstMember_distinct hd k w).2 ⟨raw, hmem, hu⟩
      obtain ⟨i1, i2, i3⟩ := ih w rfl (hall _ hmem)
      cases path with
      | nil =>
        rcases i3 rfl with hs | ⟨items, rfl⟩
        · exact ⟨w, hs, .inl (.last hf)⟩
        · rcases i2 items rfl with ⟨-, s, hs, hsc⟩ | ⟨o, ho, s, -, hr | ⟨_, hr, -⟩⟩
          · exact ⟨s, hsc, .inr ⟨items, .last hf, hs⟩⟩
          · cases hr
          · cases hr
      | cons k' path =>
        cases w with
        | obj ms' =>
          obtain ⟨s, hs, hr⟩ := i1 ms' rfl
          refine ⟨s, hs, ?_⟩
          rcases hr with hr | ⟨items, hr, hm⟩
          · exact .inl (.inObject hf hr)
          · exact .inr ⟨items, .inObject hf hr, hm⟩
        | arr items =>
          rcases i2 items rfl with ⟨h, -⟩ | ⟨o, ho, s, hs, hr⟩
          · cases h
          refine ⟨s, hs, ?_⟩
          rcases hr with hr | ⟨items', hr, hm⟩
          · exact .inl (.inArray hf ho hr)
          · exact .inr ⟨items', .inArray hf ho hr, hm⟩
        | _ => rw [SJson.ofJson] at hl; cases hl
    | _ => rw [SJson.ofJson] at he; cases he
  | @element sitems closed sv path hm ha hl ih =>
    intro v he hk
    cases v with
    | arr items =>
      rw [SJson.ofJson] at he
      cases he
      cases hk with
      | arr hall =>
      refine ⟨fun _ h => (by cases h), ?_, fun _ => .inr ⟨items, rfl⟩⟩
      intro its h
      cases h
      obtain ⟨o, ho, rfl⟩ := mem_ofItems hm
      obtain ⟨i1, i2, i3⟩ := ih o rfl (hall o ho)
      cases o with
      | obj ms' => obtain ⟨s, hs⟩ := i1 ms' rfl; exact .inr ⟨_, ho, s, hs⟩
      | arr items' => rw [SJson.ofJson] at ha; cases ha
      | _ =>
        rw [SJson.ofJson] at hl
        cases hl
        exact .inl ⟨rfl, _, ho, trivial⟩
    | _ => rw [SJson.ofJson] at he; cases he

theorem ofMembers_first {ms : List (Str × Json)} {k : Str} {v : Json} (h : FirstMember E ms k v) :
    (k, SJson.ofJson E v) ∈ (SJson.ofMembers E ms).1 := by
  obtain ⟨pre, raw, post, rfl, hu, hp⟩ := h
  induction pre with
  | nil => rw [List.nil_append, SJson.ofMembers, hu]; simp
  | cons a pre ih =>
    obtain ⟨k', hk', -⟩ := hp a (by simp)
    rw [List.cons_append, SJson.ofMembers, hk']
    exact List.mem_cons_of_mem _ (ih fun q hq => hp q (by simp [hq]))

theorem ofItems_mem {items : List Json} {v : Json} (h : v ∈ items) :
    SJson.ofJson E v ∈ SJson.ofItems E items := by
  induction items with
  | nil => cases h
  | cons w ws ih =>
    rw [SJson.ofItems]
    rcases List.mem_cons.1 h with rfl | h
    · simp
    · exact List.mem_cons_of_mem _ (ih h)

theorem resolves_leaf {d w : Json} {p : List Str} (h : Resolves E d p w)
    (hw : LeafPath (SJson.ofJson E w) []) : LeafPath (SJson.ofJson E d) p := by
  induction h with
  | last hf => rw [SJson.ofJson]; exact .member (ofMembers_first hf) hw
  | inObject hf _ ih => rw [SJson.ofJson]; exact .member (ofMembers_first hf) (ih hw)
  | @inArray ms k items o k' path v hf ho hr ih =>
    rw [SJson.ofJson]
    refine .member (ofMembers_first hf) ?_
    rw [SJson.ofJson]
    refine .element (ofItems_mem ho) ?_ (ih hw)
    cases hr <;> rfl

/-- The sampler's paths to scalars are those of the matcher. -/
theorem leaf_iff {ms : List (Str × Json)} (hk : Keyed E (.obj ms)) (p : List Str) :
    LeafPath (SJson.ofJson E (.obj ms)) p ↔ ∃ s, ScalarUnder E (.obj ms) p s := by
  constructor
  · intro h; exact (leaf_scalar h _ rfl hk).1 ms rfl
  · rintro ⟨s, hs, hr | ⟨items, hr, hm⟩⟩
    · exact resolves_leaf hr (by rw [scalar_leaf hs]; exact .scalar)
    · refine resolves_leaf hr ?_
      rw [SJson.ofJson]
      refine .element (ofItems_mem hm) ?_ ?_ <;> rw [scalar_leaf hs]
      · rfl
      · exact .scalar

/-- The sample for an object document. -/
def sampleOf (E : Env) (ms : List (Str × Json)) : SampleIn :=
  .object (SJson.ofMembers E ms).1 (SJson.ofMembers E ms).2

/-- **C72.** Sampler and matcher agree on what is a value: from object documents with distinct member
names, the sampler reports exactly the paths (up to the depth limit) under which the matcher finds a
scalar in some of the documents. -/
theorem C72_same_scalars {docs : List (List (Str × Json))} (hk : ∀ ms ∈ docs, Keyed E (.obj ms))
    {maxDepth : Int} {s : Sampler} (h : Samples (Sampler.new maxDepth) (docs.map (sampleOf E)) s) (key : Str) :
    key ∈ s.getKeys ↔ ∃ ms ∈ docs, ∃ path x, ScalarUnder E (.obj ms) path x ∧
      (path.length : Int) ≤ maxDepth ∧ dotted path = key := by
  rw [(C44_keys h).1]
  constructor
  · rintro ⟨d, hd, p, hp, hl, rfl⟩
    obtain ⟨ms, hm, rfl⟩ := List.mem_map.1 hd
    have hp' : LeafPath (SJson.ofJson E (.obj ms)) p := by rw [SJson.ofJson]; exact hp
    obtain ⟨x, hx⟩ := (leaf_iff (hk ms hm) p).1 hp'
    exact ⟨ms, hm, p, x, hx, hl, rfl⟩
  · rintro ⟨ms, hm, p, x, hx, hl, rfl⟩
    refine ⟨_, List.mem_map.2 ⟨ms, hm, rfl⟩, p, ?_, hl, rfl⟩
    have := (leaf_iff (hk ms hm) p).2 ⟨x, hx⟩
    rwa [SJson.ofJson] at this

/-- **C72.** Hence a comparison with a value that matches a sampled document is on a reported path. -/
theorem C72_matching_paths_reported {docs : List (List (Str × Json))} (hk : ∀ ms ∈ docs, Keyed E (.obj ms))
    {maxDepth : Int} {s : Sampler} (h : Samples (Sampler.new maxDepth) (docs.map (sampleOf E)) s)
    {op : Op} {f : List Str} {vs : List Val} {pos : Pos} {m : Matcher} (hop : op ≠ .EXS ∧ op ≠ .NUL)
    (hR : Ready E (.expr op f vs pos) m) (hf : f ≠ []) (hl : (f.length : Int) ≤ maxDepth)
    {ms : List (Str × Json)} (hm : ms ∈ docs) (ha : Accepts E m (.obj ms)) : dotted f ∈ s.getKeys := by
  rw [C72_same_scalars hk h]
  obtain ⟨k, rest, rfl⟩ := List.exists_cons_of_ne_nil hf
  rw [hR.accepts (show Plain _ _ from ⟨k, rest, rfl, by simp⟩)] at ha
  have : ∃ x, ScalarUnder E (.obj ms) (k :: rest) x := by
    cases op with
    | EXS => exact absurd rfl hop.1
    | NUL => exact absurd rfl hop.2
    | EQ | SIM | LT | LTE | GT | GTE => obtain ⟨v, -, x, hx, -⟩ := ha; exact ⟨x, hx⟩
    | BET => obtain ⟨a, b, -, x, hx, -⟩ := ha; exact ⟨x, hx⟩
  obtain ⟨x, hx⟩ := this
  exact ⟨ms, hm, _, x, hx, hl, rfl⟩

example : Samples (Sampler.new 3) ([[("a".toList, .arr [.obj [("b".toList, .null)]])]].map (sampleOf testEnv))
    ⟨3, some [("a.b".toList, 1)], 1⟩ := .cons (by decide +kernel) (.nil _)

/-! ### C73 -/

/-- A member name that the sampler writes as the grammar reads it: a bare name, or one with a space and
without characters that need escapes. -/
def PlainKey (E : Env) (k : Str) : Prop :=
  (k ≠ [] ∧ ∀ c ∈ k, FieldChar E c) ∨
  (' ' ∈ k ∧ ∀ c ∈ k, c ≠ '"' ∧ c ≠ '\\' ∧ 32 ≤ c.toNat)

theorem strBody_plain {x : Str} (h : ∀ c ∈ x, c ≠ '"' ∧ c ≠ '\\' ∧ 32 ≤ c.toNat) : StrBody x x := by
  induction x with
  | nil => exact .nil
  | cons c x ih =>
    obtain ⟨h1, h2, h3⟩ := h c (by simp)
    exact .plain h1 h2 h3 (ih fun d hd => h d (by simp [hd]))

theorem plainKey_piece {k : Str} (h : PlainKey E k) : Piece E (segment k) k := by
  unfold segment
  rcases h with ⟨h1, h2⟩ | ⟨h1, h2⟩
  · rw [if_neg (fun hm => not_nameChar (E := E) (c := ' ') (by simp) (h2 _ hm))]
    exact .bare h1 h2
  · rw [if_pos h1]
    exact .quoted (strBody_plain h2)

theorem plainKey_star {k : Str} (h : PlainKey E k) : k ≠ ['*'] := by
  rintro rfl
  rcases h with ⟨-, h⟩ | ⟨h, -⟩
  · exact not_nameChar (E := E) (c := '*') (by simp) (h _ (by simp))
  · revert h; decide

theorem dotted_path {p : List Str} (hp : p ≠ []) (h : ∀ k ∈ p, PlainKey E k) : Path E (dotted p) p := by
  induction p with
  | nil => exact absurd rfl hp
  | cons k p ih =>
    cases p with
    | nil =>
      have := plainKey_piece (h k (by simp))
      simpa [dotted, List.intercalate] using Path.one this
    | cons k' p =>
      have := Path.cons (plainKey_piece (h k (by simp))) (ih (by simp) fun x hx => h x (by simp [hx]))
      simpa [dotted, List.intercalate] using this

theorem exists_laid {p : List Str} (hp : p ≠ []) (h : ∀ k ∈ p, PlainKey E k) :
    LaidOut E (.noArgs (dotted p) p "exists".toList .EXS) (dotted p ++ ":exists".toList) := by
  have hw : Ws [] := by decide
  refine ⟨[], _, [], hw, hw, .andOr (.notAnd (.cmpNot (.noArgs (w1 := []) (w2 := []) (dotted_path hp h) .exists_
    hw hw))), ?_⟩
  simp

/-- **C73, partial.** A key that the sampler reports can be typed into a query: the text of the key
followed by `:exists` gets a matcher, and that matcher matches one of the sampled documents. Missing from
the full statement: documents with names that are neither bare names nor have a space, or that contain
quotes, backslashes or control characters; for these it is false (`C73_key_text_refuted`). -/
theorem C73_key_text_partial {docs : List (List (Str × Json))} (hk : ∀ ms ∈ docs, Keyed E (.obj ms))
    {maxDepth : Int} {s : Sampler} (h : Samples (Sampler.new maxDepth) (docs.map (sampleOf E)) s)
    (hn : ∀ ms ∈ docs, ∀ path x, ScalarUnder E (.obj ms) path x → ∀ k ∈ path, PlainKey E k)
    {key : Str} (hm : key ∈ s.getKeys) :
    ∃ m msgs, newMatcher E (utf8 (key ++ ":exists".toList)) = some (.ok (.ok (m, msgs))) ∧
      ∃ ms ∈ docs, Accepts E m (.obj ms) := by
  obtain ⟨ms, hd, p, x, hx, -, rfl⟩ := (C72_same_scalars hk h key).1 hm
  have hp := hn ms hd p x hx
  have hr : ∃ v, Resolves E (.obj ms) p v := by
    obtain ⟨-, hr | ⟨items, hr, -⟩⟩ := hx
    · exact ⟨_, hr⟩
    · exact ⟨_, hr⟩
  have hne : p ≠ [] := by rintro rfl; obtain ⟨v, hv⟩ := hr; cases hv
  have hl := exists_laid hne hp
  have hstar : withoutStars p = p :=
    List.filter_eq_self.2 fun k hk => by simpa using plainKey_star (hp k hk)
  obtain ⟨m, msgs, hM⟩ := matcher_of_text hl
    ⟨by simp [ArityOk], by simp, by simp, by simp, by simp⟩
    (by simp [Cst.tree, comparisons, msgRun, messageVisitorFn, exprMessages])
  refine ⟨m, msgs, hM, ms, hd, ?_⟩
  obtain ⟨k, rest, rfl⟩ := List.exists_cons_of_ne_nil hne
  obtain ⟨r, hr1, hr2⟩ := answer_of_text hl hM (d := .obj ms)
    (show Plain _ (withoutStars _) by rw [hstar]; exact ⟨k, rest, rfl, by simp⟩)
  unfold Accepts
  rw [hr1]
  have : r = true := hr2.2 (by simp only [Cst.tree, Sat, hstar]; exact hr)
  rw [this]

/-! Which keys can be typed, exactly. -/

/-- Characters that the sampler writes for a name. -/
def keyCost (k : Str) : Nat := k.length + if ' ' ∈ k then 2 else 0

theorem segment_length (k : Str) : (segment k).length = keyCost k := by
  unfold segment keyCost
  split <;> simp

theorem dotted_length {p : List Str} (h : p ≠ []) :
    (dotted p).length + 1 = (p.map keyCost).sum + p.length := by
  induction p with
  | nil => exact absurd rfl h
  | cons k p ih =>
    cases p with
    | nil => simp [dotted, List.intercalate, segment_length]
    | cons k' p =>
      have := ih (by simp)
      have e : dotted (k :: k' :: p) = segment k ++ '.' :: dotted (k' :: p) := by
        simp [dotted, List.intercalate]
      rw [e, List.length_append, List.length_cons, segment_length]
      simp only [List.map_cons, List.sum_cons, List.length_cons] at this ⊢
      omega

theorem strBody_length {s x : Str} (h : StrBody s x) :
    x.length ≤ s.length ∧ (s.length = x.length → ∀ c ∈ x, c ≠ '"' ∧ c ≠ '\\' ∧ 32 ≤ c.toNat) := by
  induction h with
  | nil => simp
  | plain h1 h2 h3 _ ih =>
    refine ⟨by simpa using ih.1, fun hl c hc => ?_⟩
    rcases List.mem_cons.1 hc with rfl | hc
    · exact ⟨h1, h2, h3⟩
    · exact ih.2 (by simpa using hl) c hc
  | escape _ _ ih =>
    have := ih.1
    simp only [List.length_cons]
    exact ⟨by omega, fun h => by omega⟩
  | unicode _ _ _ _ _ _ _ ih =>
    have := ih.1
    simp only [List.length_cons]
    exact ⟨by omega, fun h => by omega⟩

theorem piece_cost {t x : Str} (h : Piece E t x) :
    keyCost x ≤ t.length ∧ (t.length = keyCost x → x = ['*'] ∨ PlainKey E x) := by
  cases h with
  | quoted h =>
    obtain ⟨h1, h2⟩ := strBody_length h
    unfold keyCost
    simp only [List.length_cons, List.length_append, List.length_nil]
    by_cases hs : ' ' ∈ x
    · rw [if_pos hs]
      exact ⟨by omega, fun hl => .inr (.inr ⟨hs, h2 (by omega)⟩)⟩
    · rw [if_neg hs]
      exact ⟨by omega, fun hl => by omega⟩
  | bare h1 h2 =>
    have hs : ' ' ∉ t := fun hm => not_nameChar (E := E) (c := ' ') (by simp) (h2 _ hm)
    unfold keyCost
    rw [if_neg hs]
    exact ⟨by omega, fun _ => .inr (.inl ⟨h1, h2⟩)⟩
  | star => exact ⟨by decide, fun _ => .inl rfl⟩

theorem path_cost {t : Str} {xs : List Str} (h : Path E t xs) :
    ((withoutStars xs).map keyCost).sum + (withoutStars xs).length ≤ t.length + 1 ∧
    (t.length + 1 = ((withoutStars xs).map keyCost).sum + (withoutStars xs).length →
      ∀ k ∈ withoutStars xs, PlainKey E k) := by
  induction h with
  | @one t x h =>
    obtain ⟨h1, h2⟩ := piece_cost h
    by_cases hx : x = ['*']
    · subst hx
      simp [withoutStars]
    · have : withoutStars [x] = [x] := by simp [withoutStars, hx]
      rw [this]
      simp only [List.map_cons, List.map_nil, List.sum_cons, List.sum_nil, List.length_cons,
        List.length_nil, List.mem_singleton, forall_eq]
      exact ⟨by omega, fun hl => (h2 (by omega)).resolve_left hx⟩
  | @cons t x s xs h _ ih =>
    obtain ⟨h1, h2⟩ := piece_cost h
    obtain ⟨i1, i2⟩ := ih
    by_cases hx : x = ['*']
    · have : withoutStars (x :: xs) = withoutStars xs := by simp [withoutStars, hx]
      rw [this, List.length_append, List.length_cons]
      refine ⟨by omega, fun hl => ?_⟩
      subst hx
      have : keyCost ['*'] = 1 := by decide
      omega
    · have : withoutStars (x :: xs) = x :: withoutStars xs := by simp [withoutStars, hx]
      rw [this, List.length_append, List.length_cons]
      simp only [List.map_cons, List.sum_cons, List.length_cons]
      refine ⟨by omega, fun hl k hk => ?_⟩
      rcases List.mem_cons.1 hk with rfl | hk
      · exact (h2 (by omega)).resolve_left hx
      · exact i2 (by omega) k hk

/-- **C73 (exact).** The text of a key followed by `:exists` is a query for the path it was sampled at if
and only if every name on the path is a bare name, or has a space and no quote, backslash or control
character. -/
theorem C73_key_text_exact {p : List Str} (hp : p ≠ []) :
    (∃ pos, Query E (dotted p ++ ":exists".toList) (.expr .EXS p [] pos)) ↔ ∀ k ∈ p, PlainKey E k := by
  constructor
  · rintro ⟨pos, w1, q, w2, hw1, hw2, ht, he⟩
    have hlast : ∀ {a b : Str} {c : Char}, dotted p ++ ":exists".toList = a ++ (b ++ [c]) → c = 's' := by
      intro a b c h
      have : (dotted p ++ ":exists".toList).getLast? = some c := by rw [h]; simp
      rw [show ":exists".toList = ":exist".toList ++ ['s'] from rfl, ← List.append_assoc,
        List.getLast?_concat] at this
      exact (Option.some.inj this).symm
    have hw2' : w2 = [] := by
      rcases List.eq_nil_or_concat w2 with h | ⟨a, c, rfl⟩
      · exact h
      · have := hlast (a := w1 ++ q) (b := a) (c := c) (by rw [he]; simp)
        subst this
        exact absurd (hw2 's' (by simp)) (by decide)
    subst hw2'
    rw [List.append_nil] at he
    cases ht with
    | orAnd ht =>
    cases ht with
    | andNot ht =>
    cases ht with
    | notCmp ht =>
    cases ht with
    | @group _ v1 s v2 _ _ _ _ =>
      have := hlast (a := w1) (b := '(' :: (v1 ++ (s ++ v2))) (c := ')') (by rw [he]; simp)
      exact absurd this (by decide)
    | @noArgs _ pt xs v1 v2 o _ _ hpath _ _ ho he' =>
      cases ho
      subst he'
      have hl := congrArg List.length he
      simp only [List.length_append, List.length_cons] at hl
      have h7 : ":exists".toList.length = 7 := by decide
      have h6 : "exists".toList.length = 6 := by decide
      have hd := dotted_length hp
      obtain ⟨c1, c2⟩ := path_cost hpath
      exact c2 (by omega)
    | compare _ _ _ ho => cases ho
  · intro h
    have hstar : withoutStars p = p :=
      List.filter_eq_self.2 fun k hk => by simpa using plainKey_star (h k hk)
    have hw : Ws [] := by decide
    have ht : Text E .cmp [] (dotted p ++ ":exists".toList) (.expr .EXS (withoutStars p) []
        (posAt [] (dotted p ++ ":exists".toList))) :=
      .noArgs (w1 := []) (w2 := []) (o := "exists".toList) (dotted_path hp h) hw hw .exists_ (by simp)
    rw [hstar] at ht
    exact ⟨_, [], _, [], hw, hw, .orAnd (.andNot (.notCmp ht)), by simp⟩

-- a name with a space and a quote
example : ¬ ∃ pos, Query testEnv (dotted ["a \"b".toList] ++ ":exists".toList)
    (.expr .EXS ["a \"b".toList] [] pos) := by
  rw [C73_key_text_exact (by decide)]
  intro h
  rcases h _ (List.mem_singleton.2 rfl) with ⟨-, h⟩ | ⟨-, h⟩
  · exact not_nameChar (E := testEnv) (c := ' ') (by simp) (h ' ' (by decide))
  · exact (h '"' (by decide)).1 rfl

/-- What becomes of the first key reported for a document with one member, typed into a query. -/
def typedBack (name : String) : Option (Option Bool) :=
  match (Sampler.new 3).sample (sampleOf testEnv [(name.toList, .null)]) with
  | .ok (s, false) =>
    s.getKeys.head?.map fun k => answerOf testEnv (k ++ ":exists".toList) (.obj [(name.toList, .null)])
  | _ => none

/-- **C73, refuted.** A dot in a name makes the query look elsewhere; a colon or an empty name gives no
query; the name `*` gives a query that panics. -/
theorem C73_key_text_refuted : typedBack "a.b" = some (some false) ∧ typedBack "a:b" = some none ∧
    typedBack "" = some none ∧ typedBack "*" = some none := by
  decide +kernel

example : typedBack "a b" = some (some true) ∧ typedBack "a-1" = some (some true) := by decide +kernel

/-! ### C74 -/

/-- JSON white space. -/
def IsSpaceByte (b : UInt8) : Prop := b = 32 ∨ b = 9 ∨ b = 10 ∨ b = 13

/-- What is wrong with bytes that are not in matching brackets. -/
def Complaint (b : List UInt8) (t : Str) : Prop :=
  (b.head? = some 123 ∧ b.getLast? ≠ some 125 ∧ t = "unterminated JSON object: ".toList) ∨
  (b.head? = some 91 ∧ b.getLast? ≠ some 93 ∧ t = "unterminated JSON array: ".toList) ∨
  (b.head? ≠ some 123 ∧ b.head? ≠ some 91 ∧ t = "sample is not an object or array: ".toList)

/-- **C74.** `Sample` looks at the content only if the bytes begin and end with the same kind of bracket;
otherwise it reports an error and changes nothing. The error says what is wrong and quotes at most the
first 100 bytes. -/
theorem C74_first_last (L : ScanLib) (s : Sampler) (b : List UInt8) (hb : b ≠ []) :
    ((b.head? = some 123 ∧ b.getLast? = some 125) ∨ (b.head? = some 91 ∧ b.getLast? = some 93)) ∨
    ∃ t q r, s.sampleBytes L b = .ok (s, some (.text t q)) ∧ Complaint b t ∧ b = q ++ r ∧ q.length ≤ 100 ∧
      (r ≠ [] → q.length = 100) := by
  obtain ⟨c, rest, rfl⟩ := List.exists_cons_of_ne_nil hb
  have hex : ∃ r, c :: rest = excerpt (c :: rest) ++ r ∧ (excerpt (c :: rest)).length ≤ 100 ∧
      (r ≠ [] → (excerpt (c :: rest)).length = 100) := by
    refine ⟨(c :: rest).drop (if (c :: rest).length > 100 then 100 else (c :: rest).length), ?_, ?_, ?_⟩
    · rw [excerpt, List.take_append_drop]
    · rw [excerpt, List.length_take]; split <;> omega
    · rw [excerpt, List.length_take]
      split
      · intro _; omega
      · intro h; exact absurd (List.drop_of_length_le (Nat.le_refl _)) h
  obtain ⟨r, h1, h2, h3⟩ := hex
  unfold Complaint
  rw [List.getLast?_eq_getElem?]
  unfold Sampler.sampleBytes sampleKind
  simp only [List.getElem?_cons_zero, List.head?_cons, Option.some.injEq]
  by_cases c1 : c = 123
  · subst c1
    by_cases l1 : (123 :: rest)[(123 :: rest).length - 1]? = some 125
    · exact .inl (.inl ⟨rfl, l1⟩)
    · right
      rw [if_pos rfl, if_pos l1]
      exact ⟨_, _, r, rfl, .inl ⟨rfl, l1, rfl⟩, h1, h2, h3⟩
  · rw [if_neg c1]
    by_cases c2 : c = 91
    · subst c2
      by_cases l1 : (91 :: rest)[(91 :: rest).length - 1]? = some 93
      · exact .inl (.inr ⟨rfl, l1⟩)
      · right
        rw [if_pos rfl, if_pos l1]
        exact ⟨_, _, r, rfl, .inr (.inl ⟨rfl, l1, rfl⟩), h1, h2, h3⟩
    · rw [if_neg c2]
      right
      exact ⟨_, _, r, rfl, .inr (.inr ⟨by simpa using c1, by simpa using c2, rfl⟩), h1, h2, h3⟩

/-- **C74, refuted.** White space around a document, which JSON allows, makes `Sample` reject it. -/
theorem C74_white_space_refuted (L : ScanLib) (s : Sampler) (w1 w2 body : List UInt8)
    (h1 : ∀ b ∈ w1, IsSpaceByte b) (h2 : ∀ b ∈ w2, IsSpaceByte b) (h : w1 ≠ [] ∨ w2 ≠ []) :
    ∃ e, s.sampleBytes L (w1 ++ (123 :: (body ++ [125])) ++ w2) = .ok (s, some e) := by
  have ne : ∀ b, IsSpaceByte b → b ≠ 123 ∧ b ≠ 125 ∧ b ≠ 91 ∧ b ≠ 93 := by
    rintro b (rfl | rfl | rfl | rfl) <;> decide
  rcases C74_first_last L s (w1 ++ (123 :: (body ++ [125])) ++ w2) (by simp) with hc | ⟨t, q, r, hq, -⟩
  · exfalso
    cases w1 with
    | cons c w1 =>
      obtain ⟨a, -, b, -⟩ := ne c (h1 c (by simp))
      simp only [List.cons_append, List.head?_cons, Option.some.injEq] at hc
      tauto
    | nil =>
      have hw : w2 ≠ [] := by tauto
      have hl : (([] : List UInt8) ++ (123 :: (body ++ [125])) ++ w2).getLast? = some (w2.getLast hw) := by
        rw [List.getLast?_append_of_ne_nil _ hw, List.getLast?_eq_some_getLast hw]
      obtain ⟨-, a, -, b⟩ := ne _ (h2 _ (List.getLast_mem hw))
      rw [hl] at hc
      simp only [Option.some.injEq] at hc
      tauto
  · exact ⟨_, hq⟩

/-- **C74.** Bytes in brackets are judged by their content alone: the outcome is that of the document
the library reads in them. -/
theorem C74_bracketed_partial (L : ScanLib) (s : Sampler) (b : List UInt8) (d : SampleIn)
    (hd : (b.head? = some 123 ∧ b.getLast? = some 125 ∧ d = .object (L.members b).1 (L.members b).2) ∨
      (b.head? = some 91 ∧ b.getLast? = some 93 ∧ d = .array (L.items b).1 (L.items b).2)) :
    (∀ p, s.sampleBytes L b = .error p ↔ s.sample d = .error p) ∧
    (∀ s', s.sampleBytes L b = .ok (s', none) ↔ s.sample d = .ok (s', false)) ∧
    (∀ s', (∃ e, s.sampleBytes L b = .ok (s', some e)) ↔ s.sample d = .ok (s', true)) := by
  have : sampleKind L b = .ok (.ok d) := by
    rcases hd with ⟨h1, h2, rfl⟩ | ⟨h1, h2, rfl⟩
    · rw [List.getLast?_eq_getElem?] at h2
      rw [List.head?_eq_getElem?] at h1
      unfold sampleKind
      rw [h1]
      dsimp only
      rw [if_pos rfl, if_neg (not_not.2 h2)]
    · rw [List.getLast?_eq_getElem?] at h2
      rw [List.head?_eq_getElem?] at h1
      unfold sampleKind
      rw [h1]
      dsimp only
      rw [if_neg (by decide), if_pos rfl, if_neg (not_not.2 h2)]
  unfold Sampler.sampleBytes
  rw [this]
  rcases hs : s.sample d with p | ⟨s1, _ | _⟩ <;> simp [hs]

/-- What the library reads in bytes in brackets. -/
def contentOf (L : ScanLib) (b : List UInt8) : SampleIn :=
  if b.head? = some 123 then .object (L.members b).1 (L.members b).2 else .array (L.items b).1 (L.items b).2

/-- **C74, exactly.** A JSON object or array, with white space around it as JSON allows, is accepted if and only if there
is no white space around it and the library reads it to the end, no scalar in reach stands directly in the array, and,
for a sampler that has lost its map, no scalar is in reach at all (as in C46). -/
theorem C74_accepted_exact (L : ScanLib) (s : Sampler) (w1 w2 body : List UInt8) (o c : UInt8)
    (h1 : ∀ b ∈ w1, IsSpaceByte b) (h2 : ∀ b ∈ w2, IsSpaceByte b) (ho : (o = 123 ∧ c = 125) ∨ (o = 91 ∧ c = 93)) :
    (∃ s', s.sampleBytes L (w1 ++ (o :: (body ++ [c])) ++ w2) = .ok (s', none)) ↔
      w1 = [] ∧ w2 = [] ∧ Complete s.maxDepth (contentOf L (o :: (body ++ [c]))) ∧
        (0 ≤ s.maxDepth → ¬ DocLeaf (contentOf L (o :: (body ++ [c]))) []) ∧
        (s.keys = none → ∀ p, DocLeaf (contentOf L (o :: (body ++ [c]))) p → s.maxDepth < p.length) := by
  rw [← C46_success_exact]
  have ne : ∀ b, IsSpaceByte b → b ≠ 123 ∧ b ≠ 125 ∧ b ≠ 91 ∧ b ≠ 93 := by
    rintro b (rfl | rfl | rfl | rfl) <;> decide
  have inner : ∀ s', s.sampleBytes L (o :: (body ++ [c])) = .ok (s', none) ↔
      s.sample (contentOf L (o :: (body ++ [c]))) = .ok (s', false) := by
    refine fun s' => (C74_bracketed_partial L s _ _ ?_).2.1 s'
    have hl : (o :: (body ++ [c])).getLast? = some c := by
      rw [← List.cons_append, List.getLast?_append]; simp
    rcases ho with ⟨rfl, rfl⟩ | ⟨rfl, rfl⟩
    · exact .inl ⟨rfl, hl, rfl⟩
    · exact .inr ⟨rfl, hl, rfl⟩
  constructor
  · rintro ⟨s', hs⟩
    rcases C74_first_last L s (w1 ++ (o :: (body ++ [c])) ++ w2) (by simp) with hc | ⟨t, q, r, hq, -⟩
    · have e1 : w1 = [] := by
        cases w1 with
        | nil => rfl
        | cons d w1 =>
          obtain ⟨a, -, b, -⟩ := ne d (h1 d (by simp))
          simp only [List.cons_append, List.head?_cons, Option.some.injEq] at hc
          tauto
      have e2 : w2 = [] := by
        by_contra hw
        have hl : (w1 ++ (o :: (body ++ [c])) ++ w2).getLast? = some (w2.getLast hw) := by
          rw [List.getLast?_append_of_ne_nil _ hw, List.getLast?_eq_some_getLast hw]
        obtain ⟨-, a, -, b⟩ := ne _ (h2 _ (List.getLast_mem hw))
        rw [hl] at hc
        simp only [Option.some.injEq] at hc
        tauto
      subst e1 e2
      rw [List.append_nil, List.nil_append] at hs
      exact ⟨rfl, rfl, s', (inner s').1 hs⟩
    · rw [hq] at hs
      cases hs
  · rintro ⟨rfl, rfl, s', hs⟩
    rw [List.append_nil, List.nil_append]
    exact ⟨s', (inner s').2 hs⟩

-- `{}` is accepted, `{}` on a line of its own is not
example (L : ScanLib) (hL : L.members [123, 125] = ([], true)) :
    (∃ s', (Sampler.new 3).sampleBytes L ([] ++ (123 :: ([] ++ [125])) ++ []) = .ok (s', none)) ∧
    ¬ ∃ s', (Sampler.new 3).sampleBytes L ([] ++ (123 :: ([] ++ [125])) ++ [10]) = .ok (s', none) := by
  have sp : ∀ b ∈ [(10 : UInt8)], IsSpaceByte b := by simp [IsSpaceByte]
  constructor
  · rw [C74_accepted_exact L _ [] [] [] 123 125 (by simp) (by simp) (.inl ⟨rfl, rfl⟩)]
    rw [← C46_success_exact]
    refine ⟨rfl, rfl, ?_⟩
    simp only [contentOf, List.nil_append, List.head?_cons, if_true, hL]
    exact ⟨_, rfl⟩
  · rw [C74_accepted_exact L _ [] [10] [] 123 125 (by simp) sp (.inl ⟨rfl, rfl⟩)]
    simp

example (L : ScanLib) : (Sampler.new 3).sampleBytes L [123, 125, 10] =
    .ok (Sampler.new 3, some (.text "unterminated JSON object: ".toList [123, 125, 10])) := by
  rfl

end Aql
