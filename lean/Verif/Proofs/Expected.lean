import Verif.Proofs.ErrorClause
import Verif.Proofs.Furthest
import Verif.Proofs.LexBare
import Verif.Proofs.Shapes
import Mathlib.Data.List.Dedup
/-!
What the parser tests at a place, and the list of expectations in the message of a failure: every item
is a test that failed at the furthest place where one failed.
-/

namespace Aql

open Spec

variable {E : Env}

/-! ### Texts of terminals -/

/-- The text of a terminal says what it reads. -/
def litReads (val : Str) (ic : Bool) (w : Str) : Bool :=
  match readWant w with
  | some (.lit t ic') => ic' == ic && if ic then t.all (·.toNat < 128) && t.map asciiLower == val else t == val
  | _ => false

def clsReads (chars : List Char) (ranges : List (Char × Char)) (ic inv : Bool) (w : Str) : Bool :=
  readWant w == some (.cls chars ranges ic inv)

mutual
/-- Every terminal of the expression is described by its text. -/
def toldE : PExpr → Bool
  | .action _ e => toldE e
  | .seq es => toldL es
  | .choice es => toldL es
  | .label _ e => toldE e
  | .rule _ => true
  | .lit v ic w => litReads v ic w
  | .cls cs rs ic inv w => clsReads cs rs ic inv w
  | .any => true
  | .not e => toldE e
  | .star e => toldE e
  | .plus e => toldE e
  | .opt e => toldE e
  | .recover _ e h => toldE e && toldE h
  | .throw _ => true
  | .state _ => true
def toldL : List PExpr → Bool
  | [] => true
  | e :: es => toldE e && toldL es
end

theorem told_grammar (r : Rule) : toldE (grammar r) = true := by
  cases r <;> decide +kernel

def Job.told : Job → Bool
  | .expr e _ => toldE e
  | .seq _ es _ _ => toldL es
  | .choice _ es => toldL es
  | .rep _ e _ _ => toldE e
  | .throw _ _ rs => rs.all fun x => toldE x.2

/-- A mark is at a place of the text, and says whether the text there begins with the terminal. -/
def Ev.Tests (E : Env) (pre s : Str) : Ev → Prop
  | .mark f _ p w => ∃ q post T, s = q ++ post ∧ p = locAt (pre ++ q) post ∧ readWant w = some T ∧
      (f = true ↔ T.Begins E post)
  | _ => True

theorem tests_here {f i : Bool} {pre s w : Str} {T : Terminal} (h : readWant w = some T) (hf : f = true ↔ T.Begins E s) :
    Ev.Tests E pre s (.mark f i (cur pre s).loc w) :=
  ⟨[], s, T, rfl, by simp [cur], h, hf⟩

theorem tests_tick {pre s : Str} {l : List Ev} (h : ∀ ev ∈ l, ev.Tests E pre s) :
    ∀ ev ∈ Ev.tick :: l, ev.Tests E pre s := by
  intro ev hev
  rcases List.mem_cons.1 hev with rfl | hev
  · trivial
  · exact h ev hev

theorem tests_append {pre s : Str} {l l' : List Ev} (h : ∀ ev ∈ l, ev.Tests E pre s)
    (h' : ∀ ev ∈ l', ev.Tests E pre s) : ∀ ev ∈ l ++ l', ev.Tests E pre s := by
  intro ev hev
  rcases List.mem_append.1 hev with hev | hev
  · exact h ev hev
  · exact h' ev hev

theorem tests_err {pre s : Str} {p : Loc} {e : RecErr} : ∀ ev ∈ [Ev.err p e], ev.Tests E pre s := by
  intro ev hev
  rw [List.mem_singleton.1 hev]
  trivial

theorem tests_after {pre a b : Str} {l : List Ev} (h : ∀ ev ∈ l, ev.Tests E (pre ++ a) b) :
    ∀ ev ∈ l, ev.Tests E pre (a ++ b) := by
  intro ev hev
  have := h ev hev
  cases ev with
  | tick => trivial
  | err _ _ => trivial
  | mark f i p w =>
    obtain ⟨q, post, T, rfl, hp, hw⟩ := this
    exact ⟨a ++ q, post, T, by simp, by rw [hp, List.append_assoc], hw⟩

theorem lower_told {t val : Str} (ha : t.all (·.toNat < 128) = true) (h : t.map asciiLower = val) :
    t.map (goLower E) = val := by
  rw [← h]
  refine List.map_congr_left fun c hc => goLower_ascii ?_
  simpa using List.all_eq_true.1 ha c hc

theorem lit_begins {val w s : Str} {ic : Bool} (h : litReads val ic w = true) : ∃ T, readWant w = some T ∧
    (T.Begins E s ↔ ∃ a b, s = a ++ b ∧ a.map (fun x => if ic then goLower E x else x) = val) := by
  unfold litReads at h
  split at h
  · rename_i t ic' hw
    rw [Bool.and_eq_true] at h
    obtain ⟨h1, h2⟩ := h
    rw [beq_iff_eq] at h1
    subst h1
    refine ⟨_, hw, ?_⟩
    unfold Terminal.Begins
    cases ic'
    · rw [if_neg (by simp), beq_iff_eq] at h2
      subst h2
      simp
    · rw [if_pos rfl, Bool.and_eq_true, beq_iff_eq] at h2
      simp only [if_true]
      rw [lower_told h2.1 h2.2]
  · cases h

theorem cls_begins {cs : List Char} {rs : List (Char × Char)} {ic inv : Bool} {s : Str} :
    Terminal.Begins E (.cls cs rs ic inv) s ↔ ∃ c b, s = c :: b ∧ clsMatch E cs rs ic inv c = true := by
  unfold Terminal.Begins
  refine exists_congr fun c => exists_congr fun b => and_congr_right fun _ => ?_
  unfold clsMatch
  cases inv <;> simp

/-- Every test of a run says what is in the text. -/
theorem Big.tests {ctx : Ctx} {j : Job} {c : Cursor} {l : List Ev} {r : Res} (h : Big E ctx j c l r) :
    ∀ {pre s}, c = cur pre s → j.told = true → (ctx.recov.all fun x => toldE x.2) = true →
      ∀ ev ∈ l, ev.Tests E pre s := by
  induction h with
  | action_ok h ha ih => intro pre s e hj hc; exact tests_tick (ih e hj hc)
  | action_err h ha ih => intro pre s e hj hc; exact tests_tick (tests_append (ih e hj hc) tests_err)
  | action_panic h ha ih => intro pre s e hj hc; exact tests_tick (ih e hj hc)
  | action_stop h hs ih => intro pre s e hj hc; exact tests_tick (ih e hj hc)
  | seq h ih => intro pre s e hj hc; exact tests_tick (ih e hj hc)
  | seq_nil => intro _ _ _ _ _; simp
  | seq_cons h1 h2 ih1 ih2 =>
    intro pre s e hj hc
    rw [Job.told, toldL, Bool.and_eq_true] at hj
    obtain ⟨t, ht⟩ := h1.ok_adv
    subst e
    obtain ⟨a, b, rfl, rfl⟩ := adv_cur ht
    exact tests_append (ih1 rfl hj.1 hc) (tests_after (ih2 rfl hj.2 hc))
  | seq_fail h ih =>
    intro pre s e hj hc
    rw [Job.told, toldL, Bool.and_eq_true] at hj
    exact ih e hj.1 hc
  | seq_panic h ih =>
    intro pre s e hj hc
    rw [Job.told, toldL, Bool.and_eq_true] at hj
    exact ih e hj.1 hc
  | choice h ih => intro pre s e hj hc; exact tests_tick (ih e hj hc)
  | choice_nil => intro _ _ _ _ _; simp
  | choice_ok h ih =>
    intro pre s e hj hc
    rw [Job.told, toldL, Bool.and_eq_true] at hj
    exact ih e hj.1 hc
  | choice_next h1 h2 ih1 ih2 =>
    intro pre s e hj hc
    rw [Job.told, toldL, Bool.and_eq_true] at hj
    have hb := h1.fail_back
    subst hb
    exact tests_append (ih1 e hj.1 hc) (ih2 e hj.2 hc)
  | choice_panic h ih =>
    intro pre s e hj hc
    rw [Job.told, toldL, Bool.and_eq_true] at hj
    exact ih e hj.1 hc
  | label_ok h ih => intro pre s e hj hc; exact tests_tick (ih e hj hc)
  | label_stop h hs ih => intro pre s e hj hc; exact tests_tick (ih e hj hc)
  | rule_ok h ih => intro pre s e hj hc; exact tests_tick (ih e (told_grammar _) hc)
  | rule_stop h hs ih => intro pre s e hj hc; exact tests_tick (ih e (told_grammar _) hc)
  | @lit_ok _ val ic w _ c l c' h =>
    intro pre s e hj _
    subst e
    obtain ⟨T, hw, hT⟩ := lit_begins (E := E) (s := s) hj
    by_cases hm : ∃ a b, s = a ++ b ∧ a.map (fun x => if ic then goLower E x else x) = val
    · obtain ⟨a, b, hs, ha⟩ := hm
      have := (litLoop_cur (E := E) ic val pre s).1 a b hs ha
      rw [this] at h
      cases h
      refine tests_tick ?_
      intro ev hev
      rw [List.nil_append, List.mem_singleton] at hev
      subst hev
      exact tests_here hw ⟨fun _ => hT.2 ⟨a, b, hs, ha⟩, fun _ => rfl⟩
    · have := (litLoop_cur (E := E) ic val pre s).2 (fun a b h1 h2 => hm ⟨a, b, h1, h2⟩)
      rw [this] at h
      cases h
  | @lit_fail _ val ic w _ c l h =>
    intro pre s e hj _
    subst e
    obtain ⟨T, hw, hT⟩ := lit_begins (E := E) (s := s) hj
    by_cases hm : ∃ a b, s = a ++ b ∧ a.map (fun x => if ic then goLower E x else x) = val
    · obtain ⟨a, b, hs, ha⟩ := hm
      have := (litLoop_cur (E := E) ic val pre s).1 a b hs ha
      rw [this] at h
      cases h
    · have := (litLoop_cur (E := E) ic val pre s).2 (fun a b h1 h2 => hm ⟨a, b, h1, h2⟩)
      rw [this] at h
      cases h
      refine tests_tick ?_
      intro ev hev
      rw [List.nil_append, List.mem_singleton] at hev
      subst hev
      exact tests_here hw ⟨(fun h => by cases h), fun h => absurd (hT.1 h) hm⟩
  | cls_ok hr hm =>
    intro pre s e hj _
    subst e
    cases s with
    | nil => cases hr
    | cons x s =>
      cases hr
      rw [cur_next, encErr_cur]
      refine tests_tick ?_
      intro ev hev
      rw [List.nil_append, List.mem_singleton] at hev
      subst hev
      exact tests_here (beq_iff_eq.1 hj) ⟨fun _ => cls_begins.2 ⟨x, s, rfl, hm⟩, fun _ => rfl⟩
  | cls_fail h =>
    intro pre s e hj _
    subst e
    refine tests_tick ?_
    intro ev hev
    rw [List.mem_singleton] at hev
    subst hev
    refine tests_here (beq_iff_eq.1 hj) ⟨(fun h => by cases h), fun hb => ?_⟩
    obtain ⟨x, t, rfl, hm⟩ := cls_begins.1 hb
    have := h (.ok x) (t.map .ok) rfl
    rw [show (Sym.ok x).rune = x from rfl, hm] at this
    cases this
  | any_ok hr =>
    intro pre s e hj _
    subst e
    cases s with
    | nil => cases hr
    | cons x s =>
      cases hr
      rw [cur_next, encErr_cur]
      refine tests_tick ?_
      intro ev hev
      rw [List.nil_append, List.mem_singleton] at hev
      subst hev
      exact tests_here (T := .any) rfl ⟨fun _ => by simp [Terminal.Begins], fun _ => rfl⟩
  | any_eof hr =>
    intro pre s e hj _
    subst e
    refine tests_tick ?_
    intro ev hev
    rw [List.mem_singleton] at hev
    subst hev
    refine tests_here (T := .any) rfl ⟨(fun h => by cases h), fun hb => ?_⟩
    cases s with
    | nil => exact absurd rfl hb
    | cons x s => cases hr
  | not_ok h ih => intro pre s e hj hc; exact tests_tick (ih e hj hc)
  | not_fail h ih => intro pre s e hj hc; exact tests_tick (ih e hj hc)
  | not_panic h ih => intro pre s e hj hc; exact tests_tick (ih e hj hc)
  | star h ih => intro pre s e hj hc; exact tests_tick (ih e hj hc)
  | plus h ih => intro pre s e hj hc; exact tests_tick (ih e hj hc)
  | rep_next h1 h2 ih1 ih2 =>
    intro pre s e hj hc
    obtain ⟨t, ht⟩ := h1.ok_adv
    subst e
    obtain ⟨a, b, rfl, rfl⟩ := adv_cur ht
    exact tests_append (ih1 rfl hj hc) (tests_after (ih2 rfl hj hc))
  | rep_stop h hcond ih => intro pre s e hj hc; exact ih e hj hc
  | rep_fail h ih => intro pre s e hj hc; exact ih e hj hc
  | rep_panic h ih => intro pre s e hj hc; exact ih e hj hc
  | opt_ok h ih => intro pre s e hj hc; exact tests_tick (ih e hj hc)
  | opt_none h ih => intro pre s e hj hc; exact tests_tick (ih e hj hc)
  | opt_panic h ih => intro pre s e hj hc; exact tests_tick (ih e hj hc)
  | recover h ih =>
    intro pre s e hj hc
    rw [Job.told, toldE, Bool.and_eq_true] at hj
    refine tests_tick (ih e hj.1 ?_)
    simp only [List.all_cons, Bool.and_eq_true]
    exact ⟨hj.2, hc⟩
  | throw h ih => intro pre s e hj hc; exact tests_tick (ih e hc hc)
  | throw_nil => intro _ _ _ _ _; simp
  | throw_skip hne h ih =>
    intro pre s e hj hc
    simp only [Job.told, List.all_cons, Bool.and_eq_true] at hj
    exact ih e hj.2 hc
  | throw_ok h ih =>
    intro pre s e hj hc
    simp only [Job.told, List.all_cons, Bool.and_eq_true] at hj
    exact ih e hj.1 hc
  | throw_next h1 h2 ih1 ih2 =>
    intro pre s e hj hc
    simp only [Job.told, List.all_cons, Bool.and_eq_true] at hj
    have hb := h1.fail_back
    subst hb
    exact tests_append (ih1 e hj.1 hc) (ih2 e hj.2 hc)
  | throw_panic h ih =>
    intro pre s e hj hc
    simp only [Job.told, List.all_cons, Bool.and_eq_true] at hj
    exact ih e hj.1 hc
  | state => intro _ _ _ _ _; exact tests_tick tests_err

/-! ### The furthest failure -/

/-- How a failed test appears in the list. -/
def shownWant (b : Bool) (w : Str) : Str := if b then '!' :: w else w

/-- The furthest failure: no failed test is further, and the items are the failed tests there. -/
theorem furthest_spec (log : List Ev) :
    (∀ b p w, Ev.mark b b p w ∈ log → p.off ≤ (furthest log).1.off) ∧
    (∀ x, x ∈ (furthest log).2 ↔ ∃ b p w, Ev.mark b b p w ∈ log ∧ p.off = (furthest log).1.off ∧ x = shownWant b w) ∧
    ((furthest log).2 = [] → (furthest log).1 = ⟨1, 1, 0⟩) ∧
    ((furthest log).1 = ⟨1, 1, 0⟩ ∨ ∃ b w, Ev.mark b b (furthest log).1 w ∈ log) := by
  induction log using List.reverseRecOn with
  | nil => simp [furthest]
  | append_singleton log ev ih =>
    obtain ⟨h1, h2, h3, h4⟩ := ih
    have hf : furthest (log ++ [ev]) = failAt (furthest log) ev := by
      unfold furthest
      rw [List.foldl_append]
      rfl
    have keep : furthest (log ++ [ev]) = furthest log → (∀ b p w, ev = Ev.mark b b p w → p.off < (furthest log).1.off) →
        (∀ b p w, Ev.mark b b p w ∈ log ++ [ev] → p.off ≤ (furthest log).1.off) ∧
        (∀ x, x ∈ (furthest log).2 ↔ ∃ b p w, Ev.mark b b p w ∈ log ++ [ev] ∧ p.off = (furthest log).1.off ∧ x = shownWant b w) ∧
        ((furthest log).2 = [] → (furthest log).1 = ⟨1, 1, 0⟩) ∧
        ((furthest log).1 = ⟨1, 1, 0⟩ ∨ ∃ b w, Ev.mark b b (furthest log).1 w ∈ log ++ [ev]) := by
      intro _ hlt
      refine ⟨?_, ?_, h3, h4.imp_right fun ⟨b, w, h⟩ => ⟨b, w, List.mem_append_left _ h⟩⟩
      · intro b p w hm
        rcases List.mem_append.1 hm with hm | hm
        · exact h1 _ _ _ hm
        · exact Nat.le_of_lt (hlt b p w (List.mem_singleton.1 hm).symm)
      · intro x
        rw [h2]
        constructor
        · rintro ⟨b, p, w, hm, ho, hx⟩
          exact ⟨b, p, w, List.mem_append_left _ hm, ho, hx⟩
        · rintro ⟨b, p, w, hm, ho, hx⟩
          rcases List.mem_append.1 hm with hm | hm
          · exact ⟨b, p, w, hm, ho, hx⟩
          · have := hlt b p w (List.mem_singleton.1 hm).symm
            omega
    have same : (∀ b p w, ev = Ev.mark b b p w → p.off < (furthest log).1.off) →
        failAt (furthest log) ev = furthest log := by
      intro hlt
      unfold failAt
      split
      · rename_i f i p w
        split
        · rename_i hfi
          rw [beq_iff_eq] at hfi
          subst hfi
          rw [if_pos (hlt f p w rfl)]
        · rfl
      · rfl
    by_cases hlt : ∀ b p w, ev = Ev.mark b b p w → p.off < (furthest log).1.off
    · rw [hf, same hlt]
      exact keep (by rw [hf, same hlt]) hlt
    · push Not at hlt
      obtain ⟨b, p, w, rfl, hle⟩ := hlt
      rw [hf]
      by_cases hgt : (furthest log).1.off < p.off
      · have e : failAt (furthest log) (.mark b b p w) = (p, [shownWant b w]) := by
          simp only [failAt, beq_self_eq_true, if_true]
          rw [if_neg (Nat.not_lt.2 hle), if_pos hgt]
          rfl
        rw [e]
        refine ⟨?_, ?_, (fun h => by cases h), .inr ⟨b, w, by simp⟩⟩
        · intro b' p' w' hm
          rcases List.mem_append.1 hm with hm | hm
          · exact Nat.le_trans (h1 _ _ _ hm) hle
          · cases List.mem_singleton.1 hm
            exact Nat.le_refl _
        · intro x
          constructor
          · intro hx
            exact ⟨b, p, w, by simp, rfl, List.mem_singleton.1 hx⟩
          · rintro ⟨b', p', w', hm, ho, rfl⟩
            rcases List.mem_append.1 hm with hm | hm
            · have := h1 _ _ _ hm
              change p'.off = p.off at ho
              omega
            · cases List.mem_singleton.1 hm
              exact List.mem_singleton.2 rfl
      · have e : failAt (furthest log) (.mark b b p w) = ((furthest log).1, (furthest log).2 ++ [shownWant b w]) := by
          simp only [failAt, beq_self_eq_true, if_true]
          rw [if_neg (Nat.not_lt.2 hle), if_neg hgt]
          rfl
        have ho : p.off = (furthest log).1.off := by omega
        rw [e]
        refine ⟨?_, ?_, (fun h => by simp at h), h4.imp_right fun ⟨b, w, h⟩ => ⟨b, w, List.mem_append_left _ h⟩⟩
        · intro b' p' w' hm
          rcases List.mem_append.1 hm with hm | hm
          · exact h1 _ _ _ hm
          · cases List.mem_singleton.1 hm
            exact Nat.le_of_eq ho
        · intro x
          rw [List.mem_append, h2]
          constructor
          · rintro (⟨b', p', w', hm, ho', rfl⟩ | hx)
            · exact ⟨b', p', w', List.mem_append_left _ hm, ho', rfl⟩
            · exact ⟨b, p, w, by simp, ho, List.mem_singleton.1 hx⟩
          · rintro ⟨b', p', w', hm, ho', rfl⟩
            rcases List.mem_append.1 hm with hm | hm
            · exact .inl ⟨b', p', w', hm, ho', rfl⟩
            · cases List.mem_singleton.1 hm
              exact .inr (List.mem_singleton.2 rfl)

/-! ### The list -/

theorem mem_expectedOf {ws : List Str} {x : Str} : x ∈ expectedOf ws ↔
    (x ∈ ws ∧ x ≠ ['!', '.']) ∨ (x = "EOF".toList ∧ ['!', '.'] ∈ ws) := by
  unfold expectedOf
  simp only [List.mem_append, List.mem_insertionSort, List.mem_dedup, List.mem_filter, decide_eq_true_eq]
  by_cases h : ['!', '.'] ∈ ws
  · rw [if_pos h, List.mem_singleton]
    simp [h]
  · rw [if_neg h]
    simp [h]

theorem expectedOf_nodup {ws : List Str} (h : "EOF".toList ∉ ws) : (expectedOf ws).Nodup := by
  unfold expectedOf
  dsimp only
  rw [List.nodup_append]
  refine ⟨(List.perm_insertionSort _ _).nodup_iff.2 (List.nodup_dedup _), ?_, ?_⟩
  · split <;> simp
  · intro a ha b hb hab
    subst hab
    split at hb
    · rw [List.mem_singleton] at hb
      subst hb
      rw [List.mem_insertionSort, List.mem_dedup, List.mem_filter] at ha
      exact h ha.1
    · cases hb

theorem strLe_iff {v w : Str} : strLe v w = true ↔ v <+: w ∨ ∃ p a b s t, v = p ++ a :: s ∧ w = p ++ b :: t ∧ a < b := by
  induction v generalizing w with
  | nil => simp [strLe]
  | cons x v ih =>
    cases w with
    | nil => simp [strLe]
    | cons y w =>
      unfold strLe
      by_cases h : x = y
      · subst h
        rw [if_pos rfl, ih, List.cons_prefix_cons]
        constructor
        · rintro (h | ⟨p, a, b, s, t, rfl, rfl, hab⟩)
          · exact .inl ⟨rfl, h⟩
          · exact .inr ⟨x :: p, a, b, s, t, rfl, rfl, hab⟩
        · rintro (h | ⟨p, a, b, s, t, h1, h2, hab⟩)
          · exact .inl h.2
          · cases p with
            | nil =>
              cases h1
              cases h2
              exact absurd hab (UInt32.lt_irrefl _)
            | cons z p =>
              cases h1
              cases h2
              exact .inr ⟨p, a, b, s, t, rfl, rfl, hab⟩
      · rw [if_neg h, List.cons_prefix_cons, decide_eq_true_eq]
        constructor
        · intro hlt
          exact .inr ⟨[], x, y, v, w, rfl, rfl, hlt⟩
        · rintro (h2 | ⟨p, a, b, s, t, h1, h2, hab⟩)
          · exact absurd h2.1 h
          · cases p with
            | nil =>
              cases h1
              cases h2
              exact hab
            | cons z p =>
              cases h1
              cases h2
              exact absurd rfl h

theorem strLe_trans {a b c : Str} (h1 : strLe a b = true) (h2 : strLe b c = true) : strLe a c = true := by
  induction a generalizing b c with
  | nil => simp [strLe]
  | cons x a ih =>
    cases b with
    | nil => simp [strLe] at h1
    | cons y b =>
      cases c with
      | nil => simp [strLe] at h2
      | cons z c =>
        unfold strLe at h1 h2 ⊢
        by_cases e1 : x = y
        · subst e1
          rw [if_pos rfl] at h1
          by_cases e2 : x = z
          · rw [if_pos e2] at h2 ⊢
            exact ih h1 h2
          · rw [if_neg e2] at h2 ⊢
            exact h2
        · rw [if_neg e1, decide_eq_true_eq] at h1
          by_cases e2 : y = z
          · subst e2
            rw [if_neg e1, decide_eq_true_eq]
            exact h1
          · rw [if_neg e2, decide_eq_true_eq] at h2
            have h3 : x.val < z.val := UInt32.lt_trans h1 h2
            rw [if_neg (fun e => by subst e; exact absurd h3 (UInt32.lt_irrefl _)), decide_eq_true_eq]
            exact h3

theorem strLe_total (a b : Str) : (strLe a b || strLe b a) = true := by
  induction a generalizing b with
  | nil => simp [strLe]
  | cons x a ih =>
    cases b with
    | nil => simp [strLe]
    | cons y b =>
      unfold strLe
      by_cases e : x = y
      · rw [if_pos e, if_pos e.symm]
        exact ih b
      · rw [if_neg e, if_neg (Ne.symm e), Bool.or_eq_true, decide_eq_true_eq, decide_eq_true_eq]
        rcases Nat.lt_trichotomy x.val.toNat y.val.toNat with h | h | h
        · exact .inl h
        · exact absurd (Char.ext (UInt32.toNat.inj h)) e
        · exact .inr h

theorem expectedOf_ordered (ws : List Str) : (expectedOf ws).Pairwise Ordered := by
  unfold expectedOf
  dsimp only
  rw [List.pairwise_append]
  refine ⟨?_, ?_, ?_⟩
  · refine (@List.pairwise_insertionSort _ (fun a b => strLe a b = true) _ ⟨fun a b => by
      have := strLe_total a b; rwa [Bool.or_eq_true] at this⟩ ⟨fun _ _ _ => strLe_trans⟩ _).imp ?_
    intro a b h
    exact .inr (strLe_iff.1 h)
  · split <;> simp
  · intro a _ b hb
    split at hb
    · exact .inl (List.mem_singleton.1 hb)
    · cases hb

theorem commaJoin_cons {s : Str} {ss : List Str} (h : ss ≠ []) :
    commaJoin (s :: ss) = s ++ ", ".toList ++ commaJoin ss := by
  cases ss with
  | nil => exact absurd rfl h
  | cons t ts => rfl

theorem listed_join {ws : List Str} (h : ws ≠ []) : Listed ws (listJoin ws) := by
  induction ws with
  | nil => exact absurd rfl h
  | cons w ws ih =>
    cases ws with
    | nil => exact .one
    | cons v vs =>
      cases vs with
      | nil => exact .two
      | cons u us =>
        have e : listJoin (w :: v :: u :: us) = w ++ ", ".toList ++ listJoin (v :: u :: us) := by
          show commaJoin (w :: v :: u :: us).dropLast ++ " or ".toList ++ (w :: v :: u :: us).getLastD [] =
            w ++ ", ".toList ++ (commaJoin (v :: u :: us).dropLast ++ " or ".toList ++ (v :: u :: us).getLastD [])
          rw [List.dropLast_cons_of_ne_nil (by simp), commaJoin_cons (by simp)]
          simp only [List.append_assoc]
          rfl
        rw [e]
        exact .more (by simp) (ih (by simp))

/-! ### Places of the text -/

theorem bytesOf_pos {c : Char} {s : Str} : 0 < bytesOf (c :: s) := by
  unfold bytesOf
  have := Char.utf8Size_pos c
  simp only [List.map_cons, List.sum_cons]
  omega

theorem same_place {p q a b : Str} (h : p ++ a = q ++ b) (hb : bytesOf p = bytesOf q) : p = q ∧ a = b := by
  induction p generalizing q with
  | nil =>
    cases q with
    | nil => exact ⟨rfl, h⟩
    | cons x q =>
      have := bytesOf_pos (c := x) (s := q)
      rw [← hb] at this
      cases this
  | cons x p ih =>
    cases q with
    | nil =>
      have := bytesOf_pos (c := x) (s := p)
      rw [hb] at this
      cases this
    | cons y q =>
      rw [List.cons_append, List.cons_append, List.cons.injEq] at h
      obtain ⟨rfl, h⟩ := h
      have h2 : bytesOf p = bytesOf q := by
        unfold bytesOf at hb ⊢
        simp only [List.map_cons, List.sum_cons] at hb
        omega
      obtain ⟨rfl, rfl⟩ := ih h h2
      exact ⟨rfl, rfl⟩

theorem locAt_off (p s : Str) : (locAt p s).off = bytesOf p := by
  unfold locAt
  split <;> rfl

/-- The loop over white space at the beginning fails somewhere. -/
theorem start_fails {s : Str} {l : List Ev} {r : Res}
    (h : Big E ⟨false, []⟩ (.expr (grammar .Start) []) (cur [] s) l r) :
    ∃ p, Ev.mark false false p "[ \\n\\t\\r]".toList ∈ l := by
  obtain ⟨l1, r1, h, s1⟩ := big_action_inner h
  obtain ⟨l2, r2, h, s2⟩ := big_seq_inner h
  obtain ⟨l3, r3, h, s3⟩ := big_label_inner h
  obtain ⟨l4, r4, h, s4⟩ := big_rule_inner h
  obtain ⟨l5, r5, h, s5⟩ := big_action_inner h
  obtain ⟨l6, r6, h, s6⟩ := big_seq_inner h
  obtain ⟨l7, r7, h, s7⟩ := big_rule_inner h
  cases h with
  | star h =>
    obtain ⟨p, hp, -⟩ := big_rep_cls h rfl
    exact ⟨p, s1 _ (s2 _ (s3 _ (s4 _ (s5 _ (s6 _ (s7 _ (List.mem_cons_of_mem _ hp)))))))⟩

/-- The furthest failure is at a place of the text; the items are the tests that failed there. -/
theorem furthest_place {s : Str} {l : List Ev} {r : Res}
    (h : Big E ⟨false, []⟩ (.expr (grammar .Start) []) (cur [] s) l r) :
    ∃ pre post, s = pre ++ post ∧ (furthest l).1 = locAt pre post ∧ (furthest l).2 ≠ [] ∧
      ∀ x ∈ (furthest l).2, ∃ b w T, x = shownWant b w ∧ readWant w = some T ∧ (b = true ↔ T.Begins E post) := by
  have ht := h.tests rfl (told_grammar _) rfl
  obtain ⟨h1, h2, h3, h4⟩ := furthest_spec l
  have items : ∀ {pre post}, s = pre ++ post → (furthest l).1 = locAt pre post →
      ∀ x ∈ (furthest l).2, ∃ b w T, x = shownWant b w ∧ readWant w = some T ∧ (b = true ↔ T.Begins E post) := by
    intro pre post hs hp x hx
    obtain ⟨b, p, w, hm, ho, rfl⟩ := (h2 x).1 hx
    obtain ⟨q, post', T, hs', hp', hw, hb⟩ := ht _ hm
    rw [hp, hp', locAt_off, locAt_off] at ho
    rw [hs] at hs'
    obtain ⟨rfl, rfl⟩ := same_place hs'.symm (by simpa using ho)
    exact ⟨b, w, T, rfl, hw, hb⟩
  obtain ⟨p0, hp0⟩ := start_fails h
  have hne : (furthest l).2 ≠ [] := by
    intro he
    have hl := h3 he
    have hle := h1 _ _ _ hp0
    rw [hl] at hle
    have : shownWant false "[ \\n\\t\\r]".toList ∈ (furthest l).2 :=
      (h2 _).2 ⟨false, p0, _, hp0, by rw [hl]; exact Nat.le_zero.1 hle, rfl⟩
    rw [he] at this
    cases this
  rcases h4 with h4 | ⟨b, w, hm⟩
  · have hp : (furthest l).1 = locAt [] s := by
      by_cases hn : ∃ t, s = '\n' :: t
      · obtain ⟨t, rfl⟩ := hn
        rw [← cur_init] at h
        have := furthest_newline h l (fun _ h => h)
        rw [h4] at this
        cases this
      · rw [h4, locAt_other (by push Not at hn; exact hn)]
        rfl
    exact ⟨[], s, rfl, hp, hne, items rfl hp⟩
  · obtain ⟨q, post, T, hs, hp, -⟩ := ht _ hm
    rw [List.nil_append] at hp
    exact ⟨q, post, hs, hp, hne, items hs hp⟩

theorem unmet_of {x post : Str} {b : Bool} {w : Str} {T : Terminal} (hx : x = shownWant b w) (hw : readWant w = some T)
    (hb : b = true ↔ T.Begins E post) : Unmet E x post := by
  cases b
  · exact .inr (.inl ⟨T, by rw [hx]; exact hw, fun h => by cases hb.2 h⟩)
  · exact .inr (.inr ⟨w, T, hx, hw, hb.1 rfl⟩)

/-- The expectations of a failure. -/
theorem expected_facts {s : Str} {l : List Ev} {r : Res}
    (h : Big E ⟨false, []⟩ (.expr (grammar .Start) []) (cur [] s) l r) :
    ∃ pre post, s = pre ++ post ∧ (furthest l).1 = locAt pre post ∧ (∀ w ∈ expectedOf (furthest l).2, Unmet E w post) ∧
      (expectedOf (furthest l).2).Nodup ∧ (expectedOf (furthest l).2).Pairwise Ordered ∧
      Listed (expectedOf (furthest l).2) (listJoin (expectedOf (furthest l).2)) := by
  obtain ⟨pre, post, hs, hp, hne, hi⟩ := furthest_place h
  refine ⟨pre, post, hs, hp, ?_, expectedOf_nodup ?_, expectedOf_ordered _, listed_join ?_⟩
  · intro w hw
    rcases mem_expectedOf.1 hw with ⟨hw, -⟩ | ⟨rfl, he⟩
    · obtain ⟨b, v, T, h1, h2, h3⟩ := hi w hw
      exact unmet_of h1 h2 h3
    · obtain ⟨b, v, T, h1, h2, h3⟩ := hi _ he
      refine .inl ⟨rfl, ?_⟩
      cases b
      · rw [← show _ = v from h1] at h2
        cases h2
      · cases h1
        cases h2
        exact h3.1 rfl
  · intro hm
    obtain ⟨b, v, T, h1, h2, -⟩ := hi _ hm
    cases b
    · rw [← show _ = v from h1] at h2
      rw [show readWant "EOF".toList = none from by decide] at h2
      cases h2
    · cases h1
  · intro he
    obtain ⟨x, t, hx⟩ := List.exists_cons_of_ne_nil hne
    have hm : x ∈ (furthest l).2 := by rw [hx]; simp
    by_cases hxe : x = ['!', '.']
    · subst hxe
      have := mem_expectedOf.2 (.inr ⟨rfl, hm⟩)
      rw [he] at this
      cases this
    · have := mem_expectedOf.2 (.inl ⟨hm, hxe⟩)
      rw [he] at this
      cases this

/-- The list of the message of a failure. -/
theorem expected_diagnosis {s : Str} {l : List Ev} {r : Res}
    (h : Big E ⟨false, []⟩ (.expr (grammar .Start) []) (cur [] s) l r) :
    Fault E [] s (furthest l).1 ⟨.noMatch (expectedOf (furthest l).2), none⟩ := by
  obtain ⟨pre, post, hs, hp, h1, h2, h3, h4⟩ := expected_facts h
  refine ⟨pre, [], post, by simpa using hs, by simpa using hp, ?_⟩
  rw [List.nil_append]
  exact Diagnosis.noMatch h1 h2 h3 h4 rfl

theorem start_er {ctx : Ctx} {s : Str} {p : Loc} {k : RecErr} {l : List Ev} {r : Res} {tl : List (Loc × RecErr)}
    (hb : Big E ctx (.expr (grammar .Start) []) (cur [] s) l r) (hl : errorsOf l = (p, k) :: tl) :
    Er E ctx (.rule .Start) [] [] s p k := by
  have key : ∀ r', Big E ctx (.expr (.rule .Start) []) (cur [] s) (.tick :: l) r' →
      Er E ctx (.rule .Start) [] [] s p k := by
    intro r' hb'
    refine ⟨_, _, hb', ?_⟩
    rw [errorsOf_tick, hl]
    rfl
  cases r with
  | ok v c' fr' => exact key _ (.rule_ok hb)
  | fail c' => exact key _ (.rule_stop hb trivial)
  | panic q c' => exact key _ (.rule_stop hb trivial)

/-- Every error of the grammar stage is true of the text it marks. -/
theorem parse_fault {s : Str} {p : Loc} {k : RecErr} (h : parse E (s.map .ok) = some (.error p k)) :
    Fault E [] s p k := by
  obtain ⟨l, r0, hb, -, hp⟩ := parse_big (E := E) (s.map .ok)
  rw [cur_init, encErr_cur, List.nil_append] at hp
  rw [cur_init] at hb
  rw [h] at hp
  simp only [Option.some.injEq] at hp
  unfold finish at hp
  split at hp
  · rename_i l' e' tl hl
    cases hp
    exact er_start (start_er hb hl)
  · cases hp
  · cases hp
    exact expected_diagnosis hb
  · rename_i q c hl
    exact absurd (hb.shapes hl (wt_grammar _) rfl) id

end Aql
