import Verif.Proofs.Stack
import Verif.Spec.Calls
/-!
The count of nested calls is the length of the longest chain of calls.
-/

namespace Aql
open Spec

variable {E : Env}

theorem dRun_gives {f : Nat} {ctx : Ctx} {e : PExpr} {fr : VFrame} {c : Cursor} {r : Res} {d : Nat}
    (h : dRun E f ctx e fr c = some (r, d)) : Gives E ⟨ctx, e, fr, c⟩ r := by
  have hs := dRun_same f ctx e fr c (E := E)
  rw [h] at hs
  rcases hr : run E f ctx e fr c with _ | ⟨l, r'⟩
  · rw [hr] at hs; cases hs
  · rw [hr] at hs
    cases hs
    exact ⟨f, l, hr⟩

theorem gives_unique {ctx : Ctx} {e : PExpr} {fr : VFrame} {c : Cursor} {r r' : Res}
    (h : Gives E ⟨ctx, e, fr, c⟩ r) (h' : Gives E ⟨ctx, e, fr, c⟩ r') : r = r' := by
  obtain ⟨f, l, h⟩ := h
  obtain ⟨f', l', h'⟩ := h'
  exact (Big.det (run_big _ _ _ _ _ _ _ h) (run_big _ _ _ _ _ _ _ h')).2

theorem dRun_pos {f : Nat} {ctx : Ctx} {e : PExpr} {fr : VFrame} {c : Cursor} {r : Res} {d : Nat}
    (h : dRun E f ctx e fr c = some (r, d)) : 0 < d := by
  obtain ⟨_, k, _, rfl, _⟩ := dRun_succ h
  omega

/-! ### A chain as long as the count -/

theorem dRun_chain (f : Nat) : ∀ ctx e fr c r d, dRun E f ctx e fr c = some (r, d) → Chain E d ⟨ctx, e, fr, c⟩ := by
  induction f with
  | zero => intro ctx e fr c r d h; cases h
  | succ f ih =>
    intro ctx e fr c r d h
    obtain ⟨g, k, hg, rfl, h⟩ := dRun_succ h
    cases hg
    suffices k = 0 ∨ ∃ y, Makes E ⟨ctx, e, fr, c⟩ y ∧ Chain E k y by
      rcases this with rfl | ⟨y, h1, h2⟩
      · exact .one
      · exact .more h1 h2
    have hrep : ∀ (e : PExpr) (one : Bool) n acc c r k, dRepLoop (dRun E f) ctx fr e one n acc c = some (r, k) →
        ∃ c', RepAt E ctx e c c' ∧ Chain E k ⟨ctx, e, [], c'⟩ := by
      intro e one n
      induction n with
      | zero => intro acc c r k h; cases h
      | succ n ihn =>
        intro acc c r k h
        rw [dRepLoop] at h
        rcases hd : dRun E f ctx e [] c with _ | ⟨r', d'⟩
        · rw [hd] at h; cases h
        · have h1 := ih _ _ _ _ _ _ hd
          rw [hd] at h
          cases r' with
          | ok v c' fr' =>
            simp only [deeper] at h
            rcases hn : dRepLoop (dRun E f) ctx fr e one n (acc ++ [v]) c' with _ | ⟨r2, k2⟩
            · rw [hn] at h; cases h
            · rw [hn] at h
              cases h
              simp only
              rcases Nat.le_total d' k2 with hle | hle
              · obtain ⟨c2, h2, h3⟩ := ihn _ _ _ _ hn
                rw [Nat.max_eq_right hle]
                exact ⟨c2, .next (dRun_gives hd) h2, h3⟩
              · rw [Nat.max_eq_left hle]
                exact ⟨c, .here, h1⟩
          | fail c' => cases h; exact ⟨c, .here, h1⟩
          | panic p c' => cases h; exact ⟨c, .here, h1⟩
    cases e with
    | action a e =>
      simp only [dStep] at h
      rcases hd : dRun E f ctx e fr c with _ | ⟨r', d'⟩
      · rw [hd] at h; cases h
      · have h1 := ih _ _ _ _ _ _ hd
        refine .inr ⟨_, .action, ?_⟩
        rw [hd] at h
        cases r' with
        | ok v c' fr' =>
          dsimp only at h
          rcases hr : runAct E a fr' (textOf c c') c.loc with p | ⟨v, er⟩
          · rw [hr] at h; cases h; exact h1
          · rw [hr] at h; cases h; exact h1
        | fail c' => cases h; exact h1
        | panic p c' => cases h; exact h1
    | seq es =>
      have key : ∀ (es : List PExpr) st acc fr c r k,
          dSeqLoop (dRun E f) ctx st es acc fr c = some (r, k) →
          k = 0 ∨ ∃ e' fr' c', SeqAt E ctx es fr c e' fr' c' ∧ Chain E k ⟨ctx, e', fr', c'⟩ := by
        intro es
        induction es with
        | nil => intro st acc fr c r k h; cases h; exact .inl rfl
        | cons e es ihs =>
          intro st acc fr c r k h
          rw [dSeqLoop] at h
          rcases hd : dRun E f ctx e fr c with _ | ⟨r', d'⟩
          · rw [hd] at h; cases h
          · have h1 := ih _ _ _ _ _ _ hd
            have h0 := dRun_pos hd
            rw [hd] at h
            cases r' with
            | ok v c' fr' =>
              simp only [deeper] at h
              rcases hn : dSeqLoop (dRun E f) ctx st es (acc ++ [v]) fr' c' with _ | ⟨r2, k2⟩
              · rw [hn] at h; cases h
              · rw [hn] at h
                cases h
                simp only
                rcases Nat.le_total d' k2 with hle | hle
                · rw [Nat.max_eq_right hle]
                  rcases ihs _ _ _ _ _ _ hn with h2 | ⟨e2, fr2, c2, h2, h3⟩
                  · omega
                  · exact .inr ⟨e2, fr2, c2, .next (dRun_gives hd) h2, h3⟩
                · rw [Nat.max_eq_left hle]
                  exact .inr ⟨_, _, _, .here, h1⟩
            | fail c' => cases h; exact .inr ⟨_, _, _, .here, h1⟩
            | panic p c' => cases h; exact .inr ⟨_, _, _, .here, h1⟩
      rcases key es _ _ _ _ _ _ h with h | ⟨e', fr', c', h1, h2⟩
      · exact .inl h
      · exact .inr ⟨_, .seq h1, h2⟩
    | choice es =>
      have key : ∀ (es : List PExpr) c r k, dChoiceLoop (dRun E f) ctx fr es c = some (r, k) →
          k = 0 ∨ ∃ e' c', ChoiceAt E ctx es c e' c' ∧ Chain E k ⟨ctx, e', [], c'⟩ := by
        intro es
        induction es with
        | nil => intro c r k h; cases h; exact .inl rfl
        | cons e es ihs =>
          intro c r k h
          rw [dChoiceLoop] at h
          rcases hd : dRun E f ctx e [] c with _ | ⟨r', d'⟩
          · rw [hd] at h; cases h
          · have h1 := ih _ _ _ _ _ _ hd
            have h0 := dRun_pos hd
            rw [hd] at h
            cases r' with
            | ok v c' fr' => cases h; exact .inr ⟨_, _, .here, h1⟩
            | fail c' =>
              simp only [deeper] at h
              rcases hn : dChoiceLoop (dRun E f) ctx fr es c' with _ | ⟨r2, k2⟩
              · rw [hn] at h; cases h
              · rw [hn] at h
                cases h
                simp only
                rcases Nat.le_total d' k2 with hle | hle
                · rw [Nat.max_eq_right hle]
                  rcases ihs _ _ _ hn with h2 | ⟨e2, c2, h2, h3⟩
                  · omega
                  · exact .inr ⟨e2, c2, .next (dRun_gives hd) h2, h3⟩
                · rw [Nat.max_eq_left hle]
                  exact .inr ⟨_, _, .here, h1⟩
            | panic p c' => cases h; exact .inr ⟨_, _, .here, h1⟩
      rcases key es _ _ _ h with h | ⟨e', c', h1, h2⟩
      · exact .inl h
      · exact .inr ⟨_, .choice h1, h2⟩
    | label x e =>
      simp only [dStep] at h
      rcases hd : dRun E f ctx e [] c with _ | ⟨r', d'⟩
      · rw [hd] at h; cases h
      · refine .inr ⟨_, .label, ?_⟩
        have h1 := ih _ _ _ _ _ _ hd
        rw [hd] at h
        cases r' <;> cases h <;> exact h1
    | rule x =>
      simp only [dStep] at h
      rcases hd : dRun E f ctx (grammar x) [] c with _ | ⟨r', d'⟩
      · rw [hd] at h; cases h
      · refine .inr ⟨_, .rule, ?_⟩
        have h1 := ih _ _ _ _ _ _ hd
        rw [hd] at h
        cases r' <;> cases h <;> exact h1
    | lit val ic want =>
      simp only [dStep] at h
      rcases hl : litLoop E ic val c with ⟨l, _ | c'⟩ <;> rw [hl] at h <;> cases h <;> exact .inl rfl
    | cls chars ranges ic inv want =>
      simp only [dStep] at h
      rcases hr : c.rest with _ | ⟨s, t⟩
      · rw [hr] at h; cases h; exact .inl rfl
      · rw [hr] at h
        dsimp only at h
        by_cases hm : clsMatch E chars ranges ic inv s.rune = true
        · rw [if_pos hm] at h; cases h; exact .inl rfl
        · rw [if_neg hm] at h; cases h; exact .inl rfl
    | any =>
      simp only [dStep] at h
      rcases hr : c.rest with _ | ⟨s, t⟩ <;> rw [hr] at h <;> cases h <;> exact .inl rfl
    | not e =>
      simp only [dStep] at h
      rcases hd : dRun E f { ctx with inv := !ctx.inv } e [] c with _ | ⟨r', d'⟩
      · rw [hd] at h; cases h
      · refine .inr ⟨_, .not, ?_⟩
        have h1 := ih _ _ _ _ _ _ hd
        rw [hd] at h
        cases r' <;> cases h <;> exact h1
    | star e =>
      obtain ⟨c', h1, h2⟩ := hrep e false _ _ _ _ _ h
      exact .inr ⟨_, .star h1, h2⟩
    | plus e =>
      obtain ⟨c', h1, h2⟩ := hrep e true _ _ _ _ _ h
      exact .inr ⟨_, .plus h1, h2⟩
    | opt e =>
      simp only [dStep] at h
      rcases hd : dRun E f ctx e [] c with _ | ⟨r', d'⟩
      · rw [hd] at h; cases h
      · refine .inr ⟨_, .opt, ?_⟩
        have h1 := ih _ _ _ _ _ _ hd
        rw [hd] at h
        cases r' <;> cases h <;> exact h1
    | recover x e hd => exact .inr ⟨_, .recover, ih _ _ _ _ _ _ h⟩
    | throw x =>
      have key : ∀ (rs : List (FailLabel × PExpr)) c r k, dThrowLoop (dRun E f) ctx x fr rs c = some (r, k) →
          k = 0 ∨ ∃ e' c', ThrowAt E ctx x fr rs c e' c' ∧ Chain E k ⟨ctx, e', fr, c'⟩ := by
        intro rs
        induction rs with
        | nil => intro c r k h; cases h; exact .inl rfl
        | cons p rs ihs =>
          obtain ⟨l', e⟩ := p
          intro c r k h
          rw [dThrowLoop] at h
          by_cases hl : l' = x
          · rw [if_pos hl] at h
            subst hl
            rcases hd : dRun E f ctx e fr c with _ | ⟨r', d'⟩
            · rw [hd] at h; cases h
            · have h1 := ih _ _ _ _ _ _ hd
              have h0 := dRun_pos hd
              rw [hd] at h
              cases r' with
              | ok v c' fr' => cases h; exact .inr ⟨_, _, .here, h1⟩
              | fail c' =>
                simp only [deeper] at h
                rcases hn : dThrowLoop (dRun E f) ctx l' fr rs c' with _ | ⟨r2, k2⟩
                · rw [hn] at h; cases h
                · rw [hn] at h
                  cases h
                  simp only
                  rcases Nat.le_total d' k2 with hle | hle
                  · rw [Nat.max_eq_right hle]
                    rcases ihs _ _ _ hn with h2 | ⟨e2, c2, h2, h3⟩
                    · omega
                    · exact .inr ⟨e2, c2, .next (dRun_gives hd) h2, h3⟩
                  · rw [Nat.max_eq_left hle]
                    exact .inr ⟨_, _, .here, h1⟩
              | panic p c' => cases h; exact .inr ⟨_, _, .here, h1⟩
          · rw [if_neg hl] at h
            rcases ihs _ _ _ h with h | ⟨e', c', h1, h2⟩
            · exact .inl h
            · exact .inr ⟨e', c', .skip hl h1, h2⟩
      rcases key ctx.recov _ _ _ h with h | ⟨e', c', h1, h2⟩
      · exact .inl h
      · exact .inr ⟨_, .throw h1, h2⟩
    | state s => cases h; exact .inl rfl

/-! ### No longer chain -/

/-- What is called is counted. -/
def WithinCount (E : Env) (y : Call) (k : Nat) : Prop :=
  ∃ f r d, dRun E f y.ctx y.e y.fr y.c = some (r, d) ∧ d ≤ k

theorem WithinCount.mono {y : Call} {k k' : Nat} (h : WithinCount E y k) (hk : k ≤ k') : WithinCount E y k' := by
  obtain ⟨f, r, d, h, hd⟩ := h
  exact ⟨f, r, d, h, hd.trans hk⟩

theorem seqAt_counted {ctx : Ctx} {es : List PExpr} {fr : VFrame} {c : Cursor} {e' : PExpr} {fr' : VFrame} {c' : Cursor}
    (h : SeqAt E ctx es fr c e' fr' c') : ∀ g st acc r k, dSeqLoop (dRun E g) ctx st es acc fr c = some (r, k) →
    WithinCount E ⟨ctx, e', fr', c'⟩ k := by
  induction h with
  | @here e es fr c =>
    intro g st acc r k h
    rw [dSeqLoop] at h
    rcases hd : dRun E g ctx e fr c with _ | ⟨r', d'⟩
    · rw [hd] at h; cases h
    · refine ⟨g, r', d', hd, ?_⟩
      rw [hd] at h
      cases r' with
      | ok v c' fr' => obtain ⟨_, _, hk, _⟩ := deeper_some h; exact hk
      | fail c' => cases h; exact Nat.le_refl _
      | panic p c' => cases h; exact Nat.le_refl _
  | @next e es fr c v c1 fr1 e' fr' c' hg _ ih =>
    intro g st acc r k h
    rw [dSeqLoop] at h
    rcases hd : dRun E g ctx e fr c with _ | ⟨r', d'⟩
    · rw [hd] at h; cases h
    · cases gives_unique hg (dRun_gives hd)
      rw [hd] at h
      obtain ⟨k', h', _, hk⟩ := deeper_some h
      exact (ih _ _ _ _ _ h').mono hk

theorem choiceAt_counted {ctx : Ctx} {es : List PExpr} {fr : VFrame} {c : Cursor} {e' : PExpr} {c' : Cursor}
    (h : ChoiceAt E ctx es c e' c') : ∀ g r k, dChoiceLoop (dRun E g) ctx fr es c = some (r, k) →
    WithinCount E ⟨ctx, e', [], c'⟩ k := by
  induction h with
  | @here e es c =>
    intro g r k h
    rw [dChoiceLoop] at h
    rcases hd : dRun E g ctx e [] c with _ | ⟨r', d'⟩
    · rw [hd] at h; cases h
    · refine ⟨g, r', d', hd, ?_⟩
      rw [hd] at h
      cases r' with
      | ok v c' fr' => cases h; exact Nat.le_refl _
      | fail c' => obtain ⟨_, _, hk, _⟩ := deeper_some h; exact hk
      | panic p c' => cases h; exact Nat.le_refl _
  | @next e es c c1 e' c' hg _ ih =>
    intro g r k h
    rw [dChoiceLoop] at h
    rcases hd : dRun E g ctx e [] c with _ | ⟨r', d'⟩
    · rw [hd] at h; cases h
    · cases gives_unique hg (dRun_gives hd)
      rw [hd] at h
      obtain ⟨k', h', _, hk⟩ := deeper_some h
      exact (ih _ _ _ h').mono hk

theorem repAt_counted {ctx : Ctx} {e : PExpr} {fr : VFrame} {one : Bool} {c c' : Cursor} (h : RepAt E ctx e c c') :
    ∀ g n acc r k, dRepLoop (dRun E g) ctx fr e one n acc c = some (r, k) → WithinCount E ⟨ctx, e, [], c'⟩ k := by
  induction h with
  | @here c =>
    intro g n acc r k h
    cases n with
    | zero => cases h
    | succ n =>
      rw [dRepLoop] at h
      rcases hd : dRun E g ctx e [] c with _ | ⟨r', d'⟩
      · rw [hd] at h; cases h
      · refine ⟨g, r', d', hd, ?_⟩
        rw [hd] at h
        cases r' with
        | ok v c' fr' => obtain ⟨_, _, hk, _⟩ := deeper_some h; exact hk
        | fail c' => cases h; exact Nat.le_refl _
        | panic p c' => cases h; exact Nat.le_refl _
  | @next c v c1 fr1 c' hg _ ih =>
    intro g n acc r k h
    cases n with
    | zero => cases h
    | succ n =>
      rw [dRepLoop] at h
      rcases hd : dRun E g ctx e [] c with _ | ⟨r', d'⟩
      · rw [hd] at h; cases h
      · cases gives_unique hg (dRun_gives hd)
        rw [hd] at h
        obtain ⟨k', h', _, hk⟩ := deeper_some h
        exact (ih _ _ _ _ _ h').mono hk

theorem throwAt_counted {ctx : Ctx} {x : FailLabel} {fr : VFrame} {rs : List (FailLabel × PExpr)} {c : Cursor}
    {e' : PExpr} {c' : Cursor} (h : ThrowAt E ctx x fr rs c e' c') :
    ∀ g r k, dThrowLoop (dRun E g) ctx x fr rs c = some (r, k) → WithinCount E ⟨ctx, e', fr, c'⟩ k := by
  induction h with
  | @here e rs c =>
    intro g r k h
    rw [dThrowLoop, if_pos rfl] at h
    rcases hd : dRun E g ctx e fr c with _ | ⟨r', d'⟩
    · rw [hd] at h; cases h
    · refine ⟨g, r', d', hd, ?_⟩
      rw [hd] at h
      cases r' with
      | ok v c' fr' => cases h; exact Nat.le_refl _
      | fail c' => obtain ⟨_, _, hk, _⟩ := deeper_some h; exact hk
      | panic p c' => cases h; exact Nat.le_refl _
  | skip hl _ ih =>
    intro g r k h
    rw [dThrowLoop, if_neg hl] at h
    exact ih _ _ _ h
  | @next e rs c c1 e' c' hg _ ih =>
    intro g r k h
    rw [dThrowLoop, if_pos rfl] at h
    rcases hd : dRun E g ctx e fr c with _ | ⟨r', d'⟩
    · rw [hd] at h; cases h
    · cases gives_unique hg (dRun_gives hd)
      rw [hd] at h
      obtain ⟨k', h', _, hk⟩ := deeper_some h
      exact (ih _ _ _ h').mono hk

theorem calls_counted {x y : Call} (h : Makes E x y) {f : Nat} {r : Res} {d : Nat}
    (hd : dRun E f x.ctx x.e x.fr x.c = some (r, d)) : ∃ k, d = k + 1 ∧ WithinCount E y k := by
  obtain ⟨g, k, rfl, rfl, hs⟩ := dRun_succ hd
  refine ⟨k, rfl, ?_⟩
  cases h with
  | @action ctx a e fr c =>
    simp only [dStep] at hs
    rcases he : dRun E g ctx e fr c with _ | ⟨r', d'⟩
    · rw [he] at hs; cases hs
    · refine ⟨g, r', d', he, ?_⟩
      rw [he] at hs
      cases r' with
      | ok v c' fr' =>
        dsimp only at hs
        rcases hr : runAct E a fr' (textOf c c') c.loc with p | ⟨v, er⟩
        · rw [hr] at hs; cases hs; exact Nat.le_refl _
        · rw [hr] at hs; cases hs; exact Nat.le_refl _
      | fail c' => cases hs; exact Nat.le_refl _
      | panic p c' => cases hs; exact Nat.le_refl _
  | seq h => exact seqAt_counted h _ _ _ _ _ hs
  | choice h => exact choiceAt_counted h _ _ _ hs
  | @label ctx l e fr c =>
    simp only [dStep] at hs
    rcases he : dRun E g ctx e [] c with _ | ⟨r', d'⟩
    · rw [he] at hs; cases hs
    · refine ⟨g, r', d', he, ?_⟩
      rw [he] at hs
      cases r' <;> cases hs <;> exact Nat.le_refl _
  | @rule ctx x fr c =>
    simp only [dStep] at hs
    rcases he : dRun E g ctx (grammar x) [] c with _ | ⟨r', d'⟩
    · rw [he] at hs; cases hs
    · refine ⟨g, r', d', he, ?_⟩
      rw [he] at hs
      cases r' <;> cases hs <;> exact Nat.le_refl _
  | @not ctx e fr c =>
    simp only [dStep] at hs
    rcases he : dRun E g { ctx with inv := !ctx.inv } e [] c with _ | ⟨r', d'⟩
    · rw [he] at hs; cases hs
    · refine ⟨g, r', d', he, ?_⟩
      rw [he] at hs
      cases r' <;> cases hs <;> exact Nat.le_refl _
  | star h => exact repAt_counted h _ _ _ _ _ hs
  | plus h => exact repAt_counted h _ _ _ _ _ hs
  | @opt ctx e fr c =>
    simp only [dStep] at hs
    rcases he : dRun E g ctx e [] c with _ | ⟨r', d'⟩
    · rw [he] at hs; cases hs
    · refine ⟨g, r', d', he, ?_⟩
      rw [he] at hs
      cases r' <;> cases hs <;> exact Nat.le_refl _
  | recover => exact ⟨g, r, k, hs, Nat.le_refl _⟩
  | throw h => exact throwAt_counted h _ _ _ hs

theorem chain_counted {n : Nat} {x : Call} (h : Chain E n x) : ∀ f r d,
    dRun E f x.ctx x.e x.fr x.c = some (r, d) → n ≤ d := by
  induction h with
  | one => intro f r d hd; exact dRun_pos hd
  | more hc _ ih =>
    intro f r d hd
    obtain ⟨k, rfl, f', r', d', hd', hle⟩ := calls_counted hc hd
    have := ih _ _ _ hd'
    omega

end Aql
