import Verif.Model.SamplerRecover
import Verif.Props.Sampler
/-!
Lemmas about samplers that are used after a panic.
-/

namespace Aql

/-- What `Sample` returns, if it does. -/
def ended {α : Type} : α × Fate → GoM (α × Bool)
  | (a, .returns e) => .ok (a, e)
  | (_, .panics p) => .error p

mutual

theorem runV_ended (m : Int) : ∀ (v : SJson) (path : Str) (d : Int) (keys : Option KeyMap),
    sampleV m v path d keys = ended (runV m v path d keys)
  | .obj ms closed, path, d, keys => by
    simp only [sampleV, runV]
    split
    · rfl
    · exact runMembers_ended m ms closed path d keys
  | .arr items closed, path, d, keys => by
    simp only [sampleV, runV]
    split
    · rfl
    · exact runItems_ended m items closed path d keys false
  | .unknown, path, d, keys => rfl
  | .scalar, path, d, keys => by
    simp only [sampleV, runV]
    split
    · rfl
    · cases record path keys <;> rfl

theorem runMembers_ended (m : Int) : ∀ (ms : List (Str × SJson)) (closed : Bool) (path : Str) (d : Int)
    (keys : Option KeyMap), sampleMembers m ms closed path d keys = ended (runMembers m ms closed path d keys)
  | [], closed, path, d, keys => rfl
  | (k, v) :: ms, closed, path, d, keys => by
    simp only [sampleMembers, runMembers, runV_ended m v]
    rcases runV m v (path ++ keyPart k) (d + 1) keys with ⟨keys', e | p⟩
    · cases e
      · exact runMembers_ended m ms closed path d keys'
      · rfl
    · rfl

theorem runItems_ended (m : Int) : ∀ (vs : List SJson) (closed : Bool) (path : Str) (d : Int) (keys : Option KeyMap)
    (aerr : Bool), sampleItems m vs closed path d keys aerr = ended (runItems m vs closed path d keys aerr)
  | [], closed, path, d, keys, aerr => rfl
  | v :: vs, closed, path, d, keys, aerr => by
    simp only [sampleItems, runItems, runV_ended m v]
    split
    · exact runItems_ended m vs closed path d keys aerr
    split
    · exact runItems_ended m vs closed path d keys aerr
    rcases runV m v path d keys with ⟨keys', e | p⟩
    · exact runItems_ended m vs closed path d keys' e
    · rfl

end

theorem run_ended (s : Sampler) (d : SampleIn) : s.sample d = ended (s.run d) := by
  have hf : ∀ r, s.finish (ended r) = ended (s.close r) := by
    rintro ⟨keys, e | p⟩
    · cases e <;> rfl
    · rfl
  cases d with
  | empty => rfl
  | rejected => rfl
  | object ms closed => simp only [Sampler.sample, Sampler.run, runV_ended, hf]
  | array items closed => simp only [Sampler.sample, Sampler.run, runV_ended, hf]

/-- Below a path that is not empty nothing panics while there is a map. -/
theorem runV_returns {m : Int} {v : SJson} {path : Str} {d : Int} {M : KeyMap} (h : path ≠ []) :
    ∃ M' e, runV m v path d (some M) = (some M', .returns e) := by
  obtain ⟨M', e, h'⟩ := sampleV_total m v path d M h
  rw [runV_ended] at h'
  rcases hr : runV m v path d (some M) with ⟨keys', e' | p⟩ <;> rw [hr] at h' <;> cases h'
  exact ⟨M', e, rfl⟩

theorem runMembers_returns {m : Int} {ms : List (Str × SJson)} {closed : Bool} {path : Str} {d : Int} {M : KeyMap} :
    ∃ M' e, runMembers m ms closed path d (some M) = (some M', .returns e) := by
  obtain ⟨M', e, h'⟩ := sampleMembers_total m ms closed path d M
  rw [runMembers_ended] at h'
  rcases hr : runMembers m ms closed path d (some M) with ⟨keys', e' | p⟩ <;> rw [hr] at h' <;> cases h'
  exact ⟨M', e, rfl⟩

theorem runItems_erred {m : Int} (vs : List SJson) {closed : Bool} {path : Str} {d : Int} {keys : Option KeyMap} :
    ∃ e, runItems m vs closed path d keys true = (keys, .returns e) := by
  induction vs with
  | nil => exact ⟨_, rfl⟩
  | cons v vs ih => obtain ⟨e, ih⟩ := ih; exact ⟨e, by simp only [runItems, if_true, ih]⟩

/-- A panic among elements of the document: there is a first scalar, and what was counted is what the elements before it
have. -/
theorem runItems_panics {m : Int} (hm : 0 ≤ m) {closed : Bool} {p : GoPanic} : ∀ (vs : List SJson) (M : KeyMap)
    (keys : Option KeyMap), runItems m vs closed [] 0 (some M) false = (keys, .panics p) →
    p = .outOfRange ∧ ∃ before after, vs = before ++ .scalar :: after ∧ (∀ v ∈ before, v ≠ .scalar) ∧
      runItems m before true [] 0 (some M) false = (keys, .returns false) := by
  intro vs
  induction vs with
  | nil => intro M keys h; simp [runItems] at h
  | cons v vs ih =>
    intro M keys h
    have hm' : ¬ (0 : Int) > m := by omega
    have step : v ≠ .scalar → (∃ M', runItems m vs closed [] 0 (some M') false = (keys, .panics p) ∧
        ∀ before, runItems m (v :: before) true [] 0 (some M) false = runItems m before true [] 0 (some M') false) →
        p = .outOfRange ∧ ∃ before after, v :: vs = before ++ .scalar :: after ∧ (∀ v ∈ before, v ≠ .scalar) ∧
      runItems m before true [] 0 (some M) false = (keys, .returns false) := by
      rintro hv ⟨M', h1, h2⟩
      obtain ⟨hp, before, after, rfl, h3, h4⟩ := ih M' keys h1
      refine ⟨hp, v :: before, after, rfl, ?_, by rw [h2, h4]⟩
      intro w hw
      rcases List.mem_cons.1 hw with rfl | hw
      · exact hv
      · exact h3 w hw
    cases v with
    | scalar =>
      simp only [runItems, Bool.false_eq_true, if_false, SJson.isArr, runV, hm', record, Prod.mk.injEq, Fate.panics.injEq] at h
      obtain ⟨rfl, rfl⟩ := h
      exact ⟨rfl, [], vs, rfl, by simp, rfl⟩
    | unknown =>
      simp only [runItems, Bool.false_eq_true, if_false, SJson.isArr, runV, hm', decide_false, Bool.not_false] at h
      obtain ⟨e, he⟩ := runItems_erred (m := m) vs (closed := closed) (path := []) (d := 0) (keys := some M)
      rw [he] at h
      simp at h
    | arr items c =>
      simp only [runItems, Bool.false_eq_true, if_false, SJson.isArr, if_true] at h
      exact step (by simp) ⟨M, h, fun before => by simp [runItems, SJson.isArr]⟩
    | obj ms c =>
      simp only [runItems, Bool.false_eq_true, if_false, SJson.isArr, runV, hm'] at h
      obtain ⟨M', e, hr⟩ := runMembers_returns (m := m) (ms := ms) (closed := c) (path := []) (d := 0) (M := M)
      rw [hr] at h
      cases e with
      | true =>
        obtain ⟨e, he⟩ := runItems_erred (m := m) vs (closed := closed) (path := []) (d := 0) (keys := some M')
        simp only [he] at h
        simp at h
      | false => exact step (by simp) ⟨M', h, fun before => by simp [runItems, SJson.isArr, runV, hm', hr]⟩

end Aql
