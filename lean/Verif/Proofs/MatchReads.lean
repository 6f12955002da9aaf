import Verif.Proofs.MatchCost
import Verif.Spec.MatchReads
/-! Lemmas for `C112_exact`: what is counted, without the order in which it is read. -/

namespace Aql
open Spec

variable {E : Env}

theorem memberCost_exact (k : Str) (ms : List (Str × Json)) :
    memberCost E k ms = ((membersRead E k ms).map fun m => m.1.length + m.2.weight + 1).sum := by
  induction ms with
  | nil => rfl
  | cons m ms ih =>
    obtain ⟨raw, v⟩ := m
    rw [memberCost, membersRead, List.findIdx_cons]
    cases hu : E.unescape raw with
    | none => simp [endsSearch, hu]
    | some key =>
      by_cases hk : key = k
      · simp [endsSearch, hu, hk]
      · have : endsSearch E k (raw, v) = false := by simp [endsSearch, hu, hk]
        rw [this]
        simp only [hk, if_false, cond_false, List.take_succ_cons, List.map_cons, List.sum_cons]
        rw [ih, membersRead]

theorem leadsTo_obj (k : Str) (ms : List (Str × Json)) : leadsTo E k (.obj ms) = getMember E k ms := by
  rw [leadsTo]
  induction ms with
  | nil => rfl
  | cons m ms ih =>
    obtain ⟨raw, v⟩ := m
    rw [getMember, List.find?_cons]
    cases hu : E.unescape raw with
    | none => simp [endsSearch, hu]
    | some key =>
      by_cases hk : key = k
      · simp [endsSearch, hu, hk]
      · have : endsSearch E k (raw, v) = false := by simp [endsSearch, hu, hk]
        rw [this]
        simp only [hk, if_false]
        exact ih

/-- What the search for one name reads in one object. -/
def nameReads (E : Env) (more : Bool) (k : Str) (o : Json) : Nat :=
  1 + ((membersRead E k (membersOf o)).map fun m => m.1.length + m.2.weight + 1).sum +
    if more then ((arrayUnder E k o).map Json.weight).sum else 0

/-- `searchReads` from several objects. -/
def pathReads (E : Env) (os : List Json) (path : List Str) : Nat :=
  ((List.range path.length).map fun i =>
    (((path.take i).foldl (fun os k => os.flatMap (objectsUnder E k)) os).map
      (nameReads E (decide (i + 1 < path.length)) (path.getD i []))).sum).sum

theorem searchReads_eq (d : Json) (path : List Str) : searchReads E Json.weight d path = pathReads E [d] path := by
  simp only [searchReads, pathReads, objectsAt]
  congr 1
  refine List.map_congr_left fun i _ => ?_
  congr 1
  refine List.map_congr_left fun o _ => ?_
  simp only [nameReads, decide_eq_true_eq]

theorem pathReads_cons (os : List Json) (k : Str) (rest : List Str) :
    pathReads E os (k :: rest) =
      (os.map (nameReads E (decide (0 < rest.length)) k)).sum + pathReads E (os.flatMap (objectsUnder E k)) rest := by
  simp [pathReads, List.range_succ_eq_map, Function.comp_def]

theorem pathReads_nil (path : List Str) : pathReads E [] path = 0 := by
  induction path with
  | nil => rfl
  | cons k rest ih => simp [pathReads_cons, ih]

theorem pathReads_append (path : List Str) : ∀ as bs, pathReads E (as ++ bs) path = pathReads E as path + pathReads E bs path := by
  induction path with
  | nil => intros; rfl
  | cons k rest ih =>
    intro as bs
    simp only [pathReads_cons, List.map_append, List.sum_append, List.flatMap_append, ih]
    omega

theorem flatMapCost_exact {k : Str} {rest : List Str}
    (h : ∀ ms, (getObjectCost E (k :: rest) (.obj ms)).1 = pathReads E [.obj ms] (k :: rest) ∧
      ∃ vs, (getObjectCost E (k :: rest) (.obj ms)).2 = .ok vs) (items : List Json) :
    let r := flatMapCost (fun o => if o.isObj then getObjectCost E (k :: rest) o else (0, .ok [])) items
    r.1 = pathReads E (items.filter Json.isObj) (k :: rest) ∧ ∃ vs, r.2 = .ok vs := by
  induction items with
  | nil => exact ⟨(pathReads_nil _).symm, [], rfl⟩
  | cons o items ih =>
    obtain ⟨i1, vs, i2⟩ := ih
    dsimp only at *
    rw [flatMapCost]
    cases o with
    | obj ms =>
      obtain ⟨h1, ws, h2⟩ := h ms
      simp only [show (Json.obj ms).isObj = true from rfl, if_true] at *
      rcases hc : getObjectCost E (k :: rest) (.obj ms) with ⟨n, r⟩
      rw [hc] at h1 h2
      dsimp only at h1 h2
      subst h2
      rcases hf : flatMapCost (fun o => if o.isObj then getObjectCost E (k :: rest) o else (0, .ok [])) items with ⟨n', r'⟩
      rw [hf] at i1 i2
      dsimp only at i1 i2
      subst i2
      simp only [hf]
      refine ⟨?_, _, rfl⟩
      rw [List.filter_cons_of_pos rfl, ← List.singleton_append, pathReads_append]
      rw [h1, i1]
    | _ =>
      rw [List.filter_cons_of_neg (by simp [Json.isObj]), if_neg (by simp [Json.isObj])]
      rcases hf : flatMapCost (fun o => if o.isObj then getObjectCost E (k :: rest) o else (0, .ok [])) items with ⟨n', r'⟩
      rw [hf] at i1 i2
      dsimp only at i1 i2
      subst i2
      simp only [hf]
      exact ⟨by omega, _, rfl⟩

theorem getObjectCost_exact : ∀ (path : List Str) (_ : path ≠ []) (ms : List (Str × Json)),
    (getObjectCost E path (.obj ms)).1 = pathReads E [.obj ms] path ∧ ∃ vs, (getObjectCost E path (.obj ms)).2 = .ok vs
  | [], h, _ => absurd rfl h
  | k :: rest, _, ms => by
    have hc : ∀ more, nameReads E more k (.obj ms) = getCost E (.obj ms) k +
        if more then ((arrayUnder E k (.obj ms)).map Json.weight).sum else 0 := by
      intro more
      rw [nameReads, getCost, memberCost_exact, membersOf]
      omega
    have hl := leadsTo_obj (E := E) k ms
    rw [getObjectCost, pathReads_cons, jsonGet]
    simp only [List.map_singleton, List.sum_singleton, List.flatMap_singleton, hc]
    have ha : arrayUnder E k (.obj ms) = match getMember E k ms with | some (.arr items) => [.arr items] | _ => [] := by
      rw [arrayUnder, hl]
      rcases getMember E k ms with _ | ⟨⟩ <;> rfl
    have ho : objectsUnder E k (.obj ms) = match getMember E k ms with
        | some (.obj ms') => [.obj ms'] | some (.arr items) => items.filter Json.isObj | _ => [] := by
      rw [objectsUnder, hl]
      rcases getMember E k ms with _ | ⟨⟩ <;> rfl
    rw [ha, ho]
    cases hg : getMember E k ms with
    | none => exact ⟨by simp [pathReads_nil], [], rfl⟩
    | some c =>
      cases rest with
      | nil => exact ⟨by simp [pathReads], [c], rfl⟩
      | cons k' rest =>
        have ih := getObjectCost_exact (k' :: rest) (by simp)
        cases c with
        | obj ms' =>
          obtain ⟨h1, h2⟩ := ih ms'
          exact ⟨by simp [h1], h2⟩
        | arr items =>
          obtain ⟨h1, h2⟩ := flatMapCost_exact ih items
          dsimp only at *
          exact ⟨by simp [h1], h2⟩
        | _ => exact ⟨by simp [pathReads_nil], [], rfl⟩

/-! ### tests -/

theorem anyCost_exact {α : Type} (cost : α → Nat) (p : α → GoM Bool) (xs : List α) :
    anyCost cost p xs = ((through (fun x => decide (p x ≠ .ok false)) xs).map cost).sum := by
  induction xs with
  | nil => rfl
  | cons x xs ih =>
    rw [anyCost, through, List.findIdx_cons]
    by_cases h : p x = .ok false
    · simp only [h, ih, through]; simp
    · have : decide (p x ≠ .ok false) = true := by simpa using h
      rw [this]
      split
      · exact absurd ‹_› h
      · simp

theorem scalarsCost_exact (vs : List Json) :
    scalarsCost vs = (vs.map fun v => if v.isArr then v.weight else 1).sum := by
  induction vs with
  | nil => rfl
  | cons v vs ih => cases v <;> simp [scalarsCost, ih, Json.isArr]

theorem foldl_flatMap_append {α β : Type} (f : β → α → List α) (ks : List β) : ∀ as bs : List α,
    ks.foldl (fun os k => os.flatMap (f k)) (as ++ bs) =
      ks.foldl (fun os k => os.flatMap (f k)) as ++ ks.foldl (fun os k => os.flatMap (f k)) bs := by
  induction ks with
  | nil => intros; rfl
  | cons k ks ih => intro as bs; simp only [List.foldl_cons, List.flatMap_append, ih]

theorem finals_append (path : List Str) (as bs : List Json) : finals E (as ++ bs) path = finals E as path ++ finals E bs path := by
  rw [finals, foldl_flatMap_append, List.filterMap_append, finals, finals]

theorem foldl_flatMap_nil {α β : Type} (f : β → α → List α) (ks : List β) :
    ks.foldl (fun os k => os.flatMap (f k)) ([] : List α) = [] := by
  induction ks with
  | nil => rfl
  | cons k ks ih => simpa using ih

theorem finals_nil (path : List Str) : finals E [] path = [] := by
  rw [finals, foldl_flatMap_nil]
  rfl

theorem finals_cons (os : List Json) (k k' : Str) (rest : List Str) :
    finals E os (k :: k' :: rest) = finals E (os.flatMap (objectsUnder E k)) (k' :: rest) := by
  simp [finals]

theorem flatMapGo_finals {k : Str} {rest : List Str}
    (h : ∀ ms, getObject E (k :: rest) (.obj ms) = .ok (finals E [.obj ms] (k :: rest))) (items : List Json) :
    flatMapGo (fun o => if o.isObj then getObject E (k :: rest) o else .ok []) items =
      .ok (finals E (items.filter Json.isObj) (k :: rest)) := by
  induction items with
  | nil => rw [flatMapGo, List.filter_nil, finals_nil]
  | cons o items ih =>
    rw [flatMapGo]
    cases o with
    | obj ms =>
      rw [if_pos (show (Json.obj ms).isObj = true from rfl), h ms, ih, List.filter_cons_of_pos rfl, ← List.singleton_append (l := items.filter Json.isObj), finals_append]
    | _ =>
      rw [List.filter_cons_of_neg (by simp [Json.isObj]), if_neg (by simp [Json.isObj]), ih]
      rfl

theorem getObject_finals : ∀ (path : List Str) (_ : path ≠ []) (ms : List (Str × Json)),
    getObject E path (.obj ms) = .ok (finals E [.obj ms] path)
  | [], h, _ => absurd rfl h
  | k :: rest, _, ms => by
    have hl := leadsTo_obj (E := E) k ms
    rw [getObject, jsonGet]
    cases rest with
    | nil =>
      have : finals E [.obj ms] [k] = (leadsTo E k (.obj ms)).toList := by
        cases h : leadsTo E k (.obj ms) <;> simp [finals, h]
      rw [this, hl]
      cases getMember E k ms <;> rfl
    | cons k' rest =>
      have ih := getObject_finals (k' :: rest) (by simp)
      rw [finals_cons, List.flatMap_singleton, objectsUnder, hl]
      cases getMember E k ms with
      | none => simp only [finals_nil]
      | some c =>
        cases c with
        | obj ms' => exact ih ms'
        | arr items => exact flatMapGo_finals ih items
        | _ => simp only [finals_nil]

/-! ### the tree -/

theorem cost_exact (e : FieldExpr) (values : List Json) : e.cost E values = testReads E values e := by
  have hn : anyCost (fun _ => 1) (fun v => .ok (!v.isNull)) values = (through (fun v : Json => !v.isNull) values).length := by
    rw [anyCost_exact]
    have : (fun x : Json => decide ((.ok (!x.isNull) : GoM Bool) ≠ .ok false)) = fun v => !v.isNull := by
      funext v
      cases v.isNull <;> simp
    rw [this]
    simp
  cases e <;> simp only [FieldExpr.cost, testReads, hn, scalarsCost_exact, anyCost_exact]

theorem exprCost_exact {path : List Str} {es : List FieldExpr} {name : Str} {ms : List (Str × Json)} (hp : path ≠ []) :
    ((BoolNode.expr path es name).cost E (.obj ms)).1 = ownReads E (.obj ms) (.expr path es name) := by
  obtain ⟨h1, -⟩ := getObjectCost_exact (E := E) path hp ms
  have h2 := getObjectCost_result (E := E) path (.obj ms)
  rw [getObject_finals path hp] at h2
  rw [BoolNode.cost, exprCost, ownReads, searchReads_eq]
  rcases hc : getObjectCost E path (.obj ms) with ⟨n, r⟩
  rw [hc] at h1 h2
  dsimp only at h1 h2
  subst h1 h2
  dsimp only
  by_cases hv : finals E [.obj ms] path = []
  · rw [hv]; simp; omega
  · rw [if_pos (List.length_pos_iff.2 hv), if_neg hv, anyCost_exact]
    have : (fun m : FieldExpr => m.cost E (finals E [.obj ms] path)) = testReads E (finals E [.obj ms] path) :=
      funext fun m => cost_exact m _
    simp only [this]
    omega

theorem partAt_append : ∀ (b : BoolNode) (a a' : Addr), partAt b (a ++ a') = (partAt b a).bind (partAt · a')
  | b, [], a' => by simp [partAt]
  | .and l r, false :: a, a' => partAt_append l a a'
  | .and l r, true :: a, a' => partAt_append r a a'
  | .or l r, false :: a, a' => partAt_append l a a'
  | .or l r, true :: a, a' => partAt_append r a a'
  | .not e, false :: a, a' => partAt_append e a a'
  | .not e, true :: a, a' => partAt_append e a a'
  | .expr .., _ :: _, _ => by simp [partAt]
  | .nil, _ :: _, _ => by simp [partAt]

theorem checkedReads_append (d : Json) (root : BoolNode) (s t : List Tick) :
    checkedReads E d root (s ++ t) = checkedReads E d root s + checkedReads E d root t := by
  simp [checkedReads]

theorem checkedReads_mark {d : Json} {root b : BoolNode} {a : Addr} (h : partAt root a = some b) (r : Bool) :
    checkedReads E d root (markTicks a r) = ownReads E d b := by
  cases r <;> simp [checkedReads, markTicks, checkedAddr, h, List.filterMap_cons]

theorem tree_exact {ms : List (Str × Json)} (root b : BoolNode) : ∀ (a : Addr), partAt root a = some b →
    ∀ ts r, b.result E (.obj ms) a = (ts, .ok r) → (b.cost E (.obj ms)).1 = checkedReads E (.obj ms) root ts := by
  induction b with
  | and p q ihp ihq =>
    intro a ha ts r h
    have h2 := cost_result (E := E) p (.obj ms) (a ++ [false])
    have hp := ihp (a ++ [false]) (by rw [partAt_append, ha]; simp [partAt])
    have hq := ihq (a ++ [true]) (by rw [partAt_append, ha]; simp [partAt])
    rw [BoolNode.result] at h
    rw [BoolNode.cost]
    rcases hc : p.cost E (.obj ms) with ⟨n, e | _ | _⟩ <;>
      rcases hr : p.result E (.obj ms) (a ++ [false]) with ⟨t, e' | _ | _⟩ <;>
      rw [hc, hr] at h2 <;> cases h2 <;> rw [hr] at h <;> dsimp only at h
    · cases h
    · cases h
      have := hp _ _ hr
      rw [hc] at this
      rw [checkedReads_append, checkedReads_mark ha, ← this]
      rfl
    · rcases hr' : q.result E (.obj ms) (a ++ [true]) with ⟨t', e' | x⟩ <;> rw [hr'] at h <;> cases h
      have h1 := hp _ _ hr
      have h2 := hq _ _ hr'
      rw [hc] at h1
      rw [checkedReads_append, checkedReads_append, checkedReads_mark ha, ← h1, ← h2]
      rfl
  | or p q ihp ihq =>
    intro a ha ts r h
    have h2 := cost_result (E := E) p (.obj ms) (a ++ [false])
    have hp := ihp (a ++ [false]) (by rw [partAt_append, ha]; simp [partAt])
    have hq := ihq (a ++ [true]) (by rw [partAt_append, ha]; simp [partAt])
    rw [BoolNode.result] at h
    rw [BoolNode.cost]
    rcases hc : p.cost E (.obj ms) with ⟨n, e | _ | _⟩ <;>
      rcases hr : p.result E (.obj ms) (a ++ [false]) with ⟨t, e' | _ | _⟩ <;>
      rw [hc, hr] at h2 <;> cases h2 <;> rw [hr] at h <;> dsimp only at h
    · cases h
    · rcases hr' : q.result E (.obj ms) (a ++ [true]) with ⟨t', e' | x⟩ <;> rw [hr'] at h <;> cases h
      have h1 := hp _ _ hr
      have h2 := hq _ _ hr'
      rw [hc] at h1
      rw [checkedReads_append, checkedReads_append, checkedReads_mark ha, ← h1, ← h2]
      rfl
    · cases h
      have := hp _ _ hr
      rw [hc] at this
      rw [checkedReads_append, checkedReads_mark ha, ← this]
      rfl
  | not p ih =>
    intro a ha ts r h
    have h2 := cost_result (E := E) p (.obj ms) (a ++ [false])
    have hp := ih (a ++ [false]) (by rw [partAt_append, ha]; simp [partAt])
    rw [BoolNode.result] at h
    rw [BoolNode.cost]
    rcases hc : p.cost E (.obj ms) with ⟨n, e | x⟩ <;>
      rcases hr : p.result E (.obj ms) (a ++ [false]) with ⟨t, e' | y⟩ <;>
      rw [hc, hr] at h2 <;> cases h2 <;> rw [hr] at h <;> cases h
    have := hp _ _ hr
    rw [hc] at this
    rw [checkedReads_append, checkedReads_mark ha, ← this]
    rfl
  | expr path es name =>
    intro a ha ts r h
    have hp : path ≠ [] := by
      rintro rfl
      simp [BoolNode.result, exprResult, getField, getObject] at h
    rw [BoolNode.result] at h
    rcases hx : exprResult E path es (.obj ms) with e | x <;> rw [hx] at h <;> cases h
    rw [checkedReads_mark ha, exprCost_exact hp]
  | nil =>
    intro a ha ts r h
    cases h

end Aql
