import Verif.Proofs.Memo
import Verif.Proofs.Limit
/-!
The run with `Memoize`, compared with the run without it: the expressions whose labels are not looked up.
-/

namespace Aql

variable {E : Env} {I : List Sym}

/-! ### The context of an expression -/

/-- A context: the inversion and which recovery is on the stack (1 for strings, 2 for patterns). -/
abbrev CCode := Bool × Nat

def CCode.octx : CCode → OCtx
  | (b, 1) => ⟨b, [(.errUntermStr, (.QuotedValue, [1]), .rule .ErrUntermStr)]⟩
  | (b, 2) => ⟨b, [(.errUntermRegex, (.RegexValue, [1]), .rule .ErrUntermRegex)]⟩
  | (b, _) => ⟨b, []⟩

def CCode.ctx (k : CCode) : Ctx := k.octx.forget

/-- The context in which a rule is evaluated (`EOF`: where it is not evaluated at the end of a query). -/
def ruleCode : Rule → CCode
  | .EndingQuote | .EscapeSequence | .SingleCharEscape | .UnicodeEscape | .HexDigit | .ErrUntermStr => (false, 1)
  | .EscapedChar => (true, 1)
  | .RegexChar | .RegexEscape | .EndingSlash | .ErrUntermRegex => (false, 2)
  | .EOL | .EOF => (true, 2)
  | _ => (false, 0)

/-- The context in which the child of an expression is evaluated. -/
def childCode (k : CCode) : PExpr → CCode
  | .not _ => (!k.1, k.2)
  | .recover .errUntermStr _ _ => (k.1, 1)
  | .recover .errUntermRegex _ _ => (k.1, 2)
  | _ => k

def pathCode (r : Rule) : List Nat → CCode
  | [] => ruleCode r
  | _ :: p => ((pathAt r p).map (childCode (pathCode r p))).getD (pathCode r p)

/-- The context in which the expression at an address is evaluated. -/
def codeAt (n : NodeId) : CCode := pathCode n.1 n.2

theorem codeAt_child {n : NodeId} {e : PExpr} (h : nodeAt n = some e) (i : Nat) :
    codeAt (n.child i) = childCode (codeAt n) e := by
  unfold nodeAt at h
  simp [codeAt, NodeId.child, pathCode, h]

/-- The rules without clauses. -/
def lexR : Rule → Bool
  | .Start | .Query | .OrClause | .AndClause | .NotClause | .Comparison | .ValueList => false
  | _ => true

mutual
/-- Expressions of such rules. Mode 0: no label is set; mode 1: a label is only set right under an action that is
at the top; mode 2: the label itself. -/
def lexM : Nat → PExpr → Bool
  | 1, .action _ e => lexM 2 e
  | _, .action _ e => lexM 0 e
  | _, .seq es => lexAll 0 es
  | _, .choice es => lexAll 1 es
  | 2, .label _ e => lexM 1 e
  | _, .label _ _ => false
  | _, .rule r => lexR r
  | _, .not e => lexM 1 e
  | _, .star e => lexM 1 e
  | _, .plus e => lexM 1 e
  | _, .opt e => lexM 1 e
  | _, .recover _ e h => lexM 0 e && lexM 0 h
  | _, _ => true
def lexAll (m : Nat) : List PExpr → Bool
  | [] => true
  | e :: es => lexM m e && lexAll m es
end

/-- Sets no label. -/
abbrev lexN (e : PExpr) : Bool := lexM 0 e
/-- Sets a label at most right under an action. -/
abbrev lexE (e : PExpr) : Bool := lexM 1 e

theorem lexR_ok (r : Rule) (h : lexR r = true) : lexE (grammar r) = true := by
  cases r <;> first | rfl | cases h

theorem lexN_E {e : PExpr} (h : lexN e = true) : lexE e = true := by
  cases e <;> first | exact h | skip
  rename_i a e
  cases e <;> first | exact h | skip
  cases h

/-- Either no label is set, or it is an action with a label under it. -/
theorem lexE_cases {e : PExpr} (h : lexE e = true) : lexN e = true ∨ ∃ a x e', e = .action a (.label x e') ∧ lexE e' = true := by
  cases e <;> first | exact .inl h | skip
  rename_i a e
  cases e <;> first | exact .inl h | exact .inr ⟨_, _, _, rfl, h⟩

/-! ### Facts about the addresses -/

/-- The cursor is right behind a backslash. -/
def AfterBs (I : List Sym) (c : Cursor) : Prop := ∃ c0 t, OnInput I c0 ∧ c0.rest = .ok '\\' :: t ∧ c0.next = c

/-- These expressions are only evaluated right behind a backslash. -/
def bsNeed (n : NodeId) : Bool := n.1 == .EOF || (n.1 == .RegexEscape && n.2 != [1]) || n == (.RegexChar, [1, 1])

def addrCheck (n : NodeId) : Bool :=
  match nodeAt n with
  | some (.rule q) => (n.1 == .Start) || (codeAt n == ruleCode q && (!bsNeed (q, []) || bsNeed n))
  | some (.throw .errUntermStr) => codeAt n == (false, 1)
  | some (.throw .errUntermRegex) => codeAt n == (false, 2)
  | some (.recover .errUntermStr _ h) =>
    n == (.QuotedValue, []) && (match h with | .rule .ErrUntermStr => true | _ => false)
  | some (.recover .errUntermRegex _ h) =>
    n == (.RegexValue, []) && (match h with | .rule .ErrUntermRegex => true | _ => false)
  | some (.seq es) => (List.range es.length).all fun i =>
    !bsNeed (n.child i) || (i == 0 && bsNeed n) || (n == (.RegexChar, [1]) && i == 1)
  | some (.choice es) => (List.range es.length).all fun i => !bsNeed (n.child i) || bsNeed n
  | some (.star _) => !bsNeed (n.child 0)
  | some (.plus _) => !bsNeed (n.child 0)
  | some (.action _ _) => !bsNeed (n.child 0) || bsNeed n
  | some (.label _ _) => !bsNeed (n.child 0) || bsNeed n
  | some (.not _) => !bsNeed (n.child 0) || bsNeed n
  | some (.opt _) => !bsNeed (n.child 0) || bsNeed n
  | _ => true

theorem addrCheck_all : allNodes.all addrCheck = true := by decide +kernel

theorem addrCheck_ok {n : NodeId} {e : PExpr} (h : nodeAt n = some e) : addrCheck n = true :=
  List.all_eq_true.1 addrCheck_all n (mem_allNodes h)

/-- Is the parent of the expression an action? -/
def parentAct (n : NodeId) : Bool :=
  match n.2 with
  | [] => false
  | _ :: p => match pathAt n.1 p with
    | some (.action _ _) => true
    | _ => false

/-- Clauses and what sets their labels. -/
def tracked : MKey → Bool
  | .rule q => !lexR q
  | .node n => !lexR n.1 && match nodeAt n with
    | some (.label _ _) => !parentAct n
    | some e => !lexE e
    | none => false

theorem untracked_lex {n : NodeId} {e : PExpr} (h : nodeAt n = some e) (hl : lexE e = true) :
    tracked (.node n) = false := by
  unfold tracked
  dsimp only
  rw [h]
  cases e <;> simp_all [lexM]

theorem untracked_label {n : NodeId} {a : Act} {e : PExpr} {x : PLabel} (h : nodeAt n = some (.action a (.label x e))) :
    tracked (.node (n.child 0)) = false := by
  have h' : nodeAt (n.child 0) = some (.label x e) := nodeAt_child h rfl
  unfold tracked
  dsimp only
  rw [h']
  unfold nodeAt at h
  simp [parentAct, NodeId.child, h]

/-! ### The table -/

/-- The failed and successful tests of a log are in another log. -/
def SubLog (l L : List Ev) : Prop := ∀ b i p w, Ev.mark b i p w ∈ l → Ev.mark b i p w ∈ L

theorem SubLog.trans {a b c : List Ev} (h : SubLog a b) (h' : SubLog b c) : SubLog a c :=
  fun _ _ _ _ hm => h' _ _ _ _ (h _ _ _ _ hm)

theorem subLog_left (a b : List Ev) : SubLog a (a ++ b) := fun _ _ _ _ h => List.mem_append_left _ h
theorem subLog_right (a b : List Ev) : SubLog b (a ++ b) := fun _ _ _ _ h => List.mem_append_right _ h
theorem subLog_nil (a : List Ev) : SubLog [] a := fun _ _ _ _ h => by cases h

theorem SubLog.append {a b c : List Ev} (h : SubLog a c) (h' : SubLog b c) : SubLog (a ++ b) c :=
  fun _ _ _ _ hm => (List.mem_append.1 hm).elim (h _ _ _ _) (h' _ _ _ _)

/-- The result without its labels is that of the entry. -/
def Res.Is : Res → MRes → Prop
  | .ok v c _, .ok v' c' => v = v' ∧ c = c'
  | .fail c, .fail c' => c = c'
  | _, _ => False

/-- The results agree, apart from labels. -/
def Res.Same : Res → ORes → Prop
  | .ok v c _, .ok v' c' _ => v = v' ∧ c = c'
  | .fail c, .fail c' => c = c'
  | .panic p c, .panic (some p') c' => p = p' ∧ c = c'
  | _, _ => False

def Res.noFr : Res → Prop
  | .ok _ _ fr => fr = []
  | _ => True

def ORes.noFr : ORes → Prop
  | .ok _ _ fr => fr = []
  | _ => True

def Res.alive : Res → Prop
  | .panic .. => False
  | _ => True

/-- The entry is the result of the run without the option, which records no errors, and whose tests are in the log. -/
def Entry (E : Env) (Lg : List Ev) (c : Cursor) : MKey → MRes → Prop
  | .node n, m => ∀ e, nodeAt n = some e → ∃ l r, Big E (codeAt n).ctx (.expr e []) c l r ∧ r.Is m ∧ errorsOf l = [] ∧
      SubLog l Lg ∧ (lexN e = true → r.noFr)
  | .rule q, m => ∃ l r, Big E (ruleCode q).ctx (.expr (grammar q) []) c l r ∧ r.Is m ∧ errorsOf l = [] ∧ SubLog l Lg

theorem Entry.mono {Lg Lg' : List Ev} {c : Cursor} {k : MKey} {m : MRes} (h : Entry E Lg c k m) (hs : SubLog Lg Lg') :
    Entry E Lg' c k m := by
  cases k with
  | node n =>
    intro e he
    obtain ⟨l, r, h1, h2, h3, h4, h5⟩ := h e he
    exact ⟨l, r, h1, h2, h3, h4.trans hs, h5⟩
  | rule q =>
    obtain ⟨l, r, h1, h2, h3, h4⟩ := h
    exact ⟨l, r, h1, h2, h3, h4.trans hs⟩

def eofKey : MKey → Bool
  | .rule q => q == .EOF
  | .node n => n.1 == .EOF

/-- What holds of the table. -/
structure MInv (E : Env) (I : List Sym) (s : PState) (Lg : List Ev) : Prop where
  sound : ∀ off k m, s.memo.lookup (off, k) = some m → ∀ c, OnInput I c → c.loc.off = off → Entry E Lg c k m
  closed : ∀ off n a x e, nodeAt n = some (.action a (.label x e)) → s.memo.lookup (off, .node (n.child 0)) ≠ none →
    s.memo.lookup (off, .node n) ≠ none
  back : ∀ off k, eofKey k = true → s.memo.lookup (off, k) ≠ none → ∀ c, OnInput I c → c.loc.off = off → AfterBs I c

theorem MInv.mono {s : PState} {Lg Lg' : List Ev} (h : MInv E I s Lg) (hs : SubLog Lg Lg') : MInv E I s Lg' :=
  ⟨fun off k m hl c hc ho => (h.sound off k m hl c hc ho).mono hs, h.closed, h.back⟩

theorem MInv.cnt {s : PState} {Lg : List Ev} (h : MInv E I s Lg) (k : Nat) : MInv E I ⟨k, s.memo⟩ Lg :=
  ⟨h.sound, h.closed, h.back⟩

/-- Not the label of an action. -/
def NotLab (k : MKey) : Prop := ∀ n a x e, nodeAt n = some (.action a (.label x e)) → k ≠ .node (n.child 0)

theorem child_inj {n n' : NodeId} {i j : Nat} (h : n.child i = n'.child j) : n = n' ∧ i = j := by
  unfold NodeId.child at h
  simp only [Prod.mk.injEq, List.cons.injEq] at h
  exact ⟨Prod.ext h.1 h.2.2, h.2.1⟩

theorem notLab_of {n : NodeId} {e : PExpr} (h : nodeAt n = some e) (hl : ∀ x e', e ≠ .label x e') : NotLab (.node n) := by
  intro n' a x e' h' he
  cases he
  rw [nodeAt_child h' rfl] at h
  cases h
  exact hl _ _ rfl

theorem MInv.set {s : PState} {Lg : List Ev} {k : MKey} {m : MRes} {c : Cursor} (h : MInv E I s Lg) (hc : OnInput I c)
    (he : Entry E Lg c k m) (hl : NotLab k) (hb : eofKey k = true → AfterBs I c) :
    MInv E I (setMemoized c k m s) Lg := by
  refine ⟨?_, ?_, ?_⟩
  · intro off k' m' hl' c' hc' ho
    rw [lookup_set] at hl'
    split at hl'
    · rename_i hh
      cases hl'
      cases hh
      rw [hc'.inj hc ho]
      exact he
    · exact h.sound off k' m' hl' c' hc' ho
  · intro off n a x e hn hl'
    rw [lookup_set] at hl' ⊢
    split
    · simp
    · split at hl'
      · rename_i hh
        cases hh
        exact absurd rfl (hl n a x e hn)
      · exact h.closed off n a x e hn hl'
  · intro off k' hk' hl' c' hc' ho
    rw [lookup_set] at hl'
    split at hl'
    · rename_i hh
      cases hh
      rw [hc'.inj hc ho]
      exact hb hk'
    · exact h.back off k' hk' hl' c' hc' ho

/-- The label and then its action. -/
theorem MInv.set2 {s : PState} {Lg : List Ev} {n : NodeId} {a : Act} {x : PLabel} {e : PExpr} {m m' : MRes} {c : Cursor}
    (h : MInv E I s Lg) (hc : OnInput I c) (hn : nodeAt n = some (.action a (.label x e)))
    (he : Entry E Lg c (.node (n.child 0)) m) (he' : Entry E Lg c (.node n) m')
    (hb : n.1 = .EOF → AfterBs I c) :
    MInv E I (setMemoized c (.node n) m' (setMemoized c (.node (n.child 0)) m s)) Lg := by
  refine ⟨?_, ?_, ?_⟩
  · intro off k' m1 hl' c' hc' ho
    rw [lookup_set, lookup_set] at hl'
    split at hl'
    · rename_i hh
      cases hl'; cases hh
      rw [hc'.inj hc ho]
      exact he'
    · split at hl'
      · rename_i hh
        cases hl'; cases hh
        rw [hc'.inj hc ho]
        exact he
      · exact h.sound off k' m1 hl' c' hc' ho
  · intro off n' a' x' e1 hn' hl'
    rw [lookup_set] at hl' ⊢
    split
    · simp
    · rename_i hne
      split at hl'
      · rename_i hh
        simp only [Prod.mk.injEq, MKey.node.injEq] at hh
        rw [← hh.2] at hn
        rw [nodeAt_child hn' rfl] at hn
        cases hn
      · rw [lookup_set] at hl' ⊢
        split
        · simp
        · split at hl'
          · rename_i hh
            simp only [Prod.mk.injEq, MKey.node.injEq] at hh
            obtain ⟨rfl, hh⟩ := hh
            rw [(child_inj hh).1] at hne
            exact absurd rfl hne
          · exact h.closed off n' a' x' e1 hn' hl'
  · intro off k' hk' hl' c' hc' ho
    rw [lookup_set, lookup_set] at hl'
    split at hl'
    · rename_i hh
      cases hh
      rw [hc'.inj hc ho]
      exact hb (by simpa [eofKey] using hk')
    · split at hl'
      · rename_i hh
        cases hh
        rw [hc'.inj hc ho]
        exact hb (by simpa [eofKey, NodeId.child] using hk')
      · exact h.back off k' hk' hl' c' hc' ho

/-- No entry of a clause is added. -/
def Untr (s s' : PState) : Prop := ∀ off k, tracked k = true → s'.memo.lookup (off, k) = s.memo.lookup (off, k)

theorem Untr.set {s s' : PState} (h : Untr s s') {k : MKey} (hk : tracked k = false) (c : Cursor) (m : MRes) :
    Untr s (setMemoized c k m s') := by
  intro off k' hk'
  rw [lookup_set, if_neg]
  · exact h off k' hk'
  · intro hh
    cases hh
    rw [hk] at hk'
    cases hk'

/-! ### Two runs that agree -/

/-- The two runs agree: they record the same first error, or no error; then the events of the second
run are some of those of the first, whose tests are in the log so far, the results agree, and the table stays fine. -/
def Sim (E : Env) (I : List Sym) (N : Bool) (T : PState → Prop) (Lg l : List Ev) (r : Res) (l' : List Ev) (r' : ORes)
    (s' : PState) : Prop :=
  (∃ x, (errorsOf l).head? = some x ∧ (errorsOf l').head? = some x) ∨
  (errorsOf l = [] ∧ errorsOf l' = [] ∧ SubLog l (Lg ++ l') ∧ l'.Sublist l ∧ r.Same r' ∧
    (N = true → r.noFr ∧ r'.noFr) ∧ (r.alive → MInv E I s' (Lg ++ l') ∧ T s'))

section
variable {N N' : Bool} {T T' : PState → Prop} {Lg l l' l2 l2' : List Ev} {r r2 : Res} {r' r2' : ORes} {s' s2 : PState}

theorem Sim.err (h : ∃ x, (errorsOf l).head? = some x ∧ (errorsOf l').head? = some x) :
    Sim E I N T Lg (l ++ l2) r (l' ++ l2') r' s' := by
  obtain ⟨x, h1, h2⟩ := h
  refine .inl ⟨x, ?_, ?_⟩
  · rw [errorsOf_append, List.head?_append, h1]; rfl
  · rw [errorsOf_append, List.head?_append, h2]; rfl

theorem Sim.err0 (h : ∃ x, (errorsOf l).head? = some x ∧ (errorsOf l').head? = some x) :
    Sim E I N T Lg l r (l' ++ l2') r' s' := by
  have := Sim.err (E := E) (I := I) (N := N) (T := T) (Lg := Lg) (r := r) (r' := r') (s' := s') (l2 := []) (l2' := l2') h
  rwa [List.append_nil] at this

theorem Sim.append (h1 : errorsOf l = []) (h2 : errorsOf l' = []) (h3 : SubLog l (Lg ++ l')) (h4 : l'.Sublist l)
    (h : Sim E I N T (Lg ++ l') l2 r l2' r' s') : Sim E I N T Lg (l ++ l2) r (l' ++ l2') r' s' := by
  rcases h with ⟨x, hx, hx'⟩ | ⟨a1, a2, a3, a4, a5, a6, a7⟩
  · refine .inl ⟨x, ?_, ?_⟩
    · rw [errorsOf_append, h1]; exact hx
    · rw [errorsOf_append, h2]; exact hx'
  · refine .inr ⟨by rw [errorsOf_append, h1, a1]; rfl, by rw [errorsOf_append, h2, a2]; rfl, ?_, ?_, a5, a6, ?_⟩
    · rw [← List.append_assoc]
      exact (h3.trans (subLog_left _ _)).append a3
    · exact h4.append a4
    · rw [← List.append_assoc]; exact a7

theorem Sim.tick (h : Sim E I N T Lg l r l' r' s') : Sim E I N T Lg (.tick :: l) r (.tick :: l') r' s' := by
  rcases h with ⟨x, hx, hx'⟩ | ⟨a1, a2, a3, a4, a5, a6, a7⟩
  · exact .inl ⟨x, hx, hx'⟩
  · have hs : SubLog (Lg ++ l') (Lg ++ .tick :: l') := (subLog_left _ _).append
      (fun _ _ _ _ h => List.mem_append_right _ (List.mem_cons_of_mem _ h))
    refine .inr ⟨a1, a2, ?_, ?_, a5, a6, fun h => ⟨(a7 h).1.mono hs, (a7 h).2⟩⟩
    · intro b i p w h
      simp only [List.mem_cons, reduceCtorEq, false_or] at h
      exact hs _ _ _ _ (a3 _ _ _ _ h)
    · exact a4.cons_cons _

theorem oAndThen_done {o : OOut} {k : ORes → PState → OOut} (h : o.andThen k = .done l r' s') :
    ∃ l1 r1 s1 l2, o = .done l1 r1 s1 ∧ k r1 s1 = .done l2 r' s' ∧ l = l1 ++ l2 := by
  unfold OOut.andThen at h
  split at h
  · cases h
  · rename_i l1 r1 s1
    split at h
    · cases h
    · rename_i l2 r2 s2 h2
      cases h
      exact ⟨_, _, _, _, rfl, h2, rfl⟩

theorem oTick_done {o : Opts} (ho : o.maxExprs = 0) {c : Cursor} {s : PState} {k : PState → OOut}
    (h : oTick o c s k = .done l r' s') : ∃ l2 cnt, k ⟨cnt, s.memo⟩ = .done l2 r' s' ∧ l = .tick :: l2 := by
  unfold oTick at h
  dsimp only at h
  rw [if_neg] at h
  · obtain ⟨l1, r1, s1, l2, h1, h2, rfl⟩ := oAndThen_done h
    cases h1
    exact ⟨l2, _, h2, rfl⟩
  · unfold Opts.limit
    rw [ho, if_pos rfl, show maxUint64 = 2 ^ 64 - 1 from rfl]
    have := Nat.mod_lt (s.cnt + 1) (show 0 < 2 ^ 64 by decide)
    omega

end

end Aql
