import Verif.Model.Cmd
import Verif.Props.Tree
import Verif.Props.Stats
import Verif.Props.Panics
import Verif.Props.Texts
/-!
Properties C78 to C80: the command line programs aqltest and aqlgraph.
-/

namespace Aql

open Spec

variable (E : Env) (W : World) (spare : Nat) (short : Bool)

/-! ### C79 -/

/-- What is known about the end of a comparison: it is not the letter `l`, unless the text ends with
`null`. -/
def Closes (s : Str) : Prop := ∃ p x, s = p ++ [x] ∧ (x = 'l' → ∃ p', s = p' ++ "null".toList)

theorem Closes.after {s : Str} (h : Closes s) (t : Str) : Closes (t ++ s) := by
  obtain ⟨p, x, h1, h2⟩ := h
  refine ⟨t ++ p, x, by rw [h1]; simp, fun hx => ?_⟩
  obtain ⟨p', hp⟩ := h2 hx
  exact ⟨t ++ p', by rw [hp]; simp⟩

theorem closes_of_ne (p : Str) {x : Char} (h : x ≠ 'l') : Closes (p ++ [x]) :=
  ⟨p, x, rfl, fun hx => absurd hx h⟩

theorem Closes.cons {s : Str} (h : Closes s) (c : Char) : Closes (c :: s) := h.after [c]

theorem closes_digits {s : Str} (h : AllDigits s) (hne : s ≠ []) : Closes s := by
  refine ⟨s.dropLast, s.getLast hne, (List.dropLast_append_getLast hne).symm, fun hx => ?_⟩
  have := h _ (List.getLast_mem hne)
  rw [hx] at this
  exact absurd this (by decide)

theorem closes_numeral (n : Nat) : Closes (numeral n) := by
  refine closes_digits (fun c hc => ?_) (numeral_ne_nil n)
  have := numeral_digits n c hc
  simpa [isDig] using this

theorem closes_addr {s : Str} {a : Nat} (h : AddrText s a) : Closes s := by
  obtain ⟨w, x, y, z, -, -, -, -, rfl, -⟩ := h
  exact (((((((closes_numeral z).cons _).after _).cons _).after _).cons _).after _)

theorem closes_len {s : Str} {n : Nat} (h : s.length = n + 1) : s ≠ [] := by
  rintro rfl
  simp at h

theorem closes_date {s : Str} {x : Date} (h : DateText s x) : Closes s := by
  obtain ⟨a, b, c, -, -, -, -, hc, hl, rfl, -⟩ := h
  exact ((((closes_digits hc (closes_len hl)).cons _).after _).cons _).after _

theorem closes_zone {s : Str} {i : Int} (h : ZoneText s i) : Closes s := by
  cases h with
  | utc => exact closes_of_ne [] (by decide)
  | offset _ _ hm hl => exact (((closes_digits hm (closes_len hl)).cons _).after _).cons _

theorem closes_lit {pre t : Str} {v : Val} (h : Lit E pre t v) : Closes t := by
  cases h with
  | string _ ht => subst ht; exact (closes_of_ne _ (by decide)).cons _
  | regex _ ht => subst ht; exact (closes_of_ne _ (by decide)).cons _
  | stamp h =>
    obtain ⟨dt, x, n, ct, secs, ft, ns, zt, off, -, -, -, -, -, hz, rfl, -⟩ := h
    exact ((((closes_zone hz).after _).after _).cons _).after _
  | day h =>
    obtain ⟨x, hx, -⟩ := h
    exact closes_date hx
  | address h => exact closes_addr h
  | block h _ ht => subst ht; exact ((closes_numeral _).cons _).after _
  | float _ _ _ hb hd ht => subst ht; exact (((closes_digits hd hb).cons _).after _).after _
  | int _ ha hd ht => subst ht; exact (closes_digits hd ha).after _
  | true_ => exact closes_of_ne ['t', 'r', 'u'] (by decide)
  | false_ => exact closes_of_ne ['f', 'a', 'l', 's'] (by decide)

theorem closes_text {l : Level} {pre s : Str} {n : Node} (h : Text E l pre s n) : Closes s := by
  induction h with
  | group => exact (((closes_of_ne [] (x := ')') (by decide)).after _).after _).after _ |>.cons _
  | noArgs _ _ _ ho ht =>
    subst ht
    refine (Closes.after (Closes.cons (Closes.after ?_ _) _) _).after _
    cases ho with
    | exists_ => exact closes_of_ne ['e', 'x', 'i', 's', 't'] (by decide)
    | null => exact ⟨['n', 'u', 'l'], 'l', rfl, fun _ => ⟨[], rfl⟩⟩
  | compare _ _ _ _ _ hv ht =>
    subst ht
    refine (Closes.after (Closes.cons (Closes.after (Closes.after (Closes.after ?_ _) _) _) _) _).after _
    cases hv with
    | one h => exact closes_lit E h
    | list => exact (((closes_of_ne [] (x := ')') (by decide)).after _).after _).after _ |>.cons _
  | notCmp _ ih => exact ih
  | not _ _ ih => exact ih.after _
  | andNot _ ih => exact ih
  | and _ _ _ _ _ ih => exact (((ih.after _).after _).after _).after _
  | orAnd _ ih => exact ih
  | or _ _ _ _ _ ih => exact (((ih.after _).after _).after _).after _

theorem closes_query {s : Str} {n : Node} (h : Query E s n) : Closes s := by
  obtain ⟨w1, q, w2, -, hw, ht, rfl⟩ := h
  refine Closes.after ?_ _
  by_cases hne : w2 = []
  · subst hne
    simpa using closes_text E ht
  · refine Closes.after ?_ _
    refine ⟨w2.dropLast, w2.getLast hne, (List.dropLast_append_getLast hne).symm, fun hx => ?_⟩
    have := hw _ (List.getLast_mem hne)
    rw [hx] at this
    exact absurd this (by decide)

theorem utf8_append (s t : Str) : utf8 (s ++ t) = utf8 s ++ utf8 t := by
  simp [utf8]

/-- The last byte of a character's encoding is the one of the letter `l` only for that letter. -/
theorem encode_last (c : Char) (p : List UInt8) (h : String.utf8EncodeChar c = p ++ [0x6c]) : c = 'l' := by
  have hlast : (String.utf8EncodeChar c).getLast? = some 0x6c := by rw [h]; simp
  have hcont : ∀ n : Nat, UInt8.ofNat (n % 64 + 0x80) ≠ 0x6c := by
    intro n hn
    have := congrArg UInt8.toNat hn
    simp only [UInt8.toNat_ofNat', UInt8.reduceToNat] at this
    omega
  unfold String.utf8EncodeChar at hlast
  dsimp only at hlast
  split_ifs at hlast with h1 h2 h3
  · simp only [List.getLast?_singleton, Option.some.injEq] at hlast
    have := congrArg UInt8.toNat hlast
    simp only [UInt8.toNat_ofNat', UInt8.reduceToNat] at this
    have hv : c.val.toNat = 108 := by omega
    apply Char.ext
    apply UInt32.toNat_inj.1
    exact hv
  all_goals
    simp only [List.getLast?_cons_cons, List.getLast?_singleton, Option.some.injEq] at hlast
    exact absurd hlast (hcont _)

theorem closes_notFile {s : Str} (h : Closes s) : endsWith (utf8 s) dotAql = false := by
  rw [Bool.eq_false_iff]
  intro he
  unfold endsWith at he
  rw [List.isPrefixOf_iff_prefix, List.reverse_prefix] at he
  obtain ⟨u, hu⟩ := he
  obtain ⟨p, x, h1, h2⟩ := h
  have hx : x = 'l' := by
    rw [h1, utf8_append] at hu
    have hx1 : utf8 [x] = String.utf8EncodeChar x := by simp [utf8]
    rw [hx1] at hu
    have hne : String.utf8EncodeChar x ≠ [] := by
      have := String.length_utf8EncodeChar x
      have h0 := Char.utf8Size_pos x
      intro h
      rw [h] at this
      simp at this
      omega
    have hl : (String.utf8EncodeChar x).getLast hne = 0x6c := by
      have h3 := congrArg List.getLast? hu
      rw [List.getLast?_append_of_ne_nil _ hne, List.getLast?_eq_some_getLast hne] at h3
      simp [dotAql] at h3
      exact h3.symm
    apply encode_last x (String.utf8EncodeChar x).dropLast
    rw [← hl]
    exact (List.dropLast_append_getLast hne).symm
  obtain ⟨p', hp'⟩ := h2 hx
  rw [hp', utf8_append] at hu
  have hn : utf8 "null".toList = [0x6e, 0x75, 0x6c, 0x6c] := by decide
  rw [hn] at hu
  have := (List.append_inj' hu rfl).2
  revert this
  decide

/-- **C79.** No query ends with `.aql`, so aqltest never takes a query for the name of a file. -/
theorem C79_query_is_no_file (s : Str) (n : Node) (h : Query E s n) :
    (∀ p, s ≠ p ++ ".aql".toList) ∧ queryArg W (utf8 s) = some (utf8 s) := by
  have hc := closes_query E h
  refine ⟨fun p hp => ?_, by rw [queryArg, closes_notFile hc]; rfl⟩
  have := closes_notFile hc
  rw [hp, utf8_append, Bool.eq_false_iff] at this
  apply this
  unfold endsWith
  rw [List.isPrefixOf_iff_prefix, List.reverse_prefix]
  exact ⟨utf8 p, rfl⟩

/-- **C79, exactly.** An argument that ends with `.aql` is the name of a file, and what the file holds is the
query; every other argument is the query itself. -/
theorem C79_argument_exact (a : List UInt8) :
    (utf8 ".aql".toList <:+ a → queryArg W a = W.readFile a) ∧
    (¬ utf8 ".aql".toList <:+ a → queryArg W a = some a) := by
  have h : endsWith a dotAql = true ↔ utf8 ".aql".toList <:+ a := by
    unfold endsWith
    rw [List.isPrefixOf_iff_prefix, List.reverse_prefix]
    rfl
  unfold queryArg
  rw [← h]
  exact ⟨fun h => if_pos h, fun h => if_neg h⟩

/-! ### C78 -/

theorem terminal_whole (q : Str) (kind : Option MsgType) (pos : Pos) (msg : Str)
    (h : pos = noPosition ∨ 0 ≤ pos.offset ∧ 0 ≤ pos.len) :
    printLine q spare kind pos msg = .printed (kindText kind ++ ": ".toList ++ msg ++
      (if pos = noPosition then [] else "\n    ".toList ++ q ++ "\n    ".toList ++
        List.replicate pos.offset.toNat ' ' ++ List.replicate pos.len.toNat '^' ++ "\n".toList)) none := by
  unfold printLine PrintData.terminal printData
  by_cases hp : pos = noPosition
  · simp [hp]
  · obtain ⟨h1, h2⟩ := h.resolve_left hp
    simp [hp, PrintData.queryText, PrintData.hlOffset, goRepeat, h1, h2]

theorem valMessages_err {op : Op} {f : List Str} {v : Val} {e : VErr} (h : (valMessages E op f v).2 = some e) :
    e.toPErr.pos = noPosition := by
  unfold valMessages at h
  split at h
  · cases h
  · dsimp only at h
    split at h
    · cases h; rfl
    · cases h
  · cases h
  · cases h

theorem exprMessages_err {op : Op} {f : List Str} {vs : List Val} {e : VErr}
    (h : (exprMessages E op f vs).2 = some e) : e.toPErr.pos = noPosition := by
  induction vs with
  | nil => cases h
  | cons v vs ih =>
    unfold exprMessages at h
    rcases hv : valMessages E op f v with ⟨ms, _ | e'⟩
    · rw [hv] at h
      exact ih h
    · rw [hv] at h
      cases h
      exact valMessages_err E (by rw [hv])

theorem msgRun_err {ns : List Node} {e : VErr} (h : (msgRun E ns).2 = some e) : e.toPErr.pos = noPosition := by
  induction ns with
  | nil => cases h
  | cons n ns ih =>
    unfold msgRun at h
    rcases hv : messageVisitorFn E n with ⟨ms, _ | e'⟩
    · rw [hv] at h
      exact ih h
    · rw [hv] at h
      cases h
      cases n with
      | expr op f vs p => exact exprMessages_err E (op := op) (f := f) (vs := vs) (by
          have : messageVisitorFn E (.expr op f vs p) = exprMessages E op f vs := rfl
          rw [← this, hv])
      | _ => cases hv

/-- The error of a rejected query has no position or one with an offset and a length that are not
negative. -/
theorem rejected_pos {query : List UInt8} {e : PErr} (h : newMatcher E query = some (.ok (.error e))) :
    e.pos = noPosition ∨ 0 ≤ e.pos.offset ∧ 0 ≤ e.pos.len := by
  rcases (C01_parser_terminates E query).2.2 with ⟨n, hn⟩ | ⟨e', he⟩
  · by_cases hok : AllOk E n
    · unfold newMatcher at h
      rw [hn, Option.map_some, newMatcherFrom_eq, (verdicts_none E n).2 hok] at h
      rcases hm : msgRun E (comparisons n) with ⟨ms, _ | e'⟩
      · rw [hm] at h
        dsimp only at h
        cases hb : build E n <;> rw [hb] at h <;> cases h
      · rw [hm] at h
        cases h
        exact .inl (msgRun_err E (by rw [hm]))
    · obtain ⟨s, e', -, -, h1, before, c, after, op, f, vs, p, t, rest, -, -, -, -, -, -, h2⟩ :=
        C61_validation_error_position E ([] : List (Visitor Unit)) ⟨(), fun _ => Tape.new⟩ query n hn hok
      rw [h1] at h
      cases h
      right
      rcases h2 with h2 | ⟨v, -, q, u, rest', -, h2, -⟩ <;> rw [h2] <;> simp [posAt]
  · unfold newMatcher at h
    rw [he] at h
    cases h
    obtain ⟨pre, tok, post, -, h1, h2, -⟩ := C64_error_marks_text E query _ he
    right
    rw [h1]
    omega

/-- What aqltest prints for a message or an error at a position of the query `q`: its kind and text and,
if it has a position, the whole query with carets below. -/
def Spec.shown (q : Str) (kind : Str) (pos : Pos) (msg : Str) : Str :=
  kind ++ ": ".toList ++ msg ++ (if pos = noPosition then [] else "\n    ".toList ++ q ++ "\n    ".toList ++
    List.replicate pos.offset.toNat ' ' ++ List.replicate pos.len.toNat '^' ++ "\n".toList)

/-- **C78.** A rejected query: the error and the query with the mark are printed, nothing else, and the exit
code is 1. The document is not read. -/
theorem C78_rejected (prog arg file query : List UInt8) (hq : queryArg W arg = some query) (e : PErr)
    (h : newMatcher E query = some (.ok (.error e))) :
    aqltest E W spare short [prog, arg, file] =
      some (.ok ⟨[.printed (shown ((decode query).map Sym.rune) "ERROR".toList e.pos e.msg) none], [], 1⟩) := by
  simp only [aqltest, hq, h, Option.map_some, terminal_whole spare _ none e.pos e.msg (rejected_pos E h)]
  rfl

/-- **C78.** An accepted query on a file that holds a document: the messages about the query are printed with
their marks, then the answer, then the statistics of one call, and the exit code is 0. -/
theorem C78_answered (prog file input : List UInt8) (s : Str) (n : Node) (hq : Query E s n) (hok : AllOk E n)
    (hre : LitsIn (ReParses E) n) (d : Json) (hf : W.readFile file = some input) (hd : W.docOf input = .valid d)
    (hp : PathsIn (Plain d) n) :
    ∃ m msgs stats b, newMatcher E (utf8 s) = some (.ok (.ok (m, msgs))) ∧
      aqltest E W spare short [prog, utf8 s, file] = some (.ok
        ⟨msgs.map fun g => .printed (shown s (kindText (some g.type)) g.pos g.text) none,
          [if b then "true".toList else "false".toList, stats], 0⟩) ∧
      (b = true ↔ Sat E d n) ∧
      readJson stats = some (.obj [("node_name".toList, .str (rootName E n)), ("times_checked".toList, .num 1),
        ("times_matched".toList, .num (if b then 1 else 0))]) := by
  obtain ⟨m, msgs, hm⟩ := (C59_who_gets_a_matcher E (utf8 s)).1 s n rfl hq hok hre
  obtain ⟨s', n', hs', hq', -, -, hans⟩ := C59_matcher_means_text E _ m msgs hm
  have hss : s' = s := by
    have := decode_utf8 s'
    rw [← hs', decode_utf8] at this
    exact (map_ok_inj this).symm
  subst hss
  have hn : n' = n := by
    have h1 := C02_sentence_is_accepted E _ _ hq
    have h2 := C02_sentence_is_accepted E _ _ hq'
    rw [h1] at h2
    cases h2
    rfl
  subst hn
  have hfrom : newMatcherFrom E s' (.ok n') = .ok (.ok (m, msgs)) := by
    have := hm
    unfold newMatcher at this
    rw [C02_sentence_is_accepted E _ _ hq, Option.map_some, decode_utf8] at this
    simpa [List.map_map, Function.comp_def, Sym.rune] using this
  have hg := C01_accepted_from_grammar E _ _ (C02_sentence_is_accepted E _ _ hq)
  have hst := C40_root_statistics hfrom hg [.valid d]
  have hb : ∃ b, (m.match E (.valid d)).2 = .result b ∧ (b = true ↔ Sat E d n') := by
    rcases hans m d rfl hp with ⟨h1, h2⟩ | ⟨h1, h2⟩
    · exact ⟨true, h1, by simpa using h2⟩
    · exact ⟨false, h1, by simpa using h2⟩
  obtain ⟨b, hb, hsat⟩ := hb
  have hafter : m.after E [.valid d] = (m.match E (.valid d)).1 := by
    simp [Matcher.after]
  rw [hafter] at hst
  rcases hmm : m.match E (.valid d) with ⟨m', out⟩
  rw [hmm] at hb hst
  dsimp only at hb hst
  subst hb
  have hst' : m'.stats = .ok (.mk (rootName E n') 1 (if b then 1 else 0) []) := by
    rw [hst]
    simp [hmm, MatchOut.answered, MatchOut.yes]
  refine ⟨m, msgs, statsText short (.mk (rootName E n') 1 (if b then 1 else 0) []), b, hm, ?_, hsat, ?_⟩
  · have hrunes : (decode (utf8 s')).map Sym.rune = s' := by
      rw [decode_utf8]; simp [List.map_map, Function.comp_def, Sym.rune]
    simp only [aqltest, (C79_query_is_no_file E W s' n' hq).2, hm, Option.map_some, hf, hd, hmm, hst', hrunes]
    congr 3
    apply List.map_congr_left
    intro g hg
    obtain ⟨s2, n2, -, -, hpos⟩ := C62_message_positions E _ m msgs hm
    obtain ⟨-, op, f, vs, p, -, v, -, q, u, rest, -, -, hgp⟩ := hpos g hg
    rw [terminal_whole spare s' _ g.pos g.text (.inr (by rw [hgp]; simp [posAt]))]
    rfl
  · rw [statsText, readJson_text]
    simp only [MatchStats.json]
    cases b <;> rfl

theorem stats_after {query : List UInt8} {m : Matcher} {msgs : List Msg}
    (h : newMatcher E query = some (.ok (.ok (m, msgs)))) (d : Doc) : ∃ s, (m.match E d).1.stats = .ok s := by
  unfold newMatcher at h
  rcases (C01_parser_terminates E query).2.2 with ⟨n, hn⟩ | ⟨e', he⟩
  · rw [hn, Option.map_some, Option.some.injEq] at h
    have := C40_root_statistics h (C01_accepted_from_grammar E _ _ hn) [d]
    have hafter : m.after E [d] = (m.match E d).1 := by
      simp [Matcher.after]
    rw [hafter] at this
    exact ⟨_, this⟩
  · rw [he] at h
    cases h

/-- **C78.** Every run ends in one of three ways: an answer and statistics on standard output with exit code
0, nothing on standard output, at least one line in the log and exit code 1, or a panic, and that is a panic
of `Match`. No line of the log is cut short by an error of the printer. -/
theorem C78_ends (args : List (List UInt8)) :
    (∃ r, aqltest E W spare short args = some (.ok r) ∧
      ((r.code = 0 ∧ ∃ (b : Bool) (stats : Str), r.out = [if b then "true".toList else "false".toList, stats] ∧
          (readJson stats).isSome = true) ∨
        (r.code = 1 ∧ r.out = [] ∧ r.log ≠ [])) ∧
      ∀ t p, .printed t p ∈ r.log → p = none) ∨
    (∃ p m msgs query d, aqltest E W spare short args = some (.error p) ∧
      newMatcher E query = some (.ok (.ok (m, msgs))) ∧ (m.match E d).2 = .panic p) := by
  have other : ∀ l, (∀ t p, l ≠ .printed t p) → ∃ r : CmdRun, some (Except.ok (fatal [] l)) = some (Except.ok (ε := GoPanic) r) ∧
      ((r.code = 0 ∧ ∃ (b : Bool) (stats : Str), r.out = [if b then "true".toList else "false".toList, stats] ∧
          (readJson stats).isSome = true) ∨
        (r.code = 1 ∧ r.out = [] ∧ r.log ≠ [])) ∧ ∀ t p, .printed t p ∈ r.log → p = none := by
    intro l hl
    refine ⟨_, rfl, .inr ⟨rfl, rfl, by simp [fatal]⟩, fun t p ht => ?_⟩
    simp only [fatal, List.nil_append, List.mem_singleton] at ht
    exact absurd ht.symm (hl t p)
  unfold aqltest
  split
  · rename_i prog a file
    cases hq : queryArg W a with
    | none => exact .inl (other _ (by simp))
    | some query =>
      obtain ⟨r, hr⟩ := C18_newMatcher_on_bytes E query
      rcases r with e | ⟨m, msgs⟩
      · left
        simp only [hr, Option.map_some, terminal_whole spare _ none e.pos e.msg (rejected_pos E hr)]
        refine ⟨_, rfl, .inr ⟨rfl, rfl, by simp [fatal]⟩, fun t p ht => ?_⟩
        simp only [fatal, List.nil_append, List.mem_singleton, LogLine.printed.injEq] at ht
        exact ht.2
      · simp only [hr, Option.map_some]
        cases hf : W.readFile file with
        | none => exact .inl (other _ (by simp))
        | some input =>
          have hlines : ∀ t p, LogLine.printed t p ∈ msgs.map (fun g => printLine ((decode query).map Sym.rune)
              spare (some g.type) g.pos g.text) → p = none := by
            intro t p ht
            obtain ⟨g, hg, ht⟩ := List.mem_map.1 ht
            obtain ⟨s2, n2, -, -, hpos⟩ := C62_message_positions E _ m msgs hr
            obtain ⟨-, op, f, vs, p, -, v, -, q, u, rest, -, -, hgp⟩ := hpos g hg
            rw [terminal_whole spare _ _ g.pos g.text (.inr (by rw [hgp]; simp [posAt]))] at ht
            simp only [LogLine.printed.injEq] at ht
            exact ht.2.symm
          dsimp only
          obtain ⟨st, hst⟩ := stats_after E hr (W.docOf input)
          rcases hm : m.match E (W.docOf input) with ⟨m', b | _ | p⟩
          · rw [hm] at hst
            dsimp only at hst ⊢
            rw [hst]
            refine .inl ⟨_, rfl, .inl ⟨rfl, b, _, rfl, ?_⟩, hlines⟩
            rw [statsText, readJson_text]
            rfl
          · refine .inl ⟨_, rfl, .inr ⟨rfl, rfl, by simp [fatal]⟩, fun t p ht => ?_⟩
            simp only [fatal, List.mem_append, List.mem_singleton, reduceCtorEq, or_false] at ht
            exact hlines t p ht
          · exact .inr ⟨p, m, msgs, query, _, rfl, hr, by rw [hm]⟩
  · exact .inl (other _ (by simp))

/-- A world with a query file, a document and a file that is no document. -/
def someWorld : World where
  readFile f := if f = "q.aql".toList.map (UInt8.ofNat ·.toNat) then some (utf8 "a:1".toList)
    else if f = "d".toList.map (UInt8.ofNat ·.toNat) then some [1]
    else if f = "e".toList.map (UInt8.ofNat ·.toNat) then some [2] else none
  docOf b := if b = [1] then .valid (.obj [("a".toList, .num "1".toList)]) else .invalid
  canWrite f := f ≠ [0x2f]

/-- The run, if there is no panic. -/
def runOf (E : Env) (W : World) (args : List String) : Option CmdRun :=
  match aqltest E W 0 false (args.map fun a => utf8 a.toList) with
  | some (.ok r) => some r
  | _ => none

-- the query from a file and the document; exit code 0
example : (runOf testEnv someWorld ["aqltest", "q.aql", "d"]) = some ⟨[], ["true".toList,
    "{\n  \"node_name\": \"a: 1\",\n  \"times_checked\": 1,\n  \"times_matched\": 1\n}".toList], 0⟩ := by
  decide +kernel

-- a warning, then the answer; a missing document; a file that is no document; an error of the query
example : (runOf testEnv someWorld ["aqltest", "a:2020-01-02T03:04:05Z", "d"]).map (fun r => (r.log.length, r.code)) = some (1, 0) ∧
    runOf testEnv someWorld ["aqltest", "a:1", "f"] = some ⟨[.couldNotOpen], [], 1⟩ ∧
    runOf testEnv someWorld ["aqltest", "a:1", "e"] = some ⟨[.invalidJSON], [], 1⟩ ∧
    (runOf testEnv someWorld ["aqltest", "a:>\"x\"", "d"]).map (fun r => (r.log.length, r.code)) = some (1, 1) := by
  decide +kernel

/-! ### C80 -/

/-- The file name ends with a dot and the letters `ext`, in upper or lower case. -/
def Spec.NamedAs (ext file : List UInt8) : Prop :=
  ∃ base e, file = base ++ 0x2e :: e ∧ List.Forall₂ (fun b c => b = c ∨ b + 0x20 = c) e ext

def Spec.SmallLetter (b : UInt8) : Prop := 0x61 ≤ b ∧ b ≤ 0x7a

theorem lowerByte_iff {b c : UInt8} (hc : SmallLetter c) :
    (if 0x41 ≤ b ∧ b ≤ 0x5a then b + 0x20 else b) = c ↔ b = c ∨ b + 0x20 = c := by
  unfold SmallLetter at hc
  simp only [UInt8.le_iff_toNat_le, ← UInt8.toNat_inj, UInt8.toNat_add, UInt8.reduceToNat] at *
  have := b.toNat_lt
  split <;> (try simp only [UInt8.toNat_add, UInt8.reduceToNat]) <;> omega

theorem lowerBytes_iff {e ext : List UInt8} (h : ∀ c ∈ ext, SmallLetter c) :
    lowerBytes e = ext ↔ List.Forall₂ (fun b c => b = c ∨ b + 0x20 = c) e ext := by
  unfold lowerBytes
  induction e generalizing ext with
  | nil => cases ext <;> simp
  | cons b e ih =>
    cases ext with
    | nil => simp
    | cons c ext =>
      rw [List.map_cons, List.cons.injEq, List.forall₂_cons, lowerByte_iff (h c (by simp)),
        ih fun c hc => h c (by simp [hc])]

theorem namedAs_iff {file ext : List UInt8} (h : ∀ c ∈ ext, SmallLetter c) :
    lowerBytes (filepathExt file) = 0x2e :: ext ↔ NamedAs ext file := by
  constructor
  · intro hl
    unfold filepathExt at hl
    dsimp only at hl
    have hsplit := List.takeWhile_append_dropWhile (p := fun b : UInt8 => decide (b ≠ 0x2e ∧ b ≠ 0x2f))
      (l := file.reverse)
    have hd : file.reverse.drop (file.reverse.takeWhile fun b : UInt8 => decide (b ≠ 0x2e ∧ b ≠ 0x2f)).length =
        file.reverse.dropWhile fun b : UInt8 => decide (b ≠ 0x2e ∧ b ≠ 0x2f) := by
      have := congrArg (List.drop (file.reverse.takeWhile
        fun b : UInt8 => decide (b ≠ 0x2e ∧ b ≠ 0x2f)).length) hsplit
      rw [List.drop_left] at this
      exact this.symm
    rw [hd] at hl
    split at hl
    · rename_i rest hrest
      rw [hrest] at hsplit
      refine ⟨rest.reverse, _, ?_, (lowerBytes_iff h).1 (List.cons.inj hl).2⟩
      have := congrArg List.reverse hsplit
      simpa using this.symm
    · simp [lowerBytes] at hl
  · rintro ⟨base, e, rfl, hf⟩
    have hne : ∀ b ∈ e.reverse, b ≠ 0x2e ∧ b ≠ 0x2f := by
      intro b hb
      obtain ⟨c, hc, hbc⟩ : ∃ c ∈ ext, b = c ∨ b + 0x20 = c := by
        have hb := List.mem_reverse.1 hb
        clear h
        induction hf with
        | nil => cases hb
        | cons h1 _ ih =>
          rcases List.mem_cons.1 hb with rfl | hb
          · exact ⟨_, by simp, h1⟩
          · obtain ⟨c, hc, h2⟩ := ih (List.mem_reverse.2 hb) hb
            exact ⟨c, by simp [hc], h2⟩
      have hc := h c hc
      unfold SmallLetter at hc
      constructor <;> rintro rfl <;> rcases hbc with rfl | rfl <;> revert hc <;> decide
    have ht : (base ++ 0x2e :: e).reverse.takeWhile (fun b : UInt8 => decide (b ≠ 0x2e ∧ b ≠ 0x2f)) = e.reverse := by
      rw [List.reverse_append, List.reverse_cons, List.append_assoc, List.takeWhile_append_of_pos]
      · simp
      · intro b hb
        simpa using hne b hb
    have : filepathExt (base ++ 0x2e :: e) = 0x2e :: e := by
      unfold filepathExt
      dsimp only
      rw [ht]
      simp
    rw [this]
    show _ :: lowerBytes e = _
    rw [(lowerBytes_iff h).2 hf]
    rfl

/-- The letters of the two formats. -/
def Spec.letters : Format → List UInt8
  | .svg => [0x73, 0x76, 0x67]
  | .dot => [0x64, 0x6f, 0x74]

theorem letters_small (f : Format) : ∀ c ∈ letters f, SmallLetter c := by
  unfold SmallLetter
  cases f <;> decide

theorem formatOf_iff (file : List UInt8) (f : Format) :
    formatOf (lowerBytes (filepathExt file)) = some f ↔ NamedAs (letters f) file := by
  rw [← namedAs_iff (letters_small f)]
  unfold formatOf
  cases f
  · split_ifs with h1 h2
    · simp [h1, letters]
    · simp [h2, letters]
    · simp [h1, letters]
  · split_ifs with h1 h2
    · simp [h1, letters]
    · simp [h2, letters]
    · simp [h2, letters]

theorem parseQuery_accepted {σ : Type} (st : VState σ) {s : Str} {n : Node} (hq : Query E s n) (hok : AllOk E n) :
    parseQuery E [] st (utf8 s) = some (.ok (st, .ok n)) := by
  unfold parseQuery
  rw [C02_sentence_is_accepted E s n hq, Option.map_some, finishParse_accepted E [] st n hok]
  rfl

/-- **C80.** With a query and the name of an output file aqlgraph writes the graph of the query's tree to
exactly this file, in the format that the name ends with. -/
theorem C80_writes (prog file : List UInt8) (more : List (List UInt8)) (s : Str) (n : Node) (hq : Query E s n)
    (hok : AllOk E n) (f : Format) (hf : NamedAs (letters f) file) (hw : W.canWrite file = true) :
    aqlgraph E W (prog :: utf8 s :: file :: more) =
      some (.ok (⟨[], [], 0⟩, some (file, f, queryGraph E n))) := by
  simp [aqlgraph, parseQuery_accepted E _ hq hok, (formatOf_iff file f).2 hf, hw]

/-- **C80.** Without a file name the graph is written as SVG to query_graph.svg. -/
theorem C80_default (prog : List UInt8) (s : Str) (n : Node) (hq : Query E s n) (hok : AllOk E n)
    (hw : W.canWrite (utf8 "query_graph.svg".toList) = true) :
    aqlgraph E W [prog, utf8 s] =
      some (.ok (⟨[], [], 0⟩, some (utf8 "query_graph.svg".toList, .svg, queryGraph E n))) := by
  have : defaultOutput = utf8 "query_graph.svg".toList := by decide
  simp only [aqlgraph, parseQuery_accepted E _ hq hok, this, hw, formatOf, Option.map_some, List.head?_nil,
    Option.getD_none, if_true]

/-- **C80.** aqlgraph always ends, without a panic. It writes a file and exits with 0, or writes nothing,
says why and exits with 1; the latter for every text that is not a valid query and every other file name. -/
theorem C80_ends (args : List (List UInt8)) :
    ∃ r w, aqlgraph E W args = some (.ok (r, w)) ∧
      ((r = ⟨[], [], 0⟩ ∧ ∃ prog s n rest f, args = prog :: utf8 s :: rest ∧ Query E s n ∧ AllOk E n ∧
          (match rest with
            | [] => f = .svg ∧ w = some (utf8 "query_graph.svg".toList, f, queryGraph E n)
            | file :: _ => NamedAs (letters f) file ∧ w = some (file, f, queryGraph E n))) ∨
        (r.code = 1 ∧ r.out = [] ∧ r.log ≠ [] ∧ w = none)) := by
  have bad : ∀ l, ∃ r w, some (Except.ok (fatal [] l, none)) = some (Except.ok (ε := GoPanic) (r, w)) ∧
      ((r = ⟨[], [], 0⟩ ∧ ∃ prog s n rest f, args = prog :: utf8 s :: rest ∧ Query E s n ∧ AllOk E n ∧
          (match rest with
            | [] => f = .svg ∧ w = some (utf8 "query_graph.svg".toList, f, queryGraph E n)
            | file :: _ => NamedAs (letters f) file ∧ w = some (file, f, queryGraph E n))) ∨
        (r.code = 1 ∧ r.out = [] ∧ r.log ≠ [] ∧ w = none)) :=
    fun l => ⟨_, _, rfl, .inr ⟨rfl, rfl, by simp [fatal], rfl⟩⟩
  unfold aqlgraph
  split
  · rename_i prog query rest
    have hdef : defaultOutput = utf8 "query_graph.svg".toList := by decide
    obtain ⟨r, hr⟩ := C01_parse_returns E (σ := Unit) ⟨(), fun _ => Tape.new⟩ query
    dsimp only
    rw [hr, Option.map_some]
    rcases r with e | n
    · exact bad _
    · have hn : ∃ s, query = utf8 s ∧ Query E s n ∧ AllOk E n := by
        unfold parseQuery at hr
        rcases (C01_parser_terminates E query).2.2 with ⟨n', hn⟩ | ⟨e', he⟩
        · rw [hn, Option.map_some, Option.some.injEq] at hr
          by_cases hok : AllOk E n'
          · rw [finishParse_accepted E [] _ n' hok] at hr
            obtain ⟨s, hs, hq⟩ := C03_accepted_is_sentence E query n' hn
            have : n' = n := by
              simp [runVisitors] at hr
              exact hr
            subst this
            exact ⟨s, hs, hq, hok⟩
          · obtain ⟨e, he, -⟩ := finishParse_rejected E ([] : List (Visitor Unit)) ⟨(), fun _ => Tape.new⟩ n' hok
            rw [he] at hr
            cases hr
        · rw [he] at hr
          cases hr
      obtain ⟨s, rfl, hq, hok⟩ := hn
      dsimp only
      split
      · exact bad _
      · rename_i f hf
        split
        · refine ⟨_, _, rfl, .inl ⟨rfl, prog, s, n, rest, f, rfl, hq, hok, ?_⟩⟩
          cases rest with
          | nil =>
            simp only [List.head?_nil, formatOf, if_true, Option.some.injEq] at hf
            exact ⟨hf.symm, by simp [hdef]⟩
          | cons file more =>
            exact ⟨(formatOf_iff file f).1 hf, rfl⟩
        · exact bad _
  · exact bad _

-- `x/y.SVG`, and names without one of the endings
example : NamedAs (letters .svg) (utf8 "x/y.SvG".toList) :=
  ⟨utf8 "x/y".toList, utf8 "SvG".toList, by decide, by simp [letters]; decide⟩

end Aql
