import Verif.GramLemmas
import Verif.Props.Lexer
/-!
C13–C16: the parser.

The specification is the grammar in `Verif/Grammar.lean`.
-/
namespace Ccml.Props
open Ccml Gram

/-- A token that cannot continue an expression. -/
def EndsExpr (t : Token) : Prop :=
  t.type ≠ .DOT ∧ t.type ≠ .LBRACKET ∧ t.type ≠ .LPAREN ∧ t.type ≠ .NOT ∧ level t.type = none

theorem EndsExpr.stops {t : Token} {ts : List Token} (h : EndsExpr t) : Stops (t :: ts) := by
  obtain ⟨h1, h2, h3, h4, h5⟩ := h
  refine ⟨t, ts, rfl, h1, h2, h3, ?_⟩
  revert h4 h5
  cases t.type <;> simp [level, opType]

/-- The fuel the parser has for the tokens of a state. -/
def Enough (n : Nat) (s : PState) : Prop := 8 * s.toks.length + 3 ≤ n

/-! Some tokens for the examples. -/
namespace Eg

/-- A token without text. -/
def p (ty : Tok) : Token := .plain ty ⟨0, 1⟩
/-- A name. -/
def x (s : String) : Token := .text .IDENT (str s) ⟨0, 1⟩
/-- A number. -/
def n (v : Nat) : Token := .number .INT (BitVec.ofNat 32 v) ⟨0, 1⟩
/-- The state at the beginning of tokens. -/
def st (ts : List Token) : PState := ⟨ts, ⟨0, 0⟩, [], [], []⟩

theorem p_type (ty : Tok) : (p ty).type = ty := rfl

end Eg

/-! ### C13: binary operators -/

/-- C13: whatever the grammar reads as an expression is parsed into that tree, wherever it stands;
the stacks are left as they were. -/
theorem C13_expression (e : Expr Unit) (ts : List Token) (h : Gram.Reads (.whole e) ts) (s : PState)
    (t : Token) (rest : List Token) (hs : s.toks = ts ++ t :: rest) (ht : EndsExpr t) (n : Nat)
    (hn : Enough n s) :
    ∃ l, parseExpr n s = .ok (e, { s with toks := t :: rest, line := l }) :=
  whole_eq h hs ht.stops hn

/-- C13: printing a tree with parentheses only where the levels ask for them and parsing it gives
the tree back. -/
theorem C13_print_parse (pu : Tok → Token) (hpu : ∀ ty, (pu ty).type = ty) (e : Expr Unit)
    (he : Printable e) (s : PState) (t : Token) (rest : List Token)
    (hs : s.toks = printE pu 1 e ++ t :: rest) (ht : EndsExpr t) (n : Nat) (hn : Enough n s) :
    ∃ l, parseExpr n s = .ok (e, { s with toks := t :: rest, line := l }) :=
  C13_expression e _ (printE_whole hpu he) s t rest hs ht n hn

/-- C13: of two operators between three operands the one that binds tighter goes first, the left one
if they bind alike. -/
theorem C13_two_operators (a b c : Expr Unit) (ta tb tc : List Token) (o1 o2 : Token) (p q : Nat)
    (ha : Gram.Reads (.opnd a) ta) (hb : Gram.Reads (.opnd b) tb) (hc : Gram.Reads (.opnd c) tc)
    (h1 : level o1.type = some p) (h2 : level o2.type = some q) (s : PState) (t : Token)
    (rest : List Token) (hs : s.toks = (ta ++ o1 :: (tb ++ o2 :: tc)) ++ t :: rest)
    (ht : EndsExpr t) (n : Nat) (hn : Enough n s) :
    ∃ l, parseExpr n s = .ok
      (if q ≤ p then .bin o2 (.bin o1 a b) c else .bin o1 a (.bin o2 b c),
        { s with toks := t :: rest, line := l }) := by
  have hp := level_le h1
  have hq := level_le h2
  by_cases hqp : q ≤ p
  · rw [if_pos hqp]
    refine C13_expression _ ((ta ++ o1 :: tb) ++ o2 :: tc) ?_ s t rest (by rw [hs]; simp) ht n hn
    exact .plain (.bin h2 hq.1 (.bin h1 hqp (.operand ha) (.operand hb)) (.operand hc))
  · rw [if_neg hqp]
    refine C13_expression _ (ta ++ o1 :: (tb ++ o2 :: tc)) ?_ s t rest hs ht n hn
    exact .plain (.bin h1 hp.1 (.operand ha) (.bin h2 (by omega) (.operand hb) (.operand hc)))

/-- C13: no sequence of tokens can be read in two ways. -/
theorem C13_unambiguous (e e' : Expr Unit) (ts : List Token) (h : Gram.Reads (.whole e) ts)
    (h' : Gram.Reads (.whole e') ts) : e = e' := by
  have ht : EndsExpr (Token.plain .EOL ⟨0, 1⟩) := by simp [EndsExpr, Token.plain, level]
  obtain ⟨l, h1⟩ := C13_expression e ts h ⟨ts ++ [.plain .EOL ⟨0, 1⟩], ⟨0, 0⟩, [], [], []⟩ _ [] rfl ht
    _ (Nat.le_refl _)
  obtain ⟨l', h2⟩ := C13_expression e' ts h' ⟨ts ++ [.plain .EOL ⟨0, 1⟩], ⟨0, 0⟩, [], [], []⟩ _ [] rfl ht
    _ (Nat.le_refl _)
  rw [h1] at h2
  injection h2 with h2
  exact congrArg Prod.fst h2

/-- `a + b * 2 < (c - 1) - 3 and d`. -/
def eg13 : Expr Unit :=
  .bin (Eg.p .AND)
    (.bin (Eg.p .LT)
      (.bin (Eg.p .ADD) (.ident (Eg.x "a") ())
        (.bin (Eg.p .MUL) (.ident (Eg.x "b") ()) (.int 2 (some (Eg.n 2)) none)))
      (.bin (Eg.p .SUB)
        (.bin (Eg.p .SUB) (.ident (Eg.x "c") ()) (.int 1 (some (Eg.n 1)) none))
        (.int 3 (some (Eg.n 3)) none)))
    (.ident (Eg.x "d") ())

example : Printable eg13 := by
  simp [Printable, eg13, Eg.p, Eg.x, Eg.n, level, Token.plain, Token.text, Token.number]

/-- No parentheses are printed. -/
example : (printE Eg.p 1 eg13).map (·.type) =
    [.IDENT, .ADD, .IDENT, .MUL, .INT, .LT, .IDENT, .SUB, .INT, .SUB, .INT, .AND, .IDENT] := by
  decide +kernel

example : EndsExpr (Eg.p .EOL) := by simp [EndsExpr, Eg.p, Token.plain, level]

/-! ### C14: unary operators -/

/-- The operand functions, with the stacks spelled out. -/
theorem ex_opnd {e : PExpr} {ts : List Token} (h : Gram.Reads (.opnd e) ts) {n tide : Nat}
    {s : PState} {rest : List Token} (hs : s.toks = ts ++ rest) (hr : Follow rest)
    (hn : 8 * s.toks.length + 2 ≤ n) : ∃ l, parseExprEx n tide s =
      parseTail (n - 1) tide { s with toks := rest, line := l, exps := e :: s.exps } := by
  obtain ⟨m, rfl⟩ : ∃ m, n = m + 1 := ⟨n - 1, by omega⟩
  obtain ⟨t, us, rfl, h1, h2⟩ := opnd_first h e rfl
  obtain ⟨k, l, hk, h3⟩ := expr_runs h m s rest hs hr.noDot (by omega)
  refine ⟨l, ?_⟩
  rw [ex_operand hs h1 h2, pm_bind, h3, postfix_stop hr (by omega)]
  rfl

/-- Parsing `a op b` by `parse_expr_ex_` leaves the operator and both operands on the stacks. -/
theorem ex_pair {a b : PExpr} {ta tb : List Token} {op : Token} {q : Nat}
    (ha : Gram.Reads (.opnd a) ta) (hb : Gram.Reads (.opnd b) tb) (ho : level op.type = some q)
    {n : Nat} {s : PState} {t : Token} {rest : List Token}
    (hs : s.toks = ta ++ op :: (tb ++ t :: rest)) (ht : EndsExpr t)
    (hn : 8 * s.toks.length + 2 ≤ n) : ∃ l, parseExprEx n s.ops.length s =
      .ok ((), { s with toks := t :: rest, line := l, ops := op :: s.ops, exps := b :: a :: s.exps }) := by
  obtain ⟨hq, hbin, hq0, hd, h1, h2⟩ := level_opType ho
  obtain ⟨l1, e1⟩ := ex_opnd (tide := s.ops.length) ha hs ⟨op, _, rfl, hd, h1, h2⟩ hn
  have hlen : s.toks.length = ta.length + (tb ++ t :: rest).length + 1 := by
    rw [hs]; simp only [List.length_append, List.length_cons]; omega
  obtain ⟨k, hk⟩ : ∃ k, n - 1 = k + 1 := ⟨n - 2, by omega⟩
  obtain ⟨l2, e2⟩ := ex_opnd (tide := s.ops.length) (n := k) hb
    (s := { s with toks := tb ++ t :: rest, line := op.line, ops := op :: s.ops, exps := a :: s.exps })
    (rest := t :: rest) rfl ht.stops.follow (by dsimp only; omega)
  refine ⟨l2, ?_⟩
  rw [e1, hk]
  simp only [parseTail]
  rw [pm_bind_ok (isOperator_eq (t := op) (ts := tb ++ t :: rest) rfl)]
  rw [if_pos (by simp; omega)]
  rw [pm_bind_ok (popTok_eq (t := op) (ts := tb ++ t :: rest) rfl)]
  rw [pm_bind_ok (opPush_eq (s := ⟨tb ++ t :: rest, op.line, s.ops, a :: s.exps, s.srcs⟩) (op := op)
    (new := []) (above := []) (bottom := s.ops) rfl rfl (by simp) (by simp))]
  simp only [List.nil_append]
  rw [e2, tail_stop (by exact ht.stops) (by omega)]

/-- C14 fails: a minus sign before the first operand of a binary operator is applied to the last
one: `-a + b` is `a + (-b)`, `-a * b` is `a * (-b)`, for all operands and operators. -/
theorem C14_minus_left (a b : Expr Unit) (ta tb : List Token) (minus op : Token) (q : Nat)
    (ha : Gram.Reads (.opnd a) ta) (hb : Gram.Reads (.opnd b) tb) (hm : minus.type = .SUB)
    (ho : level op.type = some q) (s : PState) (t : Token) (rest : List Token)
    (hs : s.toks = (minus :: (ta ++ op :: tb)) ++ t :: rest) (ht : EndsExpr t) (n : Nat)
    (hn : Enough n s) :
    ∃ l, parseExpr n s =
      .ok (.bin op a (.un minus b), { s with toks := t :: rest, line := l }) := by
  obtain ⟨hq, hbin, -⟩ := level_opType ho
  simp only [List.cons_append, List.append_assoc] at hs
  have hlen : s.toks.length = (ta ++ op :: (tb ++ t :: rest)).length + 1 := by rw [hs]; rfl
  unfold Enough at hn
  obtain ⟨k, rfl⟩ : ∃ k, n = k + 1 + 1 := ⟨n - 2, by omega⟩
  obtain ⟨l, e⟩ := ex_pair ha hb ho (n := k)
    (s := { s with toks := ta ++ op :: (tb ++ t :: rest), line := minus.line }) rfl ht
    (by dsimp only; omega)
  refine ⟨l, ?_⟩
  simp only [parseExpr]
  rw [pm_bind_ok (show (get : PM PState) s = .ok (s, s) from rfl)]
  have h1 : parseExprEx (k + 1) s.ops.length s = .ok ((), { s with toks := t :: rest, line := l, ops := op :: s.ops, exps := .un minus b :: a :: s.exps }) := by
    simp only [parseExprEx]
    rw [pm_bind_ok (found_no hs (by rw [hm]; decide))]
    dsimp only
    rw [pm_bind_ok (found_yes hs hm)]
    dsimp only
    rw [pm_bind_ok e, pm_bind_ok (show popExp _ _ = .ok (b, _) from rfl)]
    rfl
  rw [pm_bind_ok h1]
  have h2 : opPopAll s.ops.length { s with toks := t :: rest, line := l, ops := op :: s.ops, exps := .un minus b :: a :: s.exps } =
      .ok ((), { s with toks := t :: rest, line := l, exps := .bin op a (.un minus b) :: s.exps }) := by
    unfold opPopAll
    have h5 := reduceLoop_all (q := 0) [op] [] s.ops (.un minus b :: a :: s.exps)
      (.bin op a (.un minus b) :: s.exps) (by simp only [reduceAll, reduceOp, hbin, if_true])
      (fun o _ => Nat.zero_le _)
    have h6 := reduceLoop_stop (q := 0) [] s.ops (.bin op a (.un minus b) :: s.exps) (by simp)
    simp only [List.nil_append, List.singleton_append] at h5 h6
    dsimp only
    rw [h5, h6]
  rw [pm_bind_ok h2]
  rfl

/-- C14 fails: `not a and b` is `a and (not b)`, and the same with `or`. -/
theorem C14_not_left (a b : Expr Unit) (ta tb : List Token) (nt op : Token)
    (ha : Gram.Reads (.opnd a) ta) (hb : Gram.Reads (.opnd b) tb) (hm : nt.type = .NOT)
    (ho : level op.type = some 1) (s : PState) (t : Token) (rest : List Token)
    (hs : s.toks = (nt :: (ta ++ op :: tb)) ++ t :: rest) (ht : EndsExpr t) (n : Nat)
    (hn : Enough n s) :
    ∃ l, parseExpr n s =
      .ok (.bin op a (.un nt b), { s with toks := t :: rest, line := l }) := by
  obtain ⟨hq, hbin, -⟩ := level_opType ho
  simp only [List.cons_append, List.append_assoc] at hs
  have hlen : s.toks.length = (ta ++ op :: (tb ++ t :: rest)).length + 1 := by rw [hs]; rfl
  unfold Enough at hn
  obtain ⟨k, rfl⟩ : ∃ k, n = k + 1 + 1 := ⟨n - 2, by omega⟩
  obtain ⟨l, e⟩ := ex_pair ha hb ho (n := k)
    (s := { s with toks := ta ++ op :: (tb ++ t :: rest), line := nt.line }) rfl ht
    (by dsimp only; omega)
  refine ⟨l, ?_⟩
  simp only [parseExpr]
  rw [pm_bind_ok (show (get : PM PState) s = .ok (s, s) from rfl)]
  have h2 : opType nt.type = 2 := by rw [hm]; rfl
  have h1 : parseExprEx (k + 1) s.ops.length s = .ok ((), { s with toks := t :: rest, line := l, ops := nt :: op :: s.ops, exps := b :: a :: s.exps }) := by
    simp only [parseExprEx]
    rw [pm_bind_ok (found_yes hs hm)]
    dsimp only
    rw [pm_bind_ok e]
    rw [opPush_eq (new := []) (above := [op]) (bottom := s.ops) rfl rfl (by simp)
      (by intro o h; cases List.mem_singleton.1 h; omega)]
    rfl
  rw [pm_bind_ok h1]
  have h3 : opPopAll s.ops.length { s with toks := t :: rest, line := l, ops := nt :: op :: s.ops, exps := b :: a :: s.exps } =
      .ok ((), { s with toks := t :: rest, line := l, exps := .bin op a (.un nt b) :: s.exps }) := by
    unfold opPopAll
    have hn2 : nt.type.isBinary = false ∧ nt.type.isUnary = true := by rw [hm]; exact ⟨rfl, rfl⟩
    have h5 := reduceLoop_all (q := 0) [nt, op] [] s.ops (b :: a :: s.exps)
      (.bin op a (.un nt b) :: s.exps)
      (by simp only [reduceAll, reduceOp, hbin, hn2.1, hn2.2, if_true]; rfl)
      (fun o _ => Nat.zero_le _)
    have h6 := reduceLoop_stop (q := 0) [] s.ops (.bin op a (.un nt b) :: s.exps) (by simp)
    simp only [List.nil_append, List.cons_append] at h5 h6
    dsimp only
    rw [h5, h6]
  rw [pm_bind_ok h3]
  rfl

/-- C14 as stated fails. -/
theorem C14_violated : ¬ ∀ (a b : Expr Unit) (ta tb : List Token) (minus op : Token) (q : Nat),
    Gram.Reads (.opnd a) ta → Gram.Reads (.opnd b) tb → minus.type = .SUB →
    level op.type = some q → ∀ (s : PState) (t : Token) (rest : List Token),
    s.toks = (minus :: (ta ++ op :: tb)) ++ t :: rest → EndsExpr t → ∀ n, Enough n s →
    ∃ l, parseExpr n s =
      .ok (.bin op (.un minus a) b, { s with toks := t :: rest, line := l }) := by
  intro h
  have ha : Gram.Reads (.opnd (.ident (Eg.x "a") ())) [Eg.x "a"] := .ident rfl
  have hb : Gram.Reads (.opnd (.ident (Eg.x "b") ())) [Eg.x "b"] := .ident rfl
  have ht : EndsExpr (Eg.p .EOL) := by simp [EndsExpr, Eg.p, Token.plain, level]
  generalize hs : Eg.st ((Eg.p .SUB :: ([Eg.x "a"] ++ Eg.p .ADD :: [Eg.x "b"])) ++ [Eg.p .EOL]) = s
  have hs' : s.toks = (Eg.p .SUB :: ([Eg.x "a"] ++ Eg.p .ADD :: [Eg.x "b"])) ++ Eg.p .EOL :: [] := by
    rw [← hs]; rfl
  generalize hn : 8 * s.toks.length + 3 = n
  obtain ⟨l, e1⟩ := h _ _ _ _ (Eg.p .SUB) (Eg.p .ADD) 4 ha hb rfl rfl s _ _ hs' ht n (Nat.le_of_eq hn)
  obtain ⟨l', e2⟩ := C14_minus_left _ _ _ _ (Eg.p .SUB) (Eg.p .ADD) 4 ha hb rfl rfl s _ _ hs' ht n
    (Nat.le_of_eq hn)
  rw [e1] at e2
  injection e2 with e2
  injection e2 with e2
  injection e2 with _ e2
  cases e2

/-- C14, the part that holds: a minus sign whose operand is a single operand that ends the
expression; `x` is what comes before, up to an operator of any level. -/
theorem C14_minus_last_partial (x a : Expr Unit) (tx ta : List Token) (minus op : Token) (q : Nat)
    (hx : Gram.Reads (.expr q x) tx) (ha : Gram.Reads (.opnd a) ta) (hm : minus.type = .SUB)
    (ho : level op.type = some q) (s : PState) (t : Token) (rest : List Token)
    (hs : s.toks = (tx ++ op :: (minus :: ta)) ++ t :: rest) (ht : EndsExpr t) (n : Nat)
    (hn : Enough n s) :
    ∃ l, parseExpr n s =
      .ok (.bin op x (.un minus a), { s with toks := t :: rest, line := l }) :=
  C13_expression _ _ (.finBin ho (level_le ho).1 hx (.finNeg (.minus hm (.noMinus ha)))) s t rest hs ht
    n hn

/-- C14, the part that holds: `not` before everything up to the end of the expression, when that
contains no `and` or `or`; alone or behind `x and`. -/
theorem C14_not_last_partial (x a : Expr Unit) (tx ta : List Token) (nt op : Token)
    (hx : Gram.Reads (.expr 1 x) tx) (ha : Gram.Reads (.fin 2 a) ta) (hm : nt.type = .NOT)
    (ho : level op.type = some 1) (s : PState) (t : Token) (rest : List Token) (ht : EndsExpr t)
    (n : Nat) (hn : Enough n s) :
    (s.toks = (nt :: ta) ++ t :: rest → ∃ l, parseExpr n s =
      .ok (.un nt a, { s with toks := t :: rest, line := l })) ∧
    (s.toks = (tx ++ op :: (nt :: ta)) ++ t :: rest → ∃ l, parseExpr n s =
      .ok (.bin op x (.un nt a), { s with toks := t :: rest, line := l })) :=
  ⟨fun hs => C13_expression _ _ (.finNot hm (by omega) ha) s t rest hs ht n hn,
    fun hs => C13_expression _ _ (.finBin ho (by omega) hx (.finNot hm (by omega) ha)) s t rest hs ht
      n hn⟩

/-- C14, the part that holds: a unary operator with its operand inside parentheses is an operand
like any other. -/
theorem C14_parenthesised_partial (a b : Expr Unit) (ta tb : List Token) (l r u op : Token) (q : Nat)
    (hl : l.type = .LPAREN) (hr : r.type = .RPAREN) (hu : u.type = .SUB ∨ u.type = .NOT)
    (ha : Gram.Reads (.opnd a) ta) (hb : Gram.Reads (.expr (q + 1) b) tb) (ho : level op.type = some q)
    (s : PState) (t : Token) (rest : List Token)
    (hs : s.toks = ((l :: (u :: ta ++ [r])) ++ op :: tb) ++ t :: rest) (ht : EndsExpr t) (n : Nat)
    (hn : Enough n s) :
    ∃ l, parseExpr n s =
      .ok (.bin op (.un u a) b, { s with toks := t :: rest, line := l }) := by
  have hw : Gram.Reads (.whole (.un u a)) (u :: ta) := by
    rcases hu with hu | hu
    · exact .finNeg (.minus hu (.noMinus ha))
    · exact .finNot hu (by omega) (.plain (.operand ha))
  exact C13_expression _ _ (.plain (.bin ho (level_le ho).1 (.operand (.paren hl hw hr)) hb)) s t rest hs
    ht n hn

example : Gram.Reads (.opnd (.ident (Eg.x "a") ())) [Eg.x "a"] := .ident rfl
example : Gram.Reads (.expr 4 (.bin (Eg.p .MUL) (.ident (Eg.x "a") ()) (.ident (Eg.x "b") ())))
    [Eg.x "a", Eg.p .MUL, Eg.x "b"] :=
  .bin (ts := [Eg.x "a"]) (us := [Eg.x "b"]) (q := 5) rfl (by omega) (.operand (.ident rfl))
    (.operand (.ident rfl))

/-! ### C15: parsing ends -/

theorem goodToks_of {us : List Token} {e : Token} (he : e.type = .EOF) (hu : ∀ t ∈ us, t.type ≠ .EOF) :
    Safe.GoodToks (us ++ [e]) := by
  induction us with
  | nil => exact he
  | cons u us ih =>
    have := ih fun t ht => hu t (List.mem_cons_of_mem _ ht)
    cases us with
    | nil => exact ⟨hu u (by simp), this⟩
    | cons v vs => exact ⟨hu u (by simp), this⟩

/-- C15: for every token stream that ends in its only end-of-file token, every file system, and
whatever an earlier parse left behind, parsing comes to an end: with a program, having consumed all
tokens; or with a reported error; or, only if there is an `import` among the tokens, with a failed
assertion.  In particular it does not run forever (`diverge`) and does not read behind the last
token (`ub`). -/
theorem C15_parsing_ends (fs : Str → Option Str) (cur : Source) (srcs : List Source)
    (left : List (Expr Unit)) (us : List Token) (e : Token) (he : e.type = .EOF)
    (hu : ∀ t ∈ us, t.type ≠ .EOF) :
    (∃ p s, parse fs cur srcs left (us ++ [e]) = .ok (p, s) ∧ s.toks = [] ∧ s.ops = []) ∨
    (∃ err, parse fs cur srcs left (us ++ [e]) = .error (.err err)) ∨
    (parse fs cur srcs left (us ++ [e]) = .error (.fault .assert) ∧ ∃ t ∈ us, t.type = .IMPORT) := by
  have h := Safe.items_ok (imp := ∃ t ∈ us, t.type = .IMPORT) (fs := fs) (cur := cur)
    (parseFuel (us ++ [e])) ⟨us ++ [e], ⟨0, 0⟩, [], left, srcs⟩
    ⟨goodToks_of he hu, fun t ht hi => by
      rcases List.mem_append.1 ht with h | h
      · exact ⟨t, h, hi⟩
      · cases List.mem_singleton.1 h; rw [he] at hi; cases hi⟩
    (by unfold parseFuel; dsimp only; omega)
  change Safe.Ok _ (parse fs cur srcs left (us ++ [e])) _ at h
  cases hp : parse fs cur srcs left (us ++ [e]) with
  | ok r =>
    rw [hp] at h
    exact .inl ⟨r.1, r.2, rfl, h.1, h.2.1⟩
  | error er =>
    rw [hp] at h
    cases er with
    | err x => exact .inr (.inl ⟨x, rfl⟩)
    | fault f =>
      cases f with
      | assert => exact .inr (.inr ⟨rfl, h⟩)
      | _ => exact h.elim

/-- C15: without `import` parsing ends with a program or a reported error. -/
theorem C15_program_or_error (fs : Str → Option Str) (cur : Source) (srcs : List Source)
    (left : List (Expr Unit)) (us : List Token) (e : Token) (he : e.type = .EOF)
    (hu : ∀ t ∈ us, t.type ≠ .EOF) (hi : ∀ t ∈ us, t.type ≠ .IMPORT) :
    (∃ p s, parse fs cur srcs left (us ++ [e]) = .ok (p, s)) ∨
    (∃ err, parse fs cur srcs left (us ++ [e]) = .error (.err err)) := by
  rcases C15_parsing_ends fs cur srcs left us e he hu with ⟨p, s, h, -⟩ | h | ⟨-, t, ht, h⟩
  · exact .inl ⟨p, s, h⟩
  · exact .inr h
  · exact absurd h (hi t ht)

/-- C15: the tokens of every text the lexer accepts are such a stream. -/
theorem C15_source_text (fl : FloatOps) (file : Nat) (text : Str) (ts : List Token)
    (h : lex fl file text = .ok ts) (fs : Str → Option Str) (cur : Source) (srcs : List Source)
    (left : List (Expr Unit)) :
    (∃ p s, parse fs cur srcs left ts = .ok (p, s)) ∨
    (∃ err, parse fs cur srcs left ts = .error (.err err)) ∨
    (parse fs cur srcs left ts = .error (.fault .assert) ∧ ∃ t ∈ ts, t.type = .IMPORT) := by
  obtain ⟨us, e, rfl, he, hu⟩ := C07_one_eof fl file text ts h
  rcases C15_parsing_ends fs cur srcs left us e he hu with ⟨p, s, h, -⟩ | h | ⟨h, t, ht, hi⟩
  · exact .inl ⟨p, s, h⟩
  · exact .inr (.inl h)
  · exact .inr (.inr ⟨h, t, List.mem_append_left _ ht, hi⟩)

/-- C15 fails as stated: `import` without a string after it is not reported, making the message
fails an assertion (`token_name` knows neither of the two types). -/
theorem C15_import_aborts (fs : Str → Option Str) (cur : Source) (srcs : List Source)
    (left : List (Expr Unit)) (t : Token) (ht : t.type = .EOL ∨ t.type = .EOF ∨ t.type = .IDENT)
    (rest : List Token) :
    parse fs cur srcs left (Eg.p .IMPORT :: t :: rest) = .error (.fault .assert) := by
  unfold parse
  obtain ⟨m, hm⟩ : ∃ m, parseFuel (Eg.p .IMPORT :: t :: rest) = m + 1 := ⟨_, rfl⟩
  rw [hm]
  simp only [parseItems]
  rw [pm_bind_ok (found_no (t := Eg.p .IMPORT) (ts := t :: rest) rfl (by decide))]
  dsimp only
  rw [pm_bind_ok (popTok_eq (t := Eg.p .IMPORT) (ts := t :: rest) rfl)]
  rw [show (Eg.p .IMPORT).type = .IMPORT from rfl]
  dsimp only
  have h : popType .STRING ⟨t :: rest, (Eg.p .IMPORT).line, [], left, srcs⟩ = .error (.fault .assert) := by
    unfold popType
    dsimp only
    have hne : t.type ≠ .STRING := by rcases ht with h | h | h <;> rw [h] <;> decide
    rw [if_neg hne]
    unfold unexpectedToken
    have hs : ∃ x, t.string = .ok x := by
      unfold Token.string
      rw [if_neg hne]
      split
      · rcases ht with h | h | h <;> rw [h] <;> exact ⟨_, rfl⟩
      · exact ⟨_, rfl⟩
    obtain ⟨x, hx⟩ := hs
    rw [hx]
    rfl
  rw [pm_bind]
  simp only [parseImport]
  rw [pm_bind, h]

example : lex toyFl 0 (str "var a = 1 + \n") = .ok [.plain .VAR ⟨0, 1⟩, .text .IDENT (str "a") ⟨0, 1⟩,
    .plain .ASSIGN ⟨0, 1⟩, .number .INT 1 ⟨0, 1⟩, .plain .ADD ⟨0, 1⟩, .plain .EOL ⟨0, 2⟩,
    .plain .EOF ⟨0, 2⟩] := by decide +kernel

/-! ### C16: whole programs -/

/-- C16: a source that the grammar reads as a program is parsed into that program, all of it, and
the sources it imports are loaded. -/
theorem C16_parse_grammar (fs : Str → Option Str) (cur : Source) (srcs srcs' : List Source)
    (left : List (Expr Unit)) (p : Prog Unit) (ts : List Token) (e : Token) (he : e.type = .EOF)
    (h : ReadsP fs cur srcs p srcs' ts) :
    ∃ l, parse fs cur srcs left (ts ++ [e]) = .ok (p, ⟨[], l, [], left, srcs'⟩) :=
  prog_runs reads_take h he _ _ rfl rfl (by unfold parseFuel; dsimp only; omega)

/-- C16: printing a program and parsing it gives the program back. -/
theorem C16_parse_print (pu : Tok → Token) (hpu : ∀ ty, (pu ty).type = ty)
    (fs : Str → Option Str) (cur : Source) (srcs : List Source) (left : List (Expr Unit))
    (p : Prog Unit) (hp : ∀ i ∈ p, PrintableItem i) (e : Token) (he : e.type = .EOF) :
    ∃ l, parse fs cur srcs left (printP pu p ++ [e]) = .ok (p, ⟨[], l, [], left, srcs⟩) :=
  C16_parse_grammar fs cur srcs srcs left p _ e he (printP_reads hpu p hp)

/-- C16: a text, from its characters to its tree: if the words of a text are read as a program by
the grammar, then lexing and parsing the text gives the program. -/
theorem C16_text (fl : FloatOps) (file : Nat) (xs : List (Lexeme × Str)) (hx : Readable xs)
    (us : List Token) (e : Token) (hu : expectedTokens fl file 1 (xs.map (·.1)) = us ++ [e])
    (fs : Str → Option Str) (cur : Source) (srcs srcs' : List Source) (left : List (Expr Unit))
    (p : Prog Unit) (h : ReadsP fs cur srcs p srcs' us) :
    ∃ ts l, lex fl file (written xs) = .ok ts ∧
      parse fs cur srcs left ts = .ok (p, ⟨[], l, [], left, srcs'⟩) := by
  have hl := C09_lex_written fl file xs hx
  rw [hu] at hl
  obtain ⟨us', e', h1, he, -⟩ := C07_one_eof fl file _ _ hl
  obtain ⟨-, h1⟩ := List.append_inj' h1 rfl
  obtain rfl : e = e' := by injection h1
  obtain ⟨l, h2⟩ := C16_parse_grammar fs cur srcs srcs' left p us e he h
  exact ⟨_, l, hl, h2⟩

/-- C16: no source can be read as two programs. -/
theorem C16_unambiguous (fs : Str → Option Str) (cur : Source) (srcs s1 s2 : List Source)
    (p1 p2 : Prog Unit) (ts : List Token) (h1 : ReadsP fs cur srcs p1 s1 ts)
    (h2 : ReadsP fs cur srcs p2 s2 ts) : p1 = p2 ∧ s1 = s2 := by
  obtain ⟨l1, e1⟩ := C16_parse_grammar fs cur srcs s1 [] p1 ts (.plain .EOF ⟨0, 1⟩) rfl h1
  obtain ⟨l2, e2⟩ := C16_parse_grammar fs cur srcs s2 [] p2 ts (.plain .EOF ⟨0, 1⟩) rfl h2
  rw [e1] at e2
  injection e2 with e2
  injection e2 with h3 h4
  injection h4 with _ _ _ _ h5
  exact ⟨h3, h5⟩

/-- `const k = 2`, and a function with nested `if`/`else`, `while` and `for`. -/
def eg16 : Prog Unit :=
  [ .var (Eg.x "k") true (some (.int 2 (some (Eg.n 2)) none)),
    .func ⟨Eg.x "f", [Eg.x "a", Eg.x "b"],
      [ .var (Eg.x "i") () none,
        .forS (Eg.p .FOR) (Eg.x "i") () (.int 0 (some (Eg.n 0)) none) (.ident (Eg.x "a") ())
          [ .ifS (Eg.p .IF) (.bin (Eg.p .LT) (.ident (Eg.x "i") ()) (.ident (Eg.x "b") ()))
              [ .whileS (Eg.p .WHILE) (.ident (Eg.x "b") ())
                  [.assign (Eg.x "b") () (.bin (Eg.p .SUB) (.ident (Eg.x "b") ()) (.ident (Eg.x "k") ()))] ]
              true
              [ .ifS (Eg.p .IF) (.un (Eg.p .NOT) (.ident (Eg.x "b") ()))
                  [.call (Eg.p .LPAREN) (.ident (Eg.x "f") ())
                    [.ident (Eg.x "b") (), .deref (Eg.p .LBRACKET) (.ident (Eg.x "a") ()) (.ident (Eg.x "i") ())]]
                  false [] ] ],
        .ret (Eg.p .RETURN) (some (.ident (Eg.x "b") ())) ], Eg.p .END⟩ ]

example : ∀ i ∈ eg16, PrintableItem i := by
  simp [eg16, PrintableItem, Printable, PrintableB, PrintableS, PrintableList, Eg.p, Eg.x, Eg.n,
    Token.plain, Token.text, Token.number, level]

end Ccml.Props
