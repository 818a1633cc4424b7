import Verif.SignsTotal
import Verif.Props.Words
/-!
C78: the tree of every accepted source in which no `not` stands behind an operand, unary operators included.

The trees are those of the grammar in `Verif/Signs.lean`.
-/
namespace Ccml.Props
open Ccml Ccml.Gram

/-- C78: a source of the grammar is parsed into its tree, whatever earlier parses left behind. -/
theorem C78_parses (fs : Str → Option Str) (cur : Source) (srcs srcs' : List Source) (left : List (Expr Unit))
    (p : Prog Unit) (ts : List Token) (e : Token) (he : e.type = .EOF) (h : WritesP fs cur srcs p srcs' ts) :
    ∃ l, parse fs cur srcs left (ts ++ [e]) = .ok (p, ⟨[], l, [], left, srcs'⟩) :=
  prog_runs writes_take h he _ _ rfl rfl (by unfold parseFuel; dsimp only; omega)

/-- C78: a source without a `not` behind an operand is parsed into a tree exactly if the grammar gives it that tree. -/
theorem C78_exact (fs : Str → Option Str) (cur : Source) (srcs : List Source) (left : List (Expr Unit))
    (ts : List Token) (e : Token) (he : e.type = .EOF) (hu : ∀ t ∈ ts, t.type ≠ .EOF) (hn : PrefixNot ts)
    (p : Prog Unit) (srcs' : List Source) :
    (∃ s, parse fs cur srcs left (ts ++ [e]) = .ok (p, s) ∧ s.srcs = srcs') ↔ WritesP fs cur srcs p srcs' ts := by
  constructor
  · rintro ⟨s, h, rfl⟩
    obtain ⟨p', h'⟩ := file_tree ((C74_language fs cur srcs s.srcs left ts e he hu).1 ⟨p, s, h, rfl⟩) hn
    obtain ⟨l, h1⟩ := C78_parses fs cur srcs s.srcs left p' ts e he h'
    rw [h] at h1
    injection h1 with h1
    injection h1 with h1 _
    rw [h1]
    exact h'
  · intro h
    obtain ⟨l, h1⟩ := C78_parses fs cur srcs srcs' left p ts e he h
    exact ⟨_, h1, rfl⟩

/-- C78: such a source, once accepted, leaves the stacks of the parser as they were. -/
theorem C78_clean (fs : Str → Option Str) (cur : Source) (srcs : List Source) (left : List (Expr Unit))
    (ts : List Token) (e : Token) (he : e.type = .EOF) (hu : ∀ t ∈ ts, t.type ≠ .EOF) (hn : PrefixNot ts)
    (p : Prog Unit) (s : PState) (h : parse fs cur srcs left (ts ++ [e]) = .ok (p, s)) :
    s.ops = [] ∧ s.exps = left ∧ s.toks = [] := by
  obtain ⟨l, h1⟩ := C78_parses fs cur srcs s.srcs left p ts e he
    ((C78_exact fs cur srcs left ts e he hu hn p s.srcs).1 ⟨s, h, rfl⟩)
  rw [h] at h1
  injection h1 with h1
  injection h1 with _ h1
  rw [h1]
  exact ⟨rfl, rfl, rfl⟩

/-- C78: from the characters. -/
theorem C78_text (fl : FloatOps) (file : Nat) (text : Str) (ts : List Token) (hl : lex fl file text = .ok ts)
    (hn : PrefixNot ts.dropLast) (fs : Str → Option Str) (cur : Source) (srcs srcs' : List Source)
    (left : List (Expr Unit)) (p : Prog Unit) :
    (∃ s, parse fs cur srcs left ts = .ok (p, s) ∧ s.srcs = srcs') ↔ WritesP fs cur srcs p srcs' ts.dropLast := by
  obtain ⟨us, e, rfl, he, hu⟩ := C07_one_eof fl file text ts hl
  rw [List.dropLast_concat] at hn ⊢
  exact C78_exact fs cur srcs left us e he hu hn p srcs'

/-- C78: the grammar gives a source at most one tree. -/
theorem C78_unambiguous (fs : Str → Option Str) (cur : Source) (srcs s1 s2 : List Source) (p1 p2 : Prog Unit)
    (ts : List Token) (h1 : WritesP fs cur srcs p1 s1 ts) (h2 : WritesP fs cur srcs p2 s2 ts) :
    p1 = p2 ∧ s1 = s2 := by
  obtain ⟨l1, e1⟩ := C78_parses fs cur srcs s1 [] p1 ts (.plain .EOF ⟨0, 1⟩) rfl h1
  obtain ⟨l2, e2⟩ := C78_parses fs cur srcs s2 [] p2 ts (.plain .EOF ⟨0, 1⟩) rfl h2
  rw [e1] at e2
  injection e2 with e2
  injection e2 with h3 h4
  injection h4 with _ _ _ _ h5
  exact ⟨h3, h5⟩

/-- C78: where the documented syntax has a tree, the grammar has the same one. -/
theorem C78_documented (fs : Str → Option Str) (cur : Source) (srcs srcs' : List Source) (p : Prog Unit)
    (ts : List Token) (hu : ∀ t ∈ ts, t.type ≠ .EOF) (hn : PrefixNot ts) (h : ReadsP fs cur srcs p srcs' ts) :
    WritesP fs cur srcs p srcs' ts := by
  obtain ⟨l, h1⟩ := C16_parse_grammar fs cur srcs srcs' [] p ts (.plain .EOF ⟨0, 1⟩) rfl h
  exact (C78_exact fs cur srcs [] ts (.plain .EOF ⟨0, 1⟩) rfl hu hn p srcs').1 ⟨_, h1, rfl⟩

/-- C78: it does not matter before which operand a unary operator stands: moved behind the next binary operator, the
expression is read the same.  So `- a * b` is `a * - b` and `not a and b` is `a and not b`. -/
theorem C78_moves (a y : Expr Unit) (us : List Token) (l : List (Token × Expr Unit)) (ta tv : List Token) (u op : Token)
    (ha : Writes (.opnd a) ta) (hv : Writes (.row us y l) tv) (hu : u.type = .NOT ∨ u.type = .SUB)
    (ho : level op.type ≠ none) :
    ∃ e, ∀ (s : PState) (rest : List Token) (n : Nat), Stops rest → 8 * s.toks.length + 3 ≤ n →
      s.toks = u :: (ta ++ op :: tv) ++ rest ∨ s.toks = (ta ++ op :: (u :: tv)) ++ rest →
      ∃ ln, parseExpr n s = .ok (e, { s with toks := rest, line := ln }) := by
  have h1 : Writes (.row (u :: us) a ((op, y) :: l)) (u :: (ta ++ op :: tv)) := .sign hu (.next ha ho hv)
  have h2 : Writes (.row (u :: us) a ((op, y) :: l)) (ta ++ op :: (u :: tv)) := .next ha ho (.sign hu hv)
  obtain ⟨e, he⟩ := signed_total (share (u :: us)).1 (signLast (share (u :: us)).2 a ((op, y) :: l)).1
    (signLast (share (u :: us)).2 a ((op, y) :: l)).2 (signLast_levels _ _ _ (row_levels h1))
  refine ⟨e, fun s rest n hr hn hs => ?_⟩
  rcases hs with hs | hs
  · exact writes_runs (.whole h1 he) hs hr hn
  · exact writes_runs (.whole h2 he) hs hr hn

/-! ### Examples -/

/-- `- a * - not b < c and - not - d`, an expression with every kind of misplaced operator. -/
def signToks : List Token :=
  [Eg.p .SUB, Eg.x "a", Eg.p .MUL, Eg.p .SUB, Eg.p .NOT, Eg.x "b", Eg.p .LT, Eg.x "c", Eg.p .AND, Eg.p .SUB, Eg.p .NOT,
    Eg.p .SUB, Eg.x "d"]

/-- Its tree is that of `a * b < c and not - not - - - d`: nothing applies to `a`, `b` or `c`. -/
def signTree : Expr Unit :=
  .bin (Eg.p .AND)
    (.bin (Eg.p .LT) (.bin (Eg.p .MUL) (.ident (Eg.x "a") ()) (.ident (Eg.x "b") ())) (.ident (Eg.x "c") ()))
    (.un (Eg.p .NOT) (.un (Eg.p .SUB) (.un (Eg.p .SUB) (.un (Eg.p .NOT) (.un (Eg.p .SUB)
      (.un (Eg.p .SUB) (.ident (Eg.x "d") ())))))))

theorem signRow : Writes (.row [Eg.p .SUB, Eg.p .SUB, Eg.p .NOT, Eg.p .SUB, Eg.p .NOT, Eg.p .SUB] (.ident (Eg.x "a") ())
    [(Eg.p .MUL, .ident (Eg.x "b") ()), (Eg.p .LT, .ident (Eg.x "c") ()), (Eg.p .AND, .ident (Eg.x "d") ())]) signToks :=
  .sign (.inr rfl) (.next (.ident rfl) (by decide) (.sign (.inr rfl) (.sign (.inl rfl) (.next (.ident rfl) (by decide)
    (.next (.ident rfl) (by decide) (.sign (.inr rfl) (.sign (.inl rfl) (.sign (.inr rfl) (.last (.ident rfl))))))))))

theorem signWhole : Writes (.whole signTree) signToks :=
  .whole signRow (Signed.chain (op := Eg.p .AND) (l := [(Eg.p .MUL, .ident (Eg.x "b") ()), (Eg.p .LT, .ident (Eg.x "c") ())])
    (m := []) rfl
    (Climb.bin (q := 3) (op := Eg.p .LT) (l := [(Eg.p .MUL, .ident (Eg.x "b") ())]) (m := []) rfl (by decide)
      (Climb.bin (q := 5) (op := Eg.p .MUL) (l := []) (m := []) rfl (by decide) .one .one) .one)
    .one)

/-- The source `var x = - a * - not b < c and - not - d`. -/
def signFile : List Token := Eg.p .VAR :: Eg.x "x" :: Eg.p .ASSIGN :: (signToks ++ [Eg.p .EOL])

/-- Its tree. -/
theorem signFile_tree : WritesP egFs egFile [] [.var (Eg.x "x") false (some signTree)] [] signFile :=
  FileOf.init (v := Eg.p .VAR) (name := Eg.x "x") (a := Eg.p .ASSIGN) (.inl rfl) rfl rfl signWhole
    (FileOf.eol (t := Eg.p .EOL) rfl .nil)

/-- `PrefixNot` by looking at neighbours. -/
theorem prefixNot_cons (a b : Token) (ts : List Token) (h : b.type = .NOT → ¬ EndsOperand a.type)
    (hs : PrefixNot (b :: ts)) : PrefixNot (a :: b :: ts) := by
  rintro c d ⟨pre, post, he⟩
  cases pre with
  | nil =>
    simp only [List.nil_append, List.cons_append] at he
    injection he with h1 h2
    injection h2 with h2 _
    rw [h1, h2]; exact h
  | cons x pre =>
    simp only [List.cons_append] at he
    injection he with _ he
    exact hs c d ⟨pre, post, he⟩

theorem prefixNot_one (a : Token) : PrefixNot [a] := by
  rintro c d ⟨pre, post, he⟩
  have := congrArg List.length he
  simp at this
  omega

theorem signFile_prefix : PrefixNot signFile := by
  unfold signFile signToks
  repeat (first | exact prefixNot_one _ | refine prefixNot_cons _ _ _ ?_ ?_; · simp [EndsOperand, Eg.p, Eg.x, Token.plain, Token.text])

/-- `C78_parses` and `C78_exact` on it. -/
example : ∃ l, parse egFs egFile [] [] (signFile ++ [Eg.p .EOF]) =
    .ok ([.var (Eg.x "x") false (some signTree)], ⟨[], l, [], [], []⟩) :=
  C78_parses _ _ _ _ _ _ _ _ rfl signFile_tree

example (p : Prog Unit) (s : PState)
    (h : parse egFs egFile [] [] (signFile ++ [Eg.p .EOF]) = .ok (p, s)) :
    p = [.var (Eg.x "x") false (some signTree)] ∧ s.exps = [] := by
  have hu : ∀ t ∈ signFile, t.type ≠ .EOF := by
    unfold signFile signToks
    simp [Eg.p, Eg.x, Token.plain, Token.text]
  have h1 := (C78_exact _ _ _ _ _ _ rfl hu signFile_prefix p s.srcs).1 ⟨s, h, rfl⟩
  exact ⟨(C78_unambiguous _ _ _ _ _ _ _ _ h1 signFile_tree).1, (C78_clean _ _ _ _ _ _ rfl hu signFile_prefix p s h).2.1⟩

/-- `C78_moves`: `- a * b` and `a * - b`. -/
example : ∃ e, ∀ (s : PState) (rest : List Token) (n : Nat), Stops rest → 8 * s.toks.length + 3 ≤ n →
    s.toks = Eg.p .SUB :: ([Eg.x "a"] ++ Eg.p .MUL :: [Eg.x "b"]) ++ rest ∨
      s.toks = ([Eg.x "a"] ++ Eg.p .MUL :: (Eg.p .SUB :: [Eg.x "b"])) ++ rest →
    ∃ ln, parseExpr n s = .ok (e, { s with toks := rest, line := ln }) :=
  C78_moves _ _ _ _ _ _ _ _ (.ident rfl) (.last (.ident rfl)) (.inr rfl) (by decide)

/-- The tokens of `var x = a + (b not c)`. -/
def theftToks : List Token :=
  [Eg.p .VAR, Eg.x "x", Eg.p .ASSIGN, Eg.x "a", Eg.p .ADD, Eg.p .LPAREN, Eg.x "b", Eg.p .NOT, Eg.x "c", Eg.p .RPAREN,
    Eg.p .EOL, Eg.p .EOF]

/-- Why `not` behind an operand is left out: of `a + (b not c)` the sum is that of `b` and `not c`.  The left operand of
the sum comes from inside the parentheses, and `a` stays behind on the stack. -/
theorem C78_theft : ∃ x op b t c a s, parse egFs egFile [] [] theftToks =
      .ok ([.var x false (some (.bin op (.ident b ()) (.un t (.ident c ()))))], s) ∧
    op.type = .ADD ∧ b.str = str "b" ∧ t.type = .NOT ∧ c.str = str "c" ∧ s.exps = [.ident a ()] ∧ a.str = str "a" := by
  have h : (match parse egFs egFile [] [] theftToks with
    | .ok ([.var _ false (some (.bin op (.ident b ()) (.un t (.ident c ()))))], s) =>
      (match s.exps with
      | [.ident a ()] => decide (op.type = .ADD ∧ b.str = str "b" ∧ t.type = .NOT ∧ c.str = str "c" ∧ a.str = str "a")
      | _ => false)
    | _ => false) = true := by decide +kernel
  split at h
  · next x op b t c s hp =>
    split at h
    · next a ha =>
      obtain ⟨h1, h2, h3, h4, h5⟩ := of_decide_eq_true h
      exact ⟨x, op, b, t, c, a, s, hp, h1, h2, h3, h4, ha, h5⟩
    · cases h
  · cases h

end Ccml.Props
