import Verif.ParserOnly
import Verif.Props.Parser
/-!
C61: the parser accepts only what the grammar describes.

C16 says that what the grammar in `Verif/Grammar.lean` reads as a program is parsed into it.  Here is
the converse, for sources without unary operators: `Only.NoUnary` says that there is no `not` and that
every minus sign follows the end of an operand.  (With unary operators the parser accepts more, and
other, things: C14.)
-/
namespace Ccml.Props
open Ccml Gram

theorem noUnary_end {e : Token} (he : e.type = .EOF) : ∀ (us : List Token) (prev : Tok),
    Only.NoUnary prev us → Only.NoUnary prev (us ++ [e])
  | [], _, _ => ⟨by rw [he]; decide, (fun h => by rw [he] at h; cases h), trivial⟩
  | _ :: us, _, h => ⟨h.1, h.2.1, noUnary_end he us _ h.2.2⟩

/-- C61: whatever the parser accepts is a program of the grammar, namely the one the parser returns,
and the grammar reads it from all the tokens, not only from some of them.  Nothing stays behind on the
parser's stacks. -/
theorem C61_only_partial (fs : Str → Option Str) (cur : Source) (srcs : List Source)
    (left : List (Expr Unit)) (us : List Token) (e : Token) (he : e.type = .EOF)
    (hu : ∀ t ∈ us, t.type ≠ .EOF) (hn : Only.NoUnary .EOL us) (p : Prog Unit) (s : PState)
    (h : parse fs cur srcs left (us ++ [e]) = .ok (p, s)) :
    ReadsP fs cur srcs p s.srcs us ∧ s.toks = [] ∧ s.ops = [] ∧ s.exps = left := by
  obtain ⟨k1, k2, vs, e', k3, k4, k5⟩ := Only.items_reads _ .EOL _ _ _ (noUnary_end he us _ hn) h
  dsimp only at k1 k2 k3 k5
  have : s.toks = [] ∧ us = vs := by
    rcases List.eq_nil_or_concat s.toks with hs | ⟨xs, x, hs⟩
    · rw [hs] at k3
      exact ⟨hs, (List.append_inj' k3 rfl).1⟩
    · rw [hs, List.concat_eq_append, ← List.cons_append, ← List.append_assoc] at k3
      have := (List.append_inj' k3 rfl).1
      exact absurd k4 (hu e' (by rw [this]; simp))
  obtain ⟨h1, rfl⟩ := this
  exact ⟨k5, h1, k1, k2⟩

/-- C61: the sources without unary operators that the parser accepts, and the trees it gives for them,
are exactly those of the grammar. -/
theorem C61_exactly_partial (fs : Str → Option Str) (cur : Source) (srcs srcs' : List Source)
    (left : List (Expr Unit)) (us : List Token) (e : Token) (he : e.type = .EOF)
    (hu : ∀ t ∈ us, t.type ≠ .EOF) (hn : Only.NoUnary .EOL us) (p : Prog Unit) :
    (∃ s, parse fs cur srcs left (us ++ [e]) = .ok (p, s) ∧ s.srcs = srcs') ↔
      ReadsP fs cur srcs p srcs' us := by
  constructor
  · rintro ⟨s, h, rfl⟩
    exact (C61_only_partial fs cur srcs left us e he hu hn p s h).1
  · intro h
    obtain ⟨l, h⟩ := C16_parse_grammar fs cur srcs srcs' left p us e he h
    exact ⟨_, h, rfl⟩

/-- C61: a source without unary operators and imports that is no program of the grammar is rejected
with an error message. -/
theorem C61_rejects_partial (fs : Str → Option Str) (cur : Source) (srcs : List Source)
    (left : List (Expr Unit)) (us : List Token) (e : Token) (he : e.type = .EOF)
    (hu : ∀ t ∈ us, t.type ≠ .EOF) (hi : ∀ t ∈ us, t.type ≠ .IMPORT) (hn : Only.NoUnary .EOL us)
    (hp : ∀ p srcs', ¬ ReadsP fs cur srcs p srcs' us) :
    ∃ err, parse fs cur srcs left (us ++ [e]) = .error (.err err) := by
  rcases C15_program_or_error fs cur srcs left us e he hu hi with ⟨p, s, h⟩ | h
  · exact absurd (C61_only_partial fs cur srcs left us e he hu hn p s h).1 (hp p s.srcs)
  · exact h

/-- C61: from the characters: a text without unary operators that lexes and parses consists of the
tokens the lexer returns, nothing skipped but spaces and comments, and these tokens are a program of
the grammar. -/
theorem C61_text_partial (fl : FloatOps) (file : Nat) (text : Str) (ts : List Token)
    (hl : lex fl file text = .ok ts) (hn : Only.NoUnary .EOL ts) (fs : Str → Option Str) (cur : Source)
    (srcs : List Source) (left : List (Expr Unit)) (p : Prog Unit) (s : PState)
    (h : parse fs cur srcs left ts = .ok (p, s)) :
    Ccml.Reads fl file 1 text ts ∧
      ∃ us e, ts = us ++ [e] ∧ e.type = .EOF ∧ ReadsP fs cur srcs p s.srcs us := by
  refine ⟨C08_nothing_skipped fl file text ts hl, ?_⟩
  obtain ⟨us, e, rfl, he, hu⟩ := C07_one_eof fl file text ts hl
  have hn' : Only.NoUnary .EOL us := by
    have : ∀ (us : List Token) prev, Only.NoUnary prev (us ++ [e]) → Only.NoUnary prev us := by
      intro us
      induction us with
      | nil => intro _ _; trivial
      | cons u us ih => intro _ h; exact ⟨h.1, h.2.1, ih _ h.2.2⟩
    exact this us _ hn
  exact ⟨us, e, rfl, he, (C61_only_partial fs cur srcs left us e he hu hn' p s h).1⟩

/-- `var k = a not b`. -/
def badNot : List Token :=
  [Eg.p .VAR, Eg.x "k", Eg.p .ASSIGN, Eg.x "a", Eg.p .NOT, Eg.x "b", Eg.p .EOL]

def leftOver : Comp (List (Item Unit) × PState) → Option Nat
  | .ok (_, s) => some s.exps.length
  | _ => none

/-- The file of the examples, on its own. -/
def egFile : Source := ⟨str "a.ccml", some [], []⟩
def egFs : Str → Option Str := fun _ => none

/-- C61 does not hold with unary operators: `var k = a not b` is accepted, and is no program of the
grammar. -/
theorem C61_violated :
    (∃ p s, parse egFs egFile [] [] (badNot ++ [Eg.p .EOF]) = .ok (p, s)) ∧
      ∀ p srcs', ¬ ReadsP egFs egFile [] p srcs' badNot := by
  have h : leftOver (parse egFs egFile [] [] (badNot ++ [Eg.p .EOF])) = some 1 := by decide +kernel
  constructor
  · revert h
    generalize parse egFs egFile [] [] (badNot ++ [Eg.p .EOF]) = r
    intro h
    match r, h with
    | .ok (p, s), _ => exact ⟨p, s, rfl⟩
  · intro p srcs' hp
    obtain ⟨l, hl⟩ := C16_parse_grammar egFs egFile [] srcs' [] p badNot (Eg.p .EOF) rfl hp
    rw [hl] at h
    cases h

/-! A source that meets the hypotheses: a function with a call, a subtraction and an index. -/

/-- `function f(a)` / `return g(a[0] - k) * (a - 1)` / `end`. -/
def egOnly : List Token :=
  [ Eg.p .FUNC, Eg.x "f", Eg.p .LPAREN, Eg.x "a", Eg.p .RPAREN, Eg.p .EOL,
    Eg.p .RETURN, Eg.x "g", Eg.p .LPAREN, Eg.x "a", Eg.p .LBRACKET, Eg.n 0, Eg.p .RBRACKET, Eg.p .SUB,
    Eg.x "k", Eg.p .RPAREN, Eg.p .MUL, Eg.p .LPAREN, Eg.x "a", Eg.p .SUB, Eg.n 1, Eg.p .RPAREN, Eg.p .EOL,
    Eg.p .END, Eg.p .EOL ]

example : Only.NoUnary .EOL egOnly := by decide +kernel
example : ∀ t ∈ egOnly, t.type ≠ .EOF ∧ t.type ≠ .IMPORT := by decide +kernel
example : leftOver (parse egFs egFile [] [] (egOnly ++ [Eg.p .EOF])) = some 0 := by decide +kernel

/-- `var k = a +` is no program, by C61 and the run of the parser. -/
example (p : Prog Unit) (srcs' : List Source) :
    ¬ ReadsP egFs egFile [] p srcs' [Eg.p .VAR, Eg.x "k", Eg.p .ASSIGN, Eg.x "a", Eg.p .ADD, Eg.p .EOL] := by
  intro h
  obtain ⟨s, h, -⟩ := (C61_exactly_partial egFs egFile [] srcs' [] _ (Eg.p .EOF) rfl (by decide +kernel)
    (by decide +kernel) p).2 h
  have : leftOver (parse egFs egFile [] [] ([Eg.p .VAR, Eg.x "k", Eg.p .ASSIGN, Eg.x "a", Eg.p .ADD,
    Eg.p .EOL] ++ [Eg.p .EOF])) = none := by decide +kernel
  rw [h] at this
  cases this

end Ccml.Props
