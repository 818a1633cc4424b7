import Verif.Grammar
/-!
The trees of all expressions in which `not` does not stand between two operands, written down independently of the
parser.  Where the operand of a unary operator ends the expression this agrees with the documented syntax of
`Verif/Grammar.lean`; elsewhere it says what is made of the operator instead.

An expression is a row of operands with binary operators between them and unary operators in front of operands.  Which
operand a unary operator stands before does not matter, only the order of the unary operators in the row:

* minus signs with no `not` behind them apply to the last operand of the row;
* a `not` applies to everything behind the last `and` or `or` of the row;
* minus signs with a `not` behind them apply below that `not`.
-/
namespace Ccml.Gram
open Ccml

/-- Operands and the binary operators between them, grouped by the levels of the operators: `Climb p x l e` if `x`
followed by `l` is `e` and all operators have at least level `p`. -/
inductive Climb : Nat → Expr Unit → List (Token × Expr Unit) → Expr Unit → Prop
  | one {p x} : Climb p x [] x
  | bin {p q op x l y m a b} (ho : level op.type = some q) (hp : p ≤ q) (ha : Climb q x l a)
      (hb : Climb (q + 1) y m b) : Climb p x (l ++ (op, y) :: m) (.bin op a b)

/-- Unary operators in front of a tree, the first one outermost. -/
def wrap (us : List Token) (e : Expr Unit) : Expr Unit := us.foldr .un e

/-- The unary operators of a row in the order they are written: those that apply to everything behind the last `and`
or `or`, outermost first, and those that apply to the last operand.  Minus signs move behind the next `not`. -/
def share : List Token → List Token × List Token
  | [] => ([], [])
  | u :: us =>
    match share us with
    | (outer, inner) =>
      if u.type = .NOT then (u :: outer, inner)
      else
        match outer with
        | [] => ([], u :: inner)
        | t :: ts => (t :: u :: ts, inner)

/-- A row with unary operators applied to its last operand. -/
def signLast (us : List Token) : Expr Unit → List (Token × Expr Unit) → Expr Unit × List (Token × Expr Unit)
  | x, [] => (wrap us x, [])
  | x, (op, y) :: l =>
    match signLast us y l with
    | (z, m) => (x, (op, z) :: m)

/-- A row with unary operators applied to everything behind its last `and` or `or`. -/
inductive Signed (us : List Token) : Expr Unit → List (Token × Expr Unit) → Expr Unit → Prop
  | alone {x l c} (hc : Climb 2 x l c) : Signed us x l (wrap us c)
  | chain {op x l y m a c} (ho : level op.type = some 1) (ha : Climb 1 x l a) (hc : Climb 2 y m c) :
      Signed us x (l ++ (op, y) :: m) (.bin op a (wrap us c))

/-- What can be read in an expression. -/
inductive Piece
  /-- a literal, name, array, call, index or parenthesised expression -/
  | opnd (e : Expr Unit)
  /-- the unary operators, the first operand, and the binary operators with the operands behind them -/
  | row (us : List Token) (x : Expr Unit) (l : List (Token × Expr Unit))
  /-- an expression -/
  | whole (e : Expr Unit)
  /-- one or more expressions, separated by commas -/
  | exprs (es : List (Expr Unit))
  /-- any number of expressions, separated by commas -/
  | args (es : List (Expr Unit))

/-- The grammar of expressions. -/
inductive Writes : Piece → List Token → Prop
  | literal {t e} (h : Literal t e) : Writes (.opnd e) [t]
  | ident {t} (h : t.type = .IDENT) : Writes (.opnd (.ident t ())) [t]
  | member {t d m} (ht : t.type = .IDENT) (hd : d.type = .DOT) (hm : m.type = .IDENT) :
      Writes (.opnd (.member t m ())) [t, d, m]
  | arr {l r es ts} (hl : l.type = .LBRACKET) (h : Writes (.exprs es) ts) (hr : r.type = .RBRACKET) :
      Writes (.opnd (.arr l es)) (l :: (ts ++ [r]))
  | paren {l r e ts} (hl : l.type = .LPAREN) (h : Writes (.whole e) ts) (hr : r.type = .RPAREN) :
      Writes (.opnd e) (l :: (ts ++ [r]))
  | deref {l r e i ts us} (h : Writes (.opnd e) ts) (hl : l.type = .LBRACKET) (hi : Writes (.whole i) us)
      (hr : r.type = .RBRACKET) : Writes (.opnd (.deref l e i)) (ts ++ (l :: (us ++ [r])))
  | call {l r e as ts us} (h : Writes (.opnd e) ts) (hl : l.type = .LPAREN) (ha : Writes (.args as) us)
      (hr : r.type = .RPAREN) : Writes (.opnd (.call l e as)) (ts ++ (l :: (us ++ [r])))
  | last {x ts} (h : Writes (.opnd x) ts) : Writes (.row [] x []) ts
  | sign {t us x l ts} (ht : t.type = .NOT ∨ t.type = .SUB) (h : Writes (.row us x l) ts) :
      Writes (.row (t :: us) x l) (t :: ts)
  | next {us x op y l ts vs} (h : Writes (.opnd x) ts) (ho : level op.type ≠ none) (hr : Writes (.row us y l) vs) :
      Writes (.row us x ((op, y) :: l)) (ts ++ op :: vs)
  | whole {us x l e ts} (h : Writes (.row us x l) ts)
      (he : Signed (share us).1 (signLast (share us).2 x l).1 (signLast (share us).2 x l).2 e) :
      Writes (.whole e) ts
  | one {e ts} (h : Writes (.whole e) ts) : Writes (.exprs [e]) ts
  | more {e es c ts us} (h : Writes (.whole e) ts) (hc : c.type = .COMMA) (hs : Writes (.exprs es) us) :
      Writes (.exprs (e :: es)) (ts ++ c :: us)
  | noArgs : Writes (.args []) []
  | someArgs {es ts} (h : Writes (.exprs es) ts) : Writes (.args es) ts

/-- Tokens an operand can end in. -/
def EndsOperand (t : Tok) : Prop :=
  t = .IDENT ∨ t = .INT ∨ t = .FLOAT ∨ t = .STRING ∨ t = .NONE ∨ t = .RPAREN ∨ t = .RBRACKET

/-- No `not` stands right behind an operand. -/
def PrefixNot (ts : List Token) : Prop := ∀ a b, [a, b] <:+: ts → b.type = .NOT → ¬ EndsOperand a.type

/-- The source files whose expressions are those above. -/
abbrev WritesP : (Str → Option Str) → Source → List Source → Prog Unit → List Source → List Token → Prop :=
  FileOf (fun e => Writes (.whole e)) (fun as => Writes (.args as))

end Ccml.Gram
