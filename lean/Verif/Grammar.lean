import Verif.Ast
import Verif.Source
/-!
The documented syntax as a grammar, written down independently of the parser: `Reads f ts` says that
the tokens `ts` are a way to write the tree `f`.

Operators bind, from loose to tight: `and or`, `not`, comparisons, `+ -`, `* / %`; operators of one
level associate to the left.  The unary operators are only given a meaning where their operand ends
the expression; elsewhere the parser does not treat them as an operator of their operand (see
`C14_minus_left` and the theorems next to it).
-/
namespace Ccml.Gram
open Ccml

/-- How tightly a binary operator binds; level 2 is that of `not`. -/
def level : Tok → Option Nat
  | .AND | .OR => some 1
  | .LT | .GT | .LEQ | .GEQ | .EQ => some 3
  | .ADD | .SUB => some 4
  | .MUL | .DIV | .MOD => some 5
  | _ => none

/-- A token that is an operand by itself, and its node. -/
inductive Literal : Token → Expr Unit → Prop
  | int (t : Token) (h : t.type = .INT) : Literal t (.int t.val (some t) none)
  | float (t : Token) (h : t.type = .FLOAT) : Literal t (.float t.val (some t))
  | str (t : Token) (h : t.type = .STRING) : Literal t (.str t.str (some t))
  | none (t : Token) (h : t.type = .NONE) : Literal t (.none (some t))

/-- What can be read in an expression. -/
inductive Form
  /-- a literal, name, array, call, index or parenthesised expression -/
  | opnd (e : Expr Unit)
  /-- an expression of operators of at least level `p`, anywhere -/
  | expr (p : Nat) (e : Expr Unit)
  /-- an operand with minus signs before it, at the end of an expression -/
  | neg (e : Expr Unit)
  /-- an expression of operators of at least level `p` that reaches to the end of the whole -/
  | fin (p : Nat) (e : Expr Unit)
  /-- one or more expressions, separated by commas -/
  | exprs (es : List (Expr Unit))
  /-- any number of expressions, separated by commas -/
  | args (es : List (Expr Unit))

/-- A whole expression. -/
abbrev Form.whole (e : Expr Unit) : Form := .fin 1 e

/-- The grammar of expressions. -/
inductive Reads : Form → List Token → Prop
  | literal {t e} (h : Literal t e) : Reads (.opnd e) [t]
  | ident {t} (h : t.type = .IDENT) : Reads (.opnd (.ident t ())) [t]
  | member {t d m} (ht : t.type = .IDENT) (hd : d.type = .DOT) (hm : m.type = .IDENT) :
      Reads (.opnd (.member t m ())) [t, d, m]
  | arr {l r es ts} (hl : l.type = .LBRACKET) (h : Reads (.exprs es) ts) (hr : r.type = .RBRACKET) :
      Reads (.opnd (.arr l es)) (l :: (ts ++ [r]))
  | paren {l r e ts} (hl : l.type = .LPAREN) (h : Reads (.whole e) ts) (hr : r.type = .RPAREN) :
      Reads (.opnd e) (l :: (ts ++ [r]))
  | deref {l r e i ts us} (h : Reads (.opnd e) ts) (hl : l.type = .LBRACKET)
      (hi : Reads (.whole i) us) (hr : r.type = .RBRACKET) :
      Reads (.opnd (.deref l e i)) (ts ++ (l :: (us ++ [r])))
  | call {l r e as ts us} (h : Reads (.opnd e) ts) (hl : l.type = .LPAREN)
      (ha : Reads (.args as) us) (hr : r.type = .RPAREN) :
      Reads (.opnd (.call l e as)) (ts ++ (l :: (us ++ [r])))
  | one {e ts} (h : Reads (.whole e) ts) : Reads (.exprs [e]) ts
  | more {e es c ts us} (h : Reads (.whole e) ts) (hc : c.type = .COMMA) (hs : Reads (.exprs es) us) :
      Reads (.exprs (e :: es)) (ts ++ c :: us)
  | noArgs : Reads (.args []) []
  | someArgs {es ts} (h : Reads (.exprs es) ts) : Reads (.args es) ts
  | operand {p e ts} (h : Reads (.opnd e) ts) : Reads (.expr p e) ts
  | bin {p q op l r ts us} (ho : level op.type = some q) (hp : p ≤ q) (hl : Reads (.expr q l) ts)
      (hr : Reads (.expr (q + 1) r) us) : Reads (.expr p (.bin op l r)) (ts ++ op :: us)
  | plain {p e ts} (h : Reads (.expr p e) ts) : Reads (.fin p e) ts
  | finBin {p q op l r ts us} (ho : level op.type = some q) (hp : p ≤ q) (hl : Reads (.expr q l) ts)
      (hr : Reads (.fin (q + 1) r) us) : Reads (.fin p (.bin op l r)) (ts ++ op :: us)
  | finNot {p t e ts} (ht : t.type = .NOT) (hp : p ≤ 2) (h : Reads (.fin 2 e) ts) :
      Reads (.fin p (.un t e)) (t :: ts)
  | finNeg {p e ts} (h : Reads (.neg e) ts) : Reads (.fin p e) ts
  | noMinus {e ts} (h : Reads (.opnd e) ts) : Reads (.neg e) ts
  | minus {t e ts} (ht : t.type = .SUB) (h : Reads (.neg e) ts) : Reads (.neg (.un t e)) (t :: ts)

/-- What can be read in a function. -/
inductive SForm
  /-- one statement, without the ends of lines around it -/
  | stmt (s : Stmt Unit)
  /-- statements, each ended by one or more ends of lines -/
  | block (ss : List (Stmt Unit))
  /-- statements, with blank lines before the first -/
  | body (ss : List (Stmt Unit))

/-- Blank lines. -/
def Eols (ts : List Token) : Prop := ∀ t ∈ ts, t.type = .EOL

section
variable (W : Expr Unit → List Token → Prop) (A : List (Expr Unit) → List Token → Prop)

/-- The grammar of statements, over a grammar `W` of expressions and `A` of the arguments of calls. -/
inductive StmtOf : SForm → List Token → Prop
  | var {v name} (hv : v.type = .VAR) (hn : name.type = .IDENT) :
      StmtOf (.stmt (.var name () none)) [v, name]
  | varInit {v name a e ts} (hv : v.type = .VAR) (hn : name.type = .IDENT) (ha : a.type = .ASSIGN)
      (he : W e ts) : StmtOf (.stmt (.var name () (some e))) (v :: name :: a :: ts)
  | assign {name a e ts} (hn : name.type = .IDENT) (ha : a.type = .ASSIGN)
      (he : W e ts) : StmtOf (.stmt (.assign name () e)) (name :: a :: ts)
  | compound {name op a e ts} (hn : name.type = .IDENT)
      (ho : op.type = .ADD ∨ op.type = .SUB ∨ op.type = .MUL ∨ op.type = .DIV)
      (ha : a.type = .ASSIGN) (he : W e ts) :
      StmtOf (.stmt (.assign name () (.bin op (.ident name ()) e))) (name :: op :: a :: ts)
  | assignMem {name d m a e ts} (hn : name.type = .IDENT) (hd : d.type = .DOT)
      (hm : m.type = .IDENT) (ha : a.type = .ASSIGN) (he : W e ts) :
      StmtOf (.stmt (.assignMem name m () e)) (name :: d :: m :: a :: ts)
  | assignArr {name l i r a e ts us} (hn : name.type = .IDENT) (hl : l.type = .LBRACKET)
      (hi : W i ts) (hr : r.type = .RBRACKET) (ha : a.type = .ASSIGN)
      (he : W e us) :
      StmtOf (.stmt (.assignArr name () i e)) (name :: l :: (ts ++ (r :: a :: us)))
  | call {name l r as ts} (hn : name.type = .IDENT) (hl : l.type = .LPAREN)
      (ha : A as ts) (hr : r.type = .RPAREN) :
      StmtOf (.stmt (.call l (.ident name ()) as)) (name :: l :: (ts ++ [r]))
  | ret {t} (ht : t.type = .RETURN) : StmtOf (.stmt (.ret t none)) [t]
  | retVal {t e ts} (ht : t.type = .RETURN) (he : W e ts) :
      StmtOf (.stmt (.ret t (some e))) (t :: ts)
  | ifS {t l c r n b e ts us} (ht : t.type = .IF) (hl : l.type = .LPAREN)
      (hc : W c ts) (hr : r.type = .RPAREN) (hn : n.type = .EOL)
      (hb : StmtOf (.body b) us) (he : e.type = .END) :
      StmtOf (.stmt (.ifS t c b false [])) (t :: l :: (ts ++ (r :: n :: (us ++ [e]))))
  | ifElse {t l c r n b els m b' e ts us vs} (ht : t.type = .IF) (hl : l.type = .LPAREN)
      (hc : W c ts) (hr : r.type = .RPAREN) (hn : n.type = .EOL)
      (hb : StmtOf (.body b) us) (hels : els.type = .ELSE) (hm : m.type = .EOL)
      (hb' : StmtOf (.body b') vs) (he : e.type = .END) :
      StmtOf (.stmt (.ifS t c b true b'))
        (t :: l :: (ts ++ (r :: n :: (us ++ (els :: m :: (vs ++ [e]))))))
  | whileS {t l c r n b e ts us} (ht : t.type = .WHILE) (hl : l.type = .LPAREN)
      (hc : W c ts) (hr : r.type = .RPAREN) (hn : n.type = .EOL)
      (hb : StmtOf (.body b) us) (he : e.type = .END) :
      StmtOf (.stmt (.whileS t c b)) (t :: l :: (ts ++ (r :: n :: (us ++ [e]))))
  | forS {t l name a x o y r n b e ts us vs} (ht : t.type = .FOR) (hl : l.type = .LPAREN)
      (hname : name.type = .IDENT) (ha : a.type = .ASSIGN) (hx : W x ts)
      (ho : o.type = .TO) (hy : W y us) (hr : r.type = .RPAREN) (hn : n.type = .EOL)
      (hb : StmtOf (.body b) vs) (he : e.type = .END) :
      StmtOf (.stmt (.forS t name () x y b))
        (t :: l :: name :: a :: (ts ++ (o :: (us ++ (r :: n :: (vs ++ [e]))))))
  | nil : StmtOf (.block []) []
  | cons {s ss ts n after us} (h : StmtOf (.stmt s) ts) (hn : n.type = .EOL) (ha : Eols after)
      (hs : StmtOf (.block ss) us) : StmtOf (.block (s :: ss)) (ts ++ (n :: (after ++ us)))
  | body {ss before ts} (hb : Eols before) (h0 : ss = [] → before = []) (h : StmtOf (.block ss) ts) :
      StmtOf (.body ss) (before ++ ts)

/-- Names separated by commas. -/
inductive ReadsNames : List Token → List Token → Prop
  | one {a} (h : a.type = .IDENT) : ReadsNames [a] [a]
  | more {a c as ts} (h : a.type = .IDENT) (hc : c.type = .COMMA) (hs : ReadsNames as ts) :
      ReadsNames (a :: as) (a :: c :: ts)

/-- The grammar of functions, behind the word `function`. -/
inductive FuncOf : FuncDecl Unit → List Token → Prop
  | noArgs {name l r n b e ts} (hname : name.type = .IDENT) (hl : l.type = .LPAREN)
      (hr : r.type = .RPAREN) (hn : n.type = .EOL) (hb : StmtOf W A (.body b) ts) (he : e.type = .END) :
      FuncOf ⟨name, [], b, e⟩ (name :: l :: r :: n :: (ts ++ [e]))
  | args {name l r n b e as ns ts} (hname : name.type = .IDENT) (hl : l.type = .LPAREN)
      (ha : ReadsNames as ns) (hr : r.type = .RPAREN) (hn : n.type = .EOL)
      (hb : StmtOf W A (.body b) ts) (he : e.type = .END) :
      FuncOf ⟨name, as, b, e⟩ (name :: l :: (ns ++ (r :: n :: (ts ++ [e]))))

/-- The grammar of a source file, without its end-of-file token: the children it adds to the
program, with the sources known before and after the imports. -/
inductive FileOf (fs : Str → Option Str) (cur : Source) :
    List Source → Prog Unit → List Source → List Token → Prop
  | nil {ss} : FileOf fs cur ss [] ss []
  | eol {t ss p ss' ts} (ht : t.type = .EOL) (h : FileOf fs cur ss p ss' ts) :
      FileOf fs cur ss p ss' (t :: ts)
  | decl {v name ss p ss' ts} (hv : v.type = .VAR ∨ v.type = .CONST) (hn : name.type = .IDENT)
      (h : FileOf fs cur ss p ss' ts) :
      FileOf fs cur ss (.var name (v.type == .CONST) none :: p) ss' (v :: name :: ts)
  | init {v name a e ss p ss' ts us} (hv : v.type = .VAR ∨ v.type = .CONST) (hn : name.type = .IDENT)
      (ha : a.type = .ASSIGN) (he : W e ts) (h : FileOf fs cur ss p ss' us) :
      FileOf fs cur ss (.var name (v.type == .CONST) (some e) :: p) ss' (v :: name :: a :: (ts ++ us))
  | func {t f ss p ss' ts us} (ht : t.type = .FUNC) (hf : FuncOf W A f ts)
      (h : FileOf fs cur ss p ss' us) : FileOf fs cur ss (.func f :: p) ss' (t :: (ts ++ us))
  | imp {t n ss ss1 p ss' ts} (ht : t.type = .IMPORT) (hn : n.type = .STRING)
      (hl : loadSource fs ss (cstr (importedPath cur (cstr n.str))) = (true, ss1))
      (h : FileOf fs cur ss1 p ss' ts) : FileOf fs cur ss p ss' (t :: n :: ts)

end

/-- The statements of the documented syntax. -/
abbrev ReadsS : SForm → List Token → Prop := StmtOf (fun e => Reads (.whole e)) (fun as => Reads (.args as))

/-- The functions of the documented syntax. -/
abbrev ReadsF : FuncDecl Unit → List Token → Prop := FuncOf (fun e => Reads (.whole e)) (fun as => Reads (.args as))

/-- The source files of the documented syntax. -/
abbrev ReadsP : (Str → Option Str) → Source → List Source → Prog Unit → List Source → List Token → Prop :=
  FileOf (fun e => Reads (.whole e)) (fun as => Reads (.args as))

/-! ### Printing

`pu ty` is the token used for punctuation of type `ty`, which the tree does not record. -/

/-- The level of an operand, above all operators. -/
def operandLevel : Nat := 6

mutual

/-- The tokens of a tree where operators of at least level `p` may stand, with parentheses only
around operators that bind less, and around unary operators. -/
def printE (pu : Tok → Token) : Nat → Expr Unit → List Token
  | _, .ident t _ => [t]
  | _, .int _ t _ => t.toList
  | _, .float _ t => t.toList
  | _, .str _ t => t.toList
  | _, .none t => t.toList
  | _, .member t m _ => [t, pu .DOT, m]
  | _, .arr t es => t :: (printEs pu es ++ [pu .RBRACKET])
  | _, .deref t l i => printE pu operandLevel l ++ (t :: (printE pu 1 i ++ [pu .RBRACKET]))
  | _, .call t c as => printE pu operandLevel c ++ (t :: (printEs pu as ++ [pu .RPAREN]))
  | p, .bin op l r =>
    match level op.type with
    | some q =>
      if p ≤ q then printE pu q l ++ op :: printE pu (q + 1) r
      else pu .LPAREN :: ((printE pu q l ++ op :: printE pu (q + 1) r) ++ [pu .RPAREN])
    | none => []
  | _, .un op e => pu .LPAREN :: ((op :: printE pu operandLevel e) ++ [pu .RPAREN])

/-- Expressions separated by commas. -/
def printEs (pu : Tok → Token) : List (Expr Unit) → List Token
  | [] => []
  | e :: es =>
    match es with
    | [] => printE pu 1 e
    | _ :: _ => printE pu 1 e ++ pu .COMMA :: printEs pu es

end

mutual

/-- Trees that can be written: names, operators and literals carry the tokens they come from. -/
def Printable : Expr Unit → Prop
  | .ident t _ => t.type = .IDENT
  | .int v t c => ∃ u, t = some u ∧ u.type = .INT ∧ u.val = v ∧ c = none
  | .float v t => ∃ u, t = some u ∧ u.type = .FLOAT ∧ u.val = v
  | .str v t => ∃ u, t = some u ∧ u.type = .STRING ∧ u.str = v
  | .none t => ∃ u, t = some u ∧ u.type = .NONE
  | .member t m _ => t.type = .IDENT ∧ m.type = .IDENT
  | .arr t es => t.type = .LBRACKET ∧ es ≠ [] ∧ PrintableList es
  | .deref t l i => t.type = .LBRACKET ∧ Printable l ∧ Printable i
  | .call t c as => t.type = .LPAREN ∧ Printable c ∧ PrintableList as
  | .bin op l r => level op.type ≠ none ∧ Printable l ∧ Printable r
  | .un op e => (op.type = .NOT ∨ op.type = .SUB) ∧ Printable e

/-- All trees of a list can be written. -/
def PrintableList : List (Expr Unit) → Prop
  | [] => True
  | e :: es => Printable e ∧ PrintableList es

end

mutual

/-- The tokens of a statement. -/
def printS (pu : Tok → Token) : Stmt Unit → List Token
  | .var name _ none => [pu .VAR, name]
  | .var name _ (some e) => pu .VAR :: name :: pu .ASSIGN :: printE pu 1 e
  | .assign name _ e => name :: pu .ASSIGN :: printE pu 1 e
  | .assignArr name _ i e =>
    name :: pu .LBRACKET :: (printE pu 1 i ++ (pu .RBRACKET :: pu .ASSIGN :: printE pu 1 e))
  | .assignMem name m _ e => name :: pu .DOT :: m :: pu .ASSIGN :: printE pu 1 e
  | .call t c as => printE pu operandLevel c ++ (t :: (printEs pu as ++ [pu .RPAREN]))
  | .ifS t c thn false _ => t :: pu .LPAREN :: (printE pu 1 c ++ (pu .RPAREN :: pu .EOL ::
      (printB pu thn ++ [pu .END])))
  | .ifS t c thn true els => t :: pu .LPAREN :: (printE pu 1 c ++ (pu .RPAREN :: pu .EOL ::
      (printB pu thn ++ (pu .ELSE :: pu .EOL :: (printB pu els ++ [pu .END])))))
  | .whileS t c b => t :: pu .LPAREN :: (printE pu 1 c ++ (pu .RPAREN :: pu .EOL ::
      (printB pu b ++ [pu .END])))
  | .forS t name _ x y b => t :: pu .LPAREN :: name :: pu .ASSIGN :: (printE pu 1 x ++ (pu .TO ::
      (printE pu 1 y ++ (pu .RPAREN :: pu .EOL :: (printB pu b ++ [pu .END])))))
  | .ret t none => [t]
  | .ret t (some e) => t :: printE pu 1 e

/-- One statement on each line. -/
def printB (pu : Tok → Token) : List (Stmt Unit) → List Token
  | [] => []
  | s :: ss => printS pu s ++ (pu .EOL :: printB pu ss)

end

mutual

/-- Statements that can be written.  The callee of a call statement is a name, and there is no
`else` block without the word. -/
def PrintableS : Stmt Unit → Prop
  | .var name _ none => name.type = .IDENT
  | .var name _ (some e) => name.type = .IDENT ∧ Printable e
  | .assign name _ e => name.type = .IDENT ∧ Printable e
  | .assignArr name _ i e => name.type = .IDENT ∧ Printable i ∧ Printable e
  | .assignMem name m _ e => name.type = .IDENT ∧ m.type = .IDENT ∧ Printable e
  | .call t c as => t.type = .LPAREN ∧ (∃ name, c = .ident name () ∧ name.type = .IDENT) ∧
      PrintableList as
  | .ifS t c thn h els => t.type = .IF ∧ Printable c ∧ PrintableB thn ∧ PrintableB els ∧
      (h = false → els = [])
  | .whileS t c b => t.type = .WHILE ∧ Printable c ∧ PrintableB b
  | .forS t name _ x y b => t.type = .FOR ∧ name.type = .IDENT ∧ Printable x ∧ Printable y ∧
      PrintableB b
  | .ret t none => t.type = .RETURN
  | .ret t (some e) => t.type = .RETURN ∧ Printable e

/-- All statements of a block can be written. -/
def PrintableB : List (Stmt Unit) → Prop
  | [] => True
  | s :: ss => PrintableS s ∧ PrintableB ss

end

/-- Argument names separated by commas. -/
def printNames (pu : Tok → Token) : List Token → List Token
  | [] => []
  | [a] => [a]
  | a :: as => a :: pu .COMMA :: printNames pu as

/-- The tokens of a function, behind the word `function`. -/
def printF (pu : Tok → Token) (f : FuncDecl Unit) : List Token :=
  f.name :: pu .LPAREN :: (printNames pu f.args ++ (pu .RPAREN :: pu .EOL ::
    (printB pu f.body ++ [f.stop])))

/-- The tokens of a child of the program. -/
def printItem (pu : Tok → Token) : Item Unit → List Token
  | .var name c none => [pu (if c then .CONST else .VAR), name]
  | .var name c (some e) => pu (if c then .CONST else .VAR) :: name :: pu .ASSIGN :: printE pu 1 e
  | .func f => pu .FUNC :: printF pu f
  | .syscall _ _ => []

/-- The tokens of a program, each child ended by the end of a line. -/
def printP (pu : Tok → Token) (p : Prog Unit) : List Token :=
  p.flatMap fun i => printItem pu i ++ [pu .EOL]

/-- Children of the program that can be written: functions of the host cannot. -/
def PrintableItem : Item Unit → Prop
  | .var name _ none => name.type = .IDENT
  | .var name _ (some e) => name.type = .IDENT ∧ Printable e
  | .func f => f.name.type = .IDENT ∧ (∀ a ∈ f.args, a.type = .IDENT) ∧ PrintableB f.body ∧
      f.stop.type = .END
  | .syscall _ _ => False

end Ccml.Gram
