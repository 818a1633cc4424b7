import Verif.Source
/-!
The language of the parser as a grammar of words, without trees: `Spells k ts` says that the tokens `ts` are a
phrase of kind `k`.

Unlike `Verif/Grammar.lean`, which describes the documented syntax and the trees, this describes what the parser
lets through with unary operators too: `not` and `-` may stand before any expression, and `not` may also stand where
a binary operator may (the parser takes any operator there, lib_compiler/parser.cpp:111-114, 280-284).
-/
namespace Ccml.Lang
open Ccml

/-- The operators that may stand between operands. -/
def Operator (t : Tok) : Prop :=
  t = .ADD ∨ t = .SUB ∨ t = .MUL ∨ t = .DIV ∨ t = .MOD ∨ t = .AND ∨ t = .OR ∨ t = .NOT ∨ t = .LT ∨ t = .GT ∨
    t = .LEQ ∨ t = .GEQ ∨ t = .EQ

/-- The kinds of phrases of a function. -/
inductive Part
  /-- a literal, name, member of a name, array or expression in parentheses -/
  | prim
  /-- any number of indices and argument lists -/
  | post
  /-- an expression -/
  | expr
  /-- one or more expressions, separated by commas -/
  | exprs
  /-- any number of expressions, separated by commas -/
  | args
  /-- one statement, without the ends of lines around it -/
  | stmt
  /-- statements, each ended by one or more ends of lines and possibly after blank lines -/
  | block

/-- Blank lines. -/
def Blank (ts : List Token) : Prop := ∀ t ∈ ts, t.type = .EOL

/-- The grammar of expressions and statements. -/
inductive Spells : Part → List Token → Prop
  | literal {t} (h : t.type = .INT ∨ t.type = .FLOAT ∨ t.type = .STRING ∨ t.type = .NONE) : Spells .prim [t]
  | ident {t} (h : t.type = .IDENT) : Spells .prim [t]
  | member {t d m} (ht : t.type = .IDENT) (hd : d.type = .DOT) (hm : m.type = .IDENT) : Spells .prim [t, d, m]
  | arr {l r ts} (hl : l.type = .LBRACKET) (h : Spells .exprs ts) (hr : r.type = .RBRACKET) :
      Spells .prim (l :: (ts ++ [r]))
  | paren {l r ts} (hl : l.type = .LPAREN) (h : Spells .expr ts) (hr : r.type = .RPAREN) :
      Spells .prim (l :: (ts ++ [r]))
  | bare : Spells .post []
  | index {l r ts us} (hl : l.type = .LBRACKET) (h : Spells .expr ts) (hr : r.type = .RBRACKET)
      (hp : Spells .post us) : Spells .post (l :: (ts ++ r :: us))
  | call {l r ts us} (hl : l.type = .LPAREN) (h : Spells .args ts) (hr : r.type = .RPAREN)
      (hp : Spells .post us) : Spells .post (l :: (ts ++ r :: us))
  | unary {t ts} (ht : t.type = .NOT ∨ t.type = .SUB) (h : Spells .expr ts) : Spells .expr (t :: ts)
  | operand {ts us} (h : Spells .prim ts) (hp : Spells .post us) : Spells .expr (ts ++ us)
  | binary {ts us op vs} (h : Spells .prim ts) (hp : Spells .post us) (ho : Operator op.type) (hr : Spells .expr vs) :
      Spells .expr (ts ++ (us ++ op :: vs))
  | one {ts} (h : Spells .expr ts) : Spells .exprs ts
  | more {c ts us} (h : Spells .expr ts) (hc : c.type = .COMMA) (hs : Spells .exprs us) : Spells .exprs (ts ++ c :: us)
  | noArgs : Spells .args []
  | someArgs {ts} (h : Spells .exprs ts) : Spells .args ts
  | var {v name} (hv : v.type = .VAR) (hn : name.type = .IDENT) : Spells .stmt [v, name]
  | varInit {v name a ts} (hv : v.type = .VAR) (hn : name.type = .IDENT) (ha : a.type = .ASSIGN)
      (he : Spells .expr ts) : Spells .stmt (v :: name :: a :: ts)
  | assign {name a ts} (hn : name.type = .IDENT) (ha : a.type = .ASSIGN) (he : Spells .expr ts) :
      Spells .stmt (name :: a :: ts)
  | compound {name op a ts} (hn : name.type = .IDENT)
      (ho : op.type = .ADD ∨ op.type = .SUB ∨ op.type = .MUL ∨ op.type = .DIV) (ha : a.type = .ASSIGN)
      (he : Spells .expr ts) : Spells .stmt (name :: op :: a :: ts)
  | assignMem {name d m a ts} (hn : name.type = .IDENT) (hd : d.type = .DOT) (hm : m.type = .IDENT)
      (ha : a.type = .ASSIGN) (he : Spells .expr ts) : Spells .stmt (name :: d :: m :: a :: ts)
  | assignArr {name l r a ts us} (hn : name.type = .IDENT) (hl : l.type = .LBRACKET) (hi : Spells .expr ts)
      (hr : r.type = .RBRACKET) (ha : a.type = .ASSIGN) (he : Spells .expr us) :
      Spells .stmt (name :: l :: (ts ++ (r :: a :: us)))
  | callS {name l r ts} (hn : name.type = .IDENT) (hl : l.type = .LPAREN) (ha : Spells .args ts)
      (hr : r.type = .RPAREN) : Spells .stmt (name :: l :: (ts ++ [r]))
  | ret {t} (ht : t.type = .RETURN) : Spells .stmt [t]
  | retVal {t ts} (ht : t.type = .RETURN) (he : Spells .expr ts) : Spells .stmt (t :: ts)
  | ifS {t l r n e ts us} (ht : t.type = .IF) (hl : l.type = .LPAREN) (hc : Spells .expr ts) (hr : r.type = .RPAREN)
      (hn : n.type = .EOL) (hb : Spells .block us) (he : e.type = .END) :
      Spells .stmt (t :: l :: (ts ++ (r :: n :: (us ++ [e]))))
  | ifElse {t l r n els m e ts us vs} (ht : t.type = .IF) (hl : l.type = .LPAREN) (hc : Spells .expr ts)
      (hr : r.type = .RPAREN) (hn : n.type = .EOL) (hb : Spells .block us) (hels : els.type = .ELSE)
      (hm : m.type = .EOL) (hb' : Spells .block vs) (he : e.type = .END) :
      Spells .stmt (t :: l :: (ts ++ (r :: n :: (us ++ (els :: m :: (vs ++ [e]))))))
  | whileS {t l r n e ts us} (ht : t.type = .WHILE) (hl : l.type = .LPAREN) (hc : Spells .expr ts)
      (hr : r.type = .RPAREN) (hn : n.type = .EOL) (hb : Spells .block us) (he : e.type = .END) :
      Spells .stmt (t :: l :: (ts ++ (r :: n :: (us ++ [e]))))
  | forS {t l name a o r n e ts us vs} (ht : t.type = .FOR) (hl : l.type = .LPAREN) (hname : name.type = .IDENT)
      (ha : a.type = .ASSIGN) (hx : Spells .expr ts) (ho : o.type = .TO) (hy : Spells .expr us)
      (hr : r.type = .RPAREN) (hn : n.type = .EOL) (hb : Spells .block vs) (he : e.type = .END) :
      Spells .stmt (t :: l :: name :: a :: (ts ++ (o :: (us ++ (r :: n :: (vs ++ [e]))))))
  | nil : Spells .block []
  | cons {before ts n after us} (hb : Blank before) (h : Spells .stmt ts) (hn : n.type = .EOL) (ha : Blank after)
      (hs : Spells .block us) : Spells .block (before ++ (ts ++ (n :: (after ++ us))))

/-- Names separated by commas. -/
inductive Names : List Token → Prop
  | one {a} (h : a.type = .IDENT) : Names [a]
  | more {a c ts} (h : a.type = .IDENT) (hc : c.type = .COMMA) (hs : Names ts) : Names (a :: c :: ts)

/-- Functions, behind the word `function`. -/
inductive Function : List Token → Prop
  | noArgs {name l r n e ts} (hname : name.type = .IDENT) (hl : l.type = .LPAREN) (hr : r.type = .RPAREN)
      (hn : n.type = .EOL) (hb : Spells .block ts) (he : e.type = .END) :
      Function (name :: l :: r :: n :: (ts ++ [e]))
  | args {name l r n e ns ts} (hname : name.type = .IDENT) (hl : l.type = .LPAREN) (ha : Names ns)
      (hr : r.type = .RPAREN) (hn : n.type = .EOL) (hb : Spells .block ts) (he : e.type = .END) :
      Function (name :: l :: (ns ++ (r :: n :: (ts ++ [e]))))

/-- A source file without its end-of-file token, with the sources known before and after its imports. -/
inductive File (fs : Str → Option Str) (cur : Source) : List Source → List Source → List Token → Prop
  | nil {ss} : File fs cur ss ss []
  | eol {t ss ss' ts} (ht : t.type = .EOL) (h : File fs cur ss ss' ts) : File fs cur ss ss' (t :: ts)
  | decl {v name ss ss' ts} (hv : v.type = .VAR ∨ v.type = .CONST) (hn : name.type = .IDENT)
      (h : File fs cur ss ss' ts) : File fs cur ss ss' (v :: name :: ts)
  | init {v name a ss ss' ts us} (hv : v.type = .VAR ∨ v.type = .CONST) (hn : name.type = .IDENT)
      (ha : a.type = .ASSIGN) (he : Spells .expr ts) (h : File fs cur ss ss' us) :
      File fs cur ss ss' (v :: name :: a :: (ts ++ us))
  | func {t ss ss' ts us} (ht : t.type = .FUNC) (hf : Function ts) (h : File fs cur ss ss' us) :
      File fs cur ss ss' (t :: (ts ++ us))
  | imp {t n ss ss1 ss' ts} (ht : t.type = .IMPORT) (hn : n.type = .STRING)
      (hl : loadSource fs ss (cstr (importedPath cur (cstr n.str))) = (true, ss1))
      (h : File fs cur ss1 ss' ts) : File fs cur ss ss' (t :: n :: ts)

end Ccml.Lang
