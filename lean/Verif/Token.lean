import Verif.Program
import Verif.Value
/-!
Tokens, compile errors and the outcome type of the compiler passes
(lib_compiler/token.h, lib_compiler/token.cpp, lib_compiler/errors.h, lib_compiler/errors.cpp).
-/
namespace Ccml

/-- `token_e`, lib_compiler/token.h:12-52, without `TOK_ACC`, which no code produces. -/
inductive Tok
  | FUNC | END | IF | ELSE | WHILE | VAR | INT | FLOAT | FOR | TO | IDENT
  | LPAREN | RPAREN | LBRACKET | RBRACKET | COMMA | EOL
  | ADD | SUB | MUL | DIV | MOD | AND | OR | NOT | ASSIGN | EQ | LT | GT | LEQ | GEQ
  | RETURN | EOF | STRING | NONE | CONST | IMPORT | DOT
  deriving DecidableEq, Repr

/-- `line_t` while compiling, lib_common/types.h:12-37.  Simplified: the numbers are unbounded;
the code counts in `int32_t`, so sources of 2^31 lines or more are not modelled. -/
structure SrcLine where
  file : Nat
  line : Nat
  deriving DecidableEq, Repr

/-- The `line_t` stored in the line table of a program. -/
def SrcLine.toLine (l : SrcLine) : Line := ⟨BitVec.ofNat 32 l.file, BitVec.ofNat 32 l.line⟩

/-- `token_t`, lib_compiler/token.h:55-149.  `val` is the content of the union of `val_` and
`valf_` (a bit pattern). -/
structure Token where
  type : Tok
  str : Str
  line : SrcLine
  val : I32
  deriving DecidableEq, Repr

/-- Constructor `token_t(token_e, line_t)`, lib_compiler/token.h:57-61. -/
def Token.plain (t : Tok) (l : SrcLine) : Token := ⟨t, [], l, 0⟩

/-- Constructor `token_t(token_e, const std::string &, line_t)`, lib_compiler/token.h:69-73. -/
def Token.text (t : Tok) (s : Str) (l : SrcLine) : Token := ⟨t, s, l, 0⟩

/-- Constructors `token_t(int32_t, line_t)` and `token_t(float, line_t)`,
lib_compiler/token.h:75-83. -/
def Token.number (t : Tok) (v : I32) (l : SrcLine) : Token := ⟨t, [], l, v⟩

/-- `token_t::token_name`, lib_compiler/token.cpp:63-106; the missing cases reach the `assert`. -/
def Tok.name : Tok → Out Str
  | .FUNC => .ok (str "function")
  | .END => .ok (str "end")
  | .IF => .ok (str "if")
  | .ELSE => .ok (str "else")
  | .WHILE => .ok (str "while")
  | .VAR => .ok (str "var")
  | .INT => .ok (str "int")
  | .FLOAT => .ok (str "float")
  | .FOR => .ok (str "for")
  | .TO => .ok (str "to")
  | .IDENT => .ok (str "identifier")
  | .LPAREN => .ok (str "(")
  | .RPAREN => .ok (str ")")
  | .COMMA => .ok (str ",")
  | .CONST => .ok (str "const")
  | .EOL => .ok (str "new line")
  | .ADD => .ok (str "+")
  | .SUB => .ok (str "-")
  | .MUL => .ok (str "*")
  | .DIV => .ok (str "/")
  | .MOD => .ok (str "%")
  | .AND => .ok (str "and")
  | .OR => .ok (str "or")
  | .NOT => .ok (str "not")
  | .ASSIGN => .ok (str "=")
  | .EQ => .ok (str "==")
  | .LT => .ok (str "<")
  | .GT => .ok (str ">")
  | .LEQ => .ok (str "<=")
  | .GEQ => .ok (str ">=")
  | .RETURN => .ok (str "return")
  | .EOF => .ok (str "end of file")
  | .LBRACKET => .ok (str "[")
  | .RBRACKET => .ok (str "]")
  | .NONE => .ok (str "none")
  | .DOT => .ok (str ".")
  | .STRING => .error .assert
  | .IMPORT => .error .assert

/-- `token_t::string`, lib_compiler/token.h:99-106, as a C string. -/
def Token.string (t : Token) : Out Str :=
  if t.type = .STRING then .ok (cstr t.str)
  else if t.str = [] then t.type.name
  else .ok (cstr t.str)

/-- `error_t`, lib_compiler/errors.h:13-22: the message and line reported to the user. -/
structure CErr where
  msg : Str
  line : SrcLine
  deriving DecidableEq, Repr

/-- How a compiler pass ends early: with a reported error (a thrown `error_t`) or abnormally. -/
inductive Stop
  | err (e : CErr)
  | fault (f : Fault)
  deriving DecidableEq, Repr

/-- Result of a compiler pass. -/
abbrev Comp (α : Type) := Except Stop α

/-- A computation that can only end abnormally, run inside a compiler pass. -/
def Out.lift {α : Type} : Out α → Comp α
  | .ok a => .ok a
  | .error f => .error (.fault f)

/-- `error_manager_t::on_error_`, lib_compiler/errors.cpp:9-20: the message is cut to the buffer
of 1024 bytes and thrown. -/
def onError {α : Type} (l : SrcLine) (parts : List Str) : Comp α :=
  .error (.err ⟨parts.flatten.take 1023, l⟩)

/-- An error about one token quoted in the message: most members of `error_manager_t`
(lib_compiler/errors.h:29-178) are of this shape, with `t.string()` evaluated first. -/
def errTok {α : Type} (l : SrcLine) (pre : String) (t : Token) (post : String) : Comp α :=
  match t.string with
  | .error f => .error (.fault f)
  | .ok s => onError l [str pre, s, str post]

end Ccml
