import Verif.Ast
import Verif.Source
/-!
The token stream (lib_compiler/token.cpp:7-60) and the parser (lib_compiler/parser.cpp).

`index_` into the token vector is the list of the tokens from there on; the empty list is the
position behind the vector, where reading is undefined.  The stacks `op_stack_` and `exp_stack_` are
lists with the top first.  The recursive functions take fuel; `C15_parsing_ends` shows that it never
runs out.
-/
namespace Ccml

/-- The trees made by the parser. -/
abbrev PExpr := Expr Unit
/-- The statements made by the parser. -/
abbrev PStmt := Stmt Unit

/-- The state the parser works on: `token_stream_t` (lib_compiler/token.h:183-192), the stacks of
`parser_t` (lib_compiler/parser.h:24-28), and the source manager, which imports extend. -/
structure PState where
  toks : List Token
  line : SrcLine
  ops : List Token
  exps : List PExpr
  srcs : List Source
  deriving Repr

/-- A parser function. -/
abbrev PM (α : Type) := StateT PState (Except Stop) α

/-- Undefined behaviour and failed assertions. -/
def pFault {α : Type} (f : Fault) : PM α := fun _ => .error (.fault f)

/-- `token_stream_t::pop()`, lib_compiler/token.cpp:36-42. -/
def popTok : PM Token := fun s =>
  match s.toks with
  | [] => .error (.fault .ub)
  | t :: ts => .ok (t, { s with toks := ts, line := t.line })

/-- `token_stream_t::type`, lib_compiler/token.cpp:15-17. -/
def nextType : PM Tok := fun s =>
  match s.toks with
  | [] => .error (.fault .ub)
  | t :: _ => .ok (t.type, s)

/-- `token_stream_t::peek`, lib_compiler/token.cpp:44-48. -/
def peekTok : PM Token := fun s =>
  match s.toks with
  | [] => .error (.fault .assert)
  | t :: _ => .ok (t, s)

/-- `token_stream_t::found`, lib_compiler/token.cpp:19-23. -/
def found (ty : Tok) : PM (Option Token) := fun s =>
  match s.toks with
  | [] => .error (.fault .ub)
  | t :: ts =>
    if t.type = ty then .ok (some t, { s with toks := ts, line := t.line }) else .ok (none, s)

/-- `error_manager_t::unexpected_token(t, e)`, lib_compiler/errors.h:179-182. -/
def unexpectedToken {α : Type} (t : Token) (want : Tok) : Comp α :=
  match t.string, want.name with
  | .ok a, .ok b => onError t.line [str "unexpected token '", a, str "' expecting '", b, str "'"]
  | .error f, _ => .error (.fault f)
  | _, .error f => .error (.fault f)

/-- `token_stream_t::pop(type)`, lib_compiler/token.cpp:25-34. -/
def popType (ty : Tok) : PM Token := fun s =>
  match s.toks with
  | [] => .error (.fault .ub)
  | t :: ts =>
    if t.type = ty then .ok (t, { s with toks := ts, line := t.line }) else unexpectedToken t ty

/-- `while (stream_.found(TOK_EOL));`, lib_compiler/parser.cpp:532, 597. -/
def skipEols : PM Unit := fun s =>
  let rec go : List Token → SrcLine → Comp (List Token × SrcLine)
    | [], _ => .error (.fault .ub)
    | t :: ts, l => if t.type = .EOL then go ts t.line else .ok (t :: ts, l)
  match go s.toks s.line with
  | .error e => .error e
  | .ok (ts, l) => .ok ((), { s with toks := ts, line := l })

/-- Most error functions: a message quoting one token, at a given line. -/
def pErr {α : Type} (l : SrcLine) (pre : String) (t : Token) (post : String) : PM α :=
  fun _ => errTok l pre t post

/-- The errors reported at the line of the token stream, `line_number_`,
lib_compiler/errors.h:205-207. -/
def pErrHere {α : Type} (pre : String) (t : Token) (post : String) : PM α :=
  fun s => errTok s.line pre t post

/-- `exp_stack_.push_back`. -/
def pushExp (e : PExpr) : PM Unit := fun s => .ok ((), { s with exps := e :: s.exps })

/-- `exp_stack_.back()` with `pop_back`; `f` is what happens on an empty stack. -/
def popExp (f : Fault) : PM PExpr := fun s =>
  match s.exps with
  | [] => .error (.fault f)
  | e :: es => .ok (e, { s with exps := es })

/-- `op_type_`, lib_compiler/parser.cpp:83-109: the precedence of an operator, 0 for other
tokens. -/
def opType : Tok → Nat
  | .AND => 1
  | .OR => 1
  | .NOT => 2
  | .LT => 3
  | .GT => 3
  | .LEQ => 3
  | .GEQ => 3
  | .EQ => 3
  | .ADD => 4
  | .SUB => 4
  | .MUL => 5
  | .DIV => 5
  | .MOD => 5
  | _ => 0

/-- `is_binary_op`, lib_compiler/token.h:108-126. -/
def Tok.isBinary : Tok → Bool
  | .ADD | .SUB | .MUL | .DIV | .MOD | .AND | .OR | .EQ | .LT | .GT | .LEQ | .GEQ => true
  | _ => false

/-- `is_unary_op`, lib_compiler/token.h:128-135. -/
def Tok.isUnary : Tok → Bool
  | .NOT => true
  | _ => false

/-- `op_reduce_`, lib_compiler/parser.cpp:744-768, on the expression stack, after `op` has been
taken off the operator stack. -/
def reduceOp (op : Token) (exps : List PExpr) : Comp (List PExpr) :=
  if op.type.isBinary then
    match exps with
    | r :: l :: es => .ok (.bin op l r :: es)
    | _ => .error (.fault .assert)
  else if op.type.isUnary then
    match exps with
    | e :: es => .ok (.un op e :: es)
    | _ => .error (.fault .assert)
  else .ok exps

/-- The loops of `op_push_` and `op_pop_all_`, lib_compiler/parser.cpp:772-781, 788-791: reduce
while there are operators above `tide` and the top one has at least precedence `prec`. -/
def reduceLoop (prec tide : Nat) : List Token → List PExpr → Comp (List Token × List PExpr)
  | [], es => .ok ([], es)
  | o :: os, es =>
    if os.length + 1 > tide then
      if prec > opType o.type then .ok (o :: os, es)
      else
        match reduceOp o es with
        | .error e => .error e
        | .ok es' => reduceLoop prec tide os es'
    else .ok (o :: os, es)

/-- `op_push_`, lib_compiler/parser.cpp:770-784. -/
def opPush (op : Token) (tide : Nat) : PM Unit := fun s =>
  match reduceLoop (opType op.type) tide s.ops s.exps with
  | .error e => .error e
  | .ok (os, es) => .ok ((), { s with ops := op :: os, exps := es })

/-- `op_pop_all_`, lib_compiler/parser.cpp:786-792. -/
def opPopAll (tide : Nat) : PM Unit := fun s =>
  match reduceLoop 0 tide s.ops s.exps with
  | .error e => .error e
  | .ok (os, es) => .ok ((), { s with ops := os, exps := es })

/-- `is_operator_`, lib_compiler/parser.cpp:111-114. -/
def isOperator : PM Bool := do
  let t ← nextType
  pure (decide (opType t > 0))

/-- The operand that is one token, lib_compiler/parser.cpp:178-213: the token types and the node
made. -/
def literalNode (t : Token) : Option PExpr :=
  match t.type with
  | .INT => some (.int t.val (some t) none)
  | .FLOAT => some (.float t.val (some t))
  | .STRING => some (.str t.str (some t))
  | .NONE => some (.none (some t))
  | _ => none

mutual

/-- `parse_expr_ex_`, lib_compiler/parser.cpp:220-285. -/
def parseExprEx : Nat → Nat → PM Unit
  | 0, _ => pFault .diverge
  | n + 1, tide => do
    match ← found .NOT with
    | some t =>
      parseExprEx n tide
      opPush t tide
    | none =>
      match ← found .SUB with
      | some t =>
        parseExprEx n tide
        let e ← popExp .ub
        pushExp (.un t e)
      | none =>
        parseLhs n
        parsePostfix n
        parseTail n tide

/-- The end of `parse_expr_ex_`, lib_compiler/parser.cpp:280-284. -/
def parseTail : Nat → Nat → PM Unit
  | 0, _ => pFault .diverge
  | n + 1, tide => do
    if ← isOperator then
      let op ← popTok
      opPush op tide
      parseExprEx n tide
    else pure ()

/-- The loop of `parse_expr_ex_` over `[ ... ]` and `( ... )`, lib_compiler/parser.cpp:248-278. -/
def parsePostfix : Nat → PM Unit
  | 0 => pFault .diverge
  | n + 1 => do
    match ← found .LBRACKET with
    | some t =>
      let lhs ← popExp .ub
      let index ← parseExpr n
      pushExp (.deref t lhs index)
      let _ ← popType .RBRACKET
      parsePostfix n
    | none =>
      match ← found .LPAREN with
      | some t =>
        let args ← parseCallArgs n
        let callee ← popExp .assert
        pushExp (.call t callee args)
        parsePostfix n
      | none => pure ()

/-- `parse_lhs_`, lib_compiler/parser.cpp:133-218, with `parse_array_init_`, lib_compiler/parser.cpp:116-130. -/
def parseLhs : Nat → PM Unit
  | 0 => pFault .diverge
  | n + 1 => do
    match ← found .LBRACKET with
    | some t =>
      let es ← parseExprList n
      pushExp (.arr t es)
      let _ ← popType .RBRACKET
    | none =>
      match ← found .LPAREN with
      | some _ =>
        let e ← parseExpr n
        pushExp e
        let _ ← popType .RPAREN
      | none =>
        match ← found .IDENT with
        | some t =>
          match ← found .DOT with
          | some _ =>
            let m ← popType .IDENT
            pushExp (.member t m ())
          | none => pushExp (.ident t ())
        | none =>
          let t ← popTok
          match literalNode t with
          | some e => pushExp e
          | none => pErrHere "expecting literal or identifier, found '" t "' instead"

/-- `parse_expr_`, lib_compiler/parser.cpp:287-301. -/
def parseExpr : Nat → PM PExpr
  | 0 => pFault .diverge
  | n + 1 => do
    let s ← get
    let tide := s.ops.length
    parseExprEx n tide
    opPopAll tide
    popExp .assert

/-- The loops `do { parse_expr_() } while (found(TOK_COMMA))`, lib_compiler/parser.cpp:125-128,
351-354. -/
def parseExprList : Nat → PM (List PExpr)
  | 0 => pFault .diverge
  | n + 1 => do
    let e ← parseExpr n
    match ← found .COMMA with
    | some _ =>
      let es ← parseExprList n
      pure (e :: es)
    | none => pure [e]

/-- `parse_call_`, lib_compiler/parser.cpp:339-359: the arguments. -/
def parseCallArgs : Nat → PM (List PExpr)
  | 0 => pFault .diverge
  | n + 1 => do
    match ← found .RPAREN with
    | some _ => pure []
    | none =>
      let es ← parseExprList n
      let _ ← popType .RPAREN
      pure es

end

/-- `parse_decl_var_`, lib_compiler/parser.cpp:303-324: the name and the initialiser. -/
def parseDeclVar (n : Nat) : PM (Token × Option PExpr) := do
  let name ← popType .IDENT
  match ← found .ASSIGN with
  | some _ =>
    let e ← parseExpr n
    pure (name, some e)
  | none => pure (name, none)

/-- `parse_assign_`, lib_compiler/parser.cpp:326-337. -/
def parseAssign (n : Nat) (name : Token) : PM PStmt := do
  let e ← parseExpr n
  pure (.assign name () e)

/-- `parse_compound_`, lib_compiler/parser.cpp:493-511.  The message does not quote the token. -/
def parseCompound (n : Nat) (t : Token) : PM PStmt := do
  let op ← popTok
  match ← found .ASSIGN with
  | none => fun s => onError s.line [str "equals expected after operator for compound assignment"]
  | some _ =>
    let e ← parseExpr n
    pure (.assign t () (.bin op (.ident t ()) e))

/-- `parse_member_assign_`, lib_compiler/parser.cpp:602-622. -/
def parseMemberAssign (n : Nat) (t : Token) : PM PStmt := do
  let _ ← popType .DOT
  let m ← popType .IDENT
  let _ ← popType .ASSIGN
  let e ← parseExpr n
  pure (.assignMem t m () e)

/-- `parse_array_set_`, lib_compiler/parser.cpp:693-713. -/
def parseArraySet (n : Nat) (t : Token) : PM PStmt := do
  let i ← parseExpr n
  let _ ← popType .RBRACKET
  let _ ← popType .ASSIGN
  let e ← parseExpr n
  pure (.assignArr t () i e)

/-- `parse_return_`, lib_compiler/parser.cpp:469-486. -/
def parseReturn (n : Nat) (t : Token) : PM PStmt := do
  let p ← peekTok
  if p.type = .EOL then pure (.ret t none)
  else
    let e ← parseExpr n
    pure (.ret t (some e))

/-- The head of `if` and `while`, lib_compiler/parser.cpp:376-379, 419-422. -/
def parseCondition (n : Nat) : PM PExpr := do
  let _ ← popType .LPAREN
  let e ← parseExpr n
  let _ ← popType .RPAREN
  let _ ← popType .EOL
  pure e

/-- The head of `for`, lib_compiler/parser.cpp:449-456. -/
def parseForHead (n : Nat) : PM (Token × PExpr × PExpr) := do
  let _ ← popType .LPAREN
  let name ← popType .IDENT
  let _ ← popType .ASSIGN
  let a ← parseExpr n
  let _ ← popType .TO
  let b ← parseExpr n
  let _ ← popType .RPAREN
  let _ ← popType .EOL
  pure (name, a, b)

/-- The statements that begin with a name, lib_compiler/parser.cpp:543-576. -/
def parseNamed (n : Nat) (t : Token) : PM PStmt := do
  let p ← peekTok
  match p.type with
  | .ADD => parseCompound n t
  | .SUB => parseCompound n t
  | .MUL => parseCompound n t
  | .DIV => parseCompound n t
  | .DOT => parseMemberAssign n t
  | .ASSIGN =>
    let _ ← popTok
    parseAssign n t
  | .LPAREN =>
    let c ← popTok
    let args ← parseCallArgs n
    pure (.call c (.ident t ()) args)
  | .LBRACKET =>
    let _ ← popTok
    parseArraySet n t
  | _ => pErrHere "assignment or call expected after '" t "'"

mutual

/-- `parse_stmt_`, lib_compiler/parser.cpp:513-600. -/
def parseStmt : Nat → PM PStmt
  | 0 => pFault .diverge
  | n + 1 => do
    skipEols
    let t ← popTok
    let s ← parseStmtKind n t
    let _ ← popType .EOL
    skipEols
    pure s

/-- The switch of `parse_stmt_`, lib_compiler/parser.cpp:537-592, with `parse_if_`, `parse_while_`
and `parse_for_`, lib_compiler/parser.cpp:361-467. -/
def parseStmtKind : Nat → Token → PM PStmt
  | 0, _ => pFault .diverge
  | n + 1, t => do
    match t.type with
    | .VAR =>
      let (name, e) ← parseDeclVar n
      pure (.var name () e)
    | .IDENT => parseNamed n t
    | .IF =>
      let c ← parseCondition n
      let (thn, hasElse) ← parseThen n
      if hasElse then
        let els ← parseBlock n
        pure (.ifS t c thn true els)
      else pure (.ifS t c thn false [])
    | .WHILE =>
      let c ← parseCondition n
      let body ← parseBlock n
      pure (.whileS t c body)
    | .FOR =>
      let (name, a, b) ← parseForHead n
      let body ← parseBlock n
      pure (.forS t name () a b body)
    | .RETURN => parseReturn n t
    | _ => pErrHere "statement expected, but got '" t "'"

/-- `while (!stream_.found(TOK_END)) ...`, lib_compiler/parser.cpp:396-399, 426-429, 460-463. -/
def parseBlock : Nat → PM (List PStmt)
  | 0 => pFault .diverge
  | n + 1 => do
    match ← found .END with
    | some _ => pure []
    | none =>
      let s ← parseStmt n
      let ss ← parseBlock n
      pure (s :: ss)

/-- The first loop of `parse_if_`, lib_compiler/parser.cpp:384-392; the flag tells whether it ended
with `else`. -/
def parseThen : Nat → PM (List PStmt × Bool)
  | 0 => pFault .diverge
  | n + 1 => do
    match ← found .END with
    | some _ => pure ([], false)
    | none =>
      match ← found .ELSE with
      | some _ =>
        let _ ← popType .EOL
        pure ([], true)
      | none =>
        let s ← parseStmt n
        let (ss, e) ← parseThen n
        pure (s :: ss, e)

end

/-- The body of a function up to its `end` token, lib_compiler/parser.cpp:660-669. -/
def parseBody : Nat → PM (List PStmt × Token)
  | 0 => pFault .diverge
  | n + 1 => do
    match ← found .END with
    | some t => pure ([], t)
    | none =>
      let s ← parseStmt n
      let (ss, t) ← parseBody n
      pure (s :: ss, t)

/-- The argument names, lib_compiler/parser.cpp:645-651. -/
def parseArgNames : Nat → PM (List Token)
  | 0 => pFault .diverge
  | n + 1 => do
    let a ← popType .IDENT
    match ← found .COMMA with
    | some _ =>
      let as ← parseArgNames n
      pure (a :: as)
    | none => pure [a]

/-- The argument list, lib_compiler/parser.cpp:643-653. -/
def parseArgs (n : Nat) : PM (List Token) := do
  let _ ← popType .LPAREN
  match ← found .RPAREN with
  | some _ => pure []
  | none =>
    let as ← parseArgNames n
    let _ ← popType .RPAREN
    pure as

/-- `parse_function_`, lib_compiler/parser.cpp:624-672. -/
def parseFunction (n : Nat) : PM (FuncDecl Unit) := do
  let name ← popType .IDENT
  let args ← parseArgs n
  let _ ← popType .EOL
  let (body, stop) ← parseBody n
  pure ⟨name, args, body, stop⟩

/-- `parse_import_`, lib_compiler/parser.cpp:68-81, in source `cur`. -/
def parseImport (fs : Str → Option Str) (cur : Source) : PM Unit := do
  let t ← popType .STRING
  fun s =>
    match loadSource fs s.srcs (cstr (importedPath cur (cstr t.str))) with
    | (true, srcs) => .ok ((), { s with srcs := srcs })
    | (false, _) => errTok t.line "unable to import '" t "'"

/-- The loop of `parser_t::parse`, lib_compiler/parser.cpp:24-59: the children added to the
program, with `parse_const_` and `parse_global_`, lib_compiler/parser.cpp:715-741. -/
def parseItems (fs : Str → Option Str) (cur : Source) : Nat → PM (List (Item Unit))
  | 0 => pFault .diverge
  | n + 1 => do
    match ← found .EOF with
    | some _ => pure []
    | none =>
      let t ← popTok
      match t.type with
      | .EOL => parseItems fs cur n
      | .VAR =>
        let (name, e) ← parseDeclVar n
        let is ← parseItems fs cur n
        pure (.var name false e :: is)
      | .CONST =>
        let (name, e) ← parseDeclVar n
        let is ← parseItems fs cur n
        pure (.var name true e :: is)
      | .FUNC =>
        let f ← parseFunction n
        let is ← parseItems fs cur n
        pure (.func f :: is)
      | .IMPORT =>
        parseImport fs cur
        parseItems fs cur n
      | _ =>
        let t ← popTok
        pErr t.line "unexpected token '" t "'"

/-- Fuel that always suffices (`C15_parsing_ends`). -/
def parseFuel (toks : List Token) : Nat := 8 * toks.length + 8

/-- `parser_t::parse`, lib_compiler/parser.cpp:13-66, on the tokens of source `cur`, with the
sources known so far and the expressions an earlier failed parse may have left on `exp_stack_`:
the children added to the program and the sources afterwards.  (`token_stream_t` starts with line
`{0, 0}`, lib_compiler/token.cpp:8-13; `op_stack_` is empty after a successful parse.) -/
def parse (fs : Str → Option Str) (cur : Source) (srcs : List Source) (left : List PExpr)
    (toks : List Token) : Comp (List (Item Unit) × PState) :=
  parseItems fs cur (parseFuel toks) ⟨toks, ⟨0, 0⟩, [], left, srcs⟩

end Ccml
