import Verif.Token
/-!
The syntax tree (lib_compiler/ast.h).

`D` is what a use of a name knows about its declaration (the `decl` pointers): nothing (`Unit`)
after parsing, a reference after `sema_decl_annotate_t`.
-/
namespace Ccml

/-- Expression nodes, lib_compiler/ast.h:95-326.  The tokens are kept because error messages and
the line table are made from them; literals made by the compiler have none. -/
inductive Expr (D : Type)
  /-- `ast_exp_ident_t`, ast.h:95-107 -/
  | ident (name : Token) (d : D)
  /-- `ast_exp_lit_var_t`, ast.h:148-167.  `cell` tells which node this is: `none` for a node of
  its own, `some c` for the one literal node of constant `c`, which all its uses share. -/
  | int (v : I32) (tok : Option Token) (cell : Option Nat)
  /-- `ast_exp_lit_float_t`, ast.h:128-146 -/
  | float (v : F32) (tok : Option Token)
  /-- `ast_exp_lit_str_t`, ast.h:109-126 -/
  | str (v : Str) (tok : Option Token)
  /-- `ast_exp_none_t`, ast.h:169-183 -/
  | none (tok : Option Token)
  /-- `ast_exp_member_t`, ast.h:185-199 -/
  | member (name mem : Token) (d : D)
  /-- `ast_exp_array_init_t`, ast.h:201-220 -/
  | arr (tok : Token) (es : List (Expr D))
  /-- `ast_exp_deref_t`, ast.h:223-243 -/
  | deref (tok : Token) (lhs index : Expr D)
  /-- `ast_exp_call_t`, ast.h:264-288 -/
  | call (tok : Token) (callee : Expr D) (args : List (Expr D))
  /-- `ast_exp_bin_op_t`, ast.h:290-309; `op` is the type of the token -/
  | bin (op : Token) (left right : Expr D)
  /-- `ast_exp_unary_op_t`, ast.h:311-326 -/
  | un (op : Token) (child : Expr D)
  deriving Repr

/-- Statement nodes, lib_compiler/ast.h:245-262, 328-525, 583-628.  A block
(`ast_block_t`, ast.h:357-382) is a list; the null pointer in place of a block behaves like an empty
block, except for `else_block`, whose presence is the flag `hasElse`. -/
inductive Stmt (D : Type)
  /-- `ast_decl_var_t` of a local variable, ast.h:583-628 -/
  | var (name : Token) (d : D) (init : Option (Expr D))
  /-- `ast_stmt_assign_var_t`, ast.h:463-481 -/
  | assign (name : Token) (d : D) (e : Expr D)
  /-- `ast_stmt_assign_array_t`, ast.h:483-503 -/
  | assignArr (name : Token) (d : D) (index e : Expr D)
  /-- `ast_stmt_assign_member_t`, ast.h:505-525 -/
  | assignMem (name mem : Token) (d : D) (e : Expr D)
  /-- `ast_stmt_call_t`, ast.h:245-262, with the fields of its `ast_exp_call_t` -/
  | call (tok : Token) (callee : Expr D) (args : List (Expr D))
  /-- `ast_stmt_if_t`, ast.h:328-355 -/
  | ifS (tok : Token) (cond : Expr D) (thn : List (Stmt D)) (hasElse : Bool) (els : List (Stmt D))
  /-- `ast_stmt_while_t`, ast.h:384-405 -/
  | whileS (tok : Token) (cond : Expr D) (body : List (Stmt D))
  /-- `ast_stmt_for_t`, ast.h:407-444 -/
  | forS (tok name : Token) (d : D) (start stop : Expr D) (body : List (Stmt D))
  /-- `ast_stmt_return_t`, ast.h:446-461 -/
  | ret (tok : Token) (e : Option (Expr D))
  deriving Repr

/-- A script function, `ast_decl_func_t`, lib_compiler/ast.h:527-581; the arguments are the names
of its `ast_decl_var_t` nodes.  `name` and `stop` are `token` and `end`. -/
structure FuncDecl (D : Type) where
  name : Token
  args : List Token
  body : List (Stmt D)
  stop : Token
  deriving Repr

/-- A child of `ast_program_t`, lib_compiler/ast.h:77-93. -/
inductive Item (D : Type)
  /-- a global `ast_decl_var_t` -/
  | var (name : Token) (isConst : Bool) (init : Option (Expr D))
  /-- an `ast_decl_func_t` -/
  | func (f : FuncDecl D)
  /-- an `ast_decl_func_t` made by `nano_t::syscall_register`, lib_compiler/nano.cpp:88-102;
  `none` for a variable number of arguments -/
  | syscall (name : Str) (args : Option Nat)
  deriving Repr

/-- A whole program, the children of the root node. -/
abbrev Prog (D : Type) := List (Item D)

end Ccml
