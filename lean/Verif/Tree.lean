import Verif.Ast
import Verif.Value
/-!
The syntax tree as nodes in memory: deleting the nodes that are no longer used (`ast_t::gc`) and
writing the tree to a file (`ast_t::dump`), lib_compiler/ast.cpp and the visitors of
lib_compiler/ast.h.
-/
namespace Ccml.Tree

/-- `ast_node_t*`; `none` is the null pointer. -/
abbrev Ptr := Option Nat

/-- The nodes with the fields visitors follow or show, lib_compiler/ast.h:77-628.  Names are the
strings of their tokens (`token_t::string`, lib_compiler/token.h:99-106, for a name that is not empty). -/
inductive Node
  /-- `ast_exp_ident_t`, ast.h:95-107 -/
  | ident (name : Str)
  /-- `ast_exp_member_t`, ast.h:185-199 -/
  | member (name : Str)
  /-- `ast_exp_lit_var_t`, ast.h:148-167 -/
  | litVar (v : I32)
  /-- `ast_exp_lit_float_t`, ast.h:128-146 -/
  | litFloat (v : F32)
  /-- `ast_exp_lit_str_t`, ast.h:109-126 -/
  | litStr (v : Str)
  /-- `ast_exp_none_t`, ast.h:169-183 -/
  | litNone
  /-- `ast_exp_array_init_t`, ast.h:201-220 -/
  | arrayInit (expr : List Ptr)
  /-- `ast_exp_deref_t`, ast.h:223-243 -/
  | deref (lhs index : Ptr)
  /-- `ast_exp_call_t`, ast.h:264-288 -/
  | call (callee : Ptr) (args : List Ptr)
  /-- `ast_exp_bin_op_t`, ast.h:290-309 -/
  | bin (op : Tok) (left right : Ptr)
  /-- `ast_exp_unary_op_t`, ast.h:311-326 -/
  | un (child : Ptr)
  /-- `ast_stmt_call_t`, ast.h:245-262 -/
  | stmtCall (expr : Ptr)
  /-- `ast_stmt_if_t`, ast.h:328-355 -/
  | ifS (expr thenBlock elseBlock : Ptr)
  /-- `ast_stmt_while_t`, ast.h:384-405 -/
  | whileS (expr body : Ptr)
  /-- `ast_stmt_for_t`, ast.h:407-444 -/
  | forS (name : Str) (start stop body : Ptr)
  /-- `ast_stmt_return_t`, ast.h:446-461 -/
  | ret (expr : Ptr)
  /-- `ast_stmt_assign_var_t`, ast.h:463-481 -/
  | assignVar (name : Str) (expr : Ptr)
  /-- `ast_stmt_assign_array_t`, ast.h:483-503 -/
  | assignArr (index expr : Ptr)
  /-- `ast_stmt_assign_member_t`, ast.h:505-525 -/
  | assignMem (expr : Ptr)
  /-- `ast_block_t`, ast.h:357-382 -/
  | block (nodes : List Ptr)
  /-- `ast_decl_func_t`, ast.h:527-581 -/
  | func (name : Str) (args : List Ptr) (body : Ptr)
  /-- `ast_decl_var_t`, ast.h:583-628 -/
  | var (name : Str) (expr : Ptr)
  deriving DecidableEq, Repr

/-- Where the `visit` functions of `ast_visitor_t` go on, in this order, lib_compiler/ast.h:662-761. -/
def Node.kids : Node → List Ptr
  | .ident _ | .member _ | .litVar _ | .litFloat _ | .litStr _ | .litNone => []
  | .arrayInit es => es
  | .deref l i => [l, i]
  | .call c as => as ++ [c]
  | .bin _ l r => [l, r]
  | .un c => [c]
  | .stmtCall e => [e]
  | .ifS e t f => [e, t, f]
  | .whileS e b => [e, b]
  | .forS _ a z b => [a, z, b]
  | .ret e => [e]
  | .assignVar _ e => [e]
  | .assignArr i e => [i, e]
  | .assignMem e => [e]
  | .block ns => ns
  | .func _ as b => as ++ [b]
  | .var _ e => [e]

/-- The nodes `gc_visitor_t` puts into its set: it has a `visit` function of its own for every type of node
but two, lib_compiler/ast.cpp:43-156. -/
def Node.kept : Node → Bool
  | .arrayInit _ | .assignMem _ => false
  | _ => true

/-- The operator shown for a binary operation, lib_compiler/ast.h:836-852. -/
def opText : Tok → Str
  | .ADD => str "+" | .SUB => str "-" | .MUL => str "*" | .DIV => str "/" | .MOD => str "%"
  | .LT => str "<" | .LEQ => str "<=" | .GT => str ">" | .GEQ => str ">=" | .EQ => str "=="
  | .AND => str "and" | .OR => str "or"
  | _ => str "?"

/-- What `ast_printer_t` writes for a node, lib_compiler/ast.h:764-927, without the end of the line.  A
number with a point is shown under the name of the other numbers. -/
def Node.head (fl : FloatOps) : Node → Str
  | .ident n => str "ast_exp_ident_t {name: " ++ cstr n ++ str "}"
  | .member n => str "ast_exp_member_t {name: " ++ cstr n ++ str "}"
  | .litVar v => str "ast_exp_lit_var_t {value: " ++ decimal v ++ str "}"
  | .litFloat v => str "ast_exp_lit_var_t {value: " ++ fl.fmt v ++ str "}"
  | .litStr v => str "ast_exp_lit_str_t {value: " ++ cstr v ++ str "}"
  | .litNone => str "ast_exp_none_t"
  | .arrayInit _ => str "ast_exp_array_init_t"
  | .deref .. => str "ast_exp_deref_t"
  | .call .. => str "ast_exp_call_t"
  | .bin op .. => str "ast_exp_bin_op_t {op: " ++ opText op ++ str "}"
  | .un _ => str "ast_exp_unary_op_t"
  | .stmtCall _ => str "ast_stmt_call_t"
  | .ifS .. => str "ast_stmt_if_t"
  | .whileS .. => str "ast_stmt_while_t"
  | .forS n .. => str "ast_stmt_for_t {name=" ++ cstr n ++ str "}"
  | .ret _ => str "ast_stmt_return_t"
  | .assignVar n _ => str "ast_stmt_assign_var_t {name: " ++ cstr n ++ str "}"
  | .assignArr .. => str "ast_stmt_assign_array_t"
  | .assignMem _ => str "ast_stmt_assign_member_t"
  | .block _ => str "ast_block_t"
  | .func n .. => str "ast_decl_func_t {name: " ++ cstr n ++ str "}"
  | .var n _ => str "ast_decl_var_t {name: " ++ cstr n ++ str "}"

/-- `ast_t`, lib_compiler/ast.h:630-659: the children of the root node (`program`, which is a part of the
object), the nodes in memory (`none` where there is none) and `allocs_`. -/
structure Ast where
  children : List Ptr
  mem : Nat → Option Node
  allocs : List Nat

/-- Dispatching to pointers one after the other; null pointers are skipped (lib_compiler/ast.cpp:9-11). -/
def each {α : Type} (f : Nat → Out (List α)) : List Ptr → Out (List α)
  | [] => .ok []
  | none :: ps => each f ps
  | some n :: ps =>
    match f n with
    | .error x => .error x
    | .ok a =>
      match each f ps with
      | .error x => .error x
      | .ok b => .ok (a ++ b)

/-- `gc_visitor_t` at the node `n`, lib_compiler/ast.cpp:8-41, 43-156: the members of its set.  Reading a
node that does not exist is undefined; `k` bounds the depth of the tree. -/
def marks (mem : Nat → Option Node) : Nat → Nat → Out (List Nat)
  | 0, _ => .error .diverge
  | k + 1, n =>
    match mem n with
    | none => .error .ub
    | some x =>
      match each (marks mem k) x.kids with
      | .error e => .error e
      | .ok l => .ok ((if x.kept then [n] else []) ++ l)

/-- `ast_t::gc`, lib_compiler/ast.cpp:158-170. -/
def gc (k : Nat) (t : Ast) : Out Ast :=
  match each (marks t.mem k) t.children with
  | .error e => .error e
  | .ok found => .ok {
      children := t.children
      mem := fun n => if n ∈ t.allocs ∧ n ∉ found then none else t.mem n
      allocs := t.allocs.filter fun n => found.contains n }

/-- `indent_`, lib_compiler/ast.h:932-936. -/
def indent (d : Nat) : Str := (List.replicate d (str ".  ")).flatten

/-- `ast_printer_t` at the node `n`, lib_compiler/ast.cpp:8-41, lib_compiler/ast.h:764-927, with `d` nodes on
the stack, this one included. -/
def dumpNode (fl : FloatOps) (mem : Nat → Option Node) : Nat → Nat → Nat → Out Str
  | 0, _, _ => .error .diverge
  | k + 1, d, n =>
    match mem n with
    | none => .error .ub
    | some x =>
      match each (dumpNode fl mem k (d + 1)) x.kids with
      | .error e => .error e
      | .ok t => .ok (indent d ++ x.head fl ++ str "\n" ++ t)

/-- `ast_t::dump`, lib_compiler/ast.cpp:187-190: the root is visited without being put on the stack
(lib_compiler/ast.h:774-778). -/
def dump (fl : FloatOps) (k : Nat) (t : Ast) : Out Str :=
  match each (dumpNode fl t.mem k 1) t.children with
  | .error e => .error e
  | .ok s => .ok (str "ast_program_t\n" ++ s)

end Ccml.Tree
