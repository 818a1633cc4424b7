import Verif.Parser
/-!
The semantic passes (lib_compiler/sema.cpp).

The code works on one mutable tree.  Here every pass returns the tree it leaves behind.  A `decl`
pointer is a `Ref`; `std::set<ast_node_t*>` is a list together with the addresses of the nodes
(`Layout`), which are arbitrary.
-/
namespace Ccml

/-- Which declaration a `decl` pointer points to: a child of the program node, an argument or a
local variable of the function around the use.  Local variables are numbered in the order of the
text. -/
inductive Ref
  | item (i : Nat)
  | arg (i : Nat)
  | loc (k : Nat)
  deriving DecidableEq, Repr

/-- Addresses of declaration nodes: the children of the program, and the arguments and local
variables of the function that is child `f`. -/
structure Layout where
  item : Nat → Nat
  var : Nat → Ref → Nat

/-- The address of a node seen from function `f`. -/
def Layout.addr (L : Layout) (f : Nat) : Ref → Nat
  | .item i => L.item i
  | r => L.var f r

/-- The name a child of the program declares (lib_compiler/sema.cpp:428-439).  Names contain no
NUL. -/
def Item.declName {D : Type} : Item D → Str
  | .var t _ _ => t.str
  | .func f => f.name.str
  | .syscall n _ => n

/-- `cast<ast_decl_var_t>()` of a child of the program. -/
def Item.isVar {D : Type} : Item D → Bool
  | .var .. => true
  | _ => false

/-- `cast<ast_decl_var_t>()` of a declaration: arguments and local variables always are. -/
def refIsVar {D : Type} (p : Prog D) : Ref → Bool
  | .item i => match p[i]? with
    | some x => x.isVar
    | none => false
  | _ => true

/-! ### `sema_decl_annotate_t`, lib_compiler/sema.cpp:291-450 -/

/-- A declaration in a scope. -/
structure Decl where
  name : Str
  ref : Ref
  deriving DecidableEq, Repr

/-- `std::set<ast_node_t *>`: iteration is by address. -/
abbrev Scope := List Decl

/-- The first declaration of a name in the order of the addresses, lib_compiler/sema.cpp:427-440. -/
def Scope.pick (addr : Ref → Nat) (name : Str) : Scope → Option Ref
  | [] => none
  | d :: ds =>
    match pick addr name ds with
    | none => if d.name = name then some d.ref else none
    | some r => if d.name = name ∧ addr d.ref < addr r then some d.ref else some r

/-- `find_decl`, lib_compiler/sema.cpp:423-443; innermost scope first. -/
def findDecl (addr : Ref → Nat) (name : Str) : List Scope → Option Ref
  | [] => none
  | s :: ss =>
    match s.pick addr name with
    | some r => some r
    | none => findDecl addr name ss

/-- `errs_.unknown_identifier`, lib_compiler/errors.h:61-63. -/
def unknownIdentifier {α : Type} (t : Token) : Comp α := errTok t.line "unknown identifier '" t "'"
/-- `errs_.unknown_variable`, lib_compiler/errors.h:69-71. -/
def unknownVariable {α : Type} (t : Token) : Comp α := errTok t.line "unknown variable '" t "'"
/-- `errs_.unknown_array`, lib_compiler/errors.h:73-75. -/
def unknownArray {α : Type} (t : Token) : Comp α := errTok t.line "unknown array '" t "'"

/-- A failed assertion or undefined behaviour inside a pass. -/
def cFault {α : Type} (f : Fault) : Comp α := .error (.fault f)

/-- What `find_decl` sees at some point, and which references are variables. -/
structure Look where
  find : Str → Option Ref
  isVar : Ref → Bool

mutual

/-- Expressions, lib_compiler/sema.cpp:366-398 with the traversal of lib_compiler/ast.h:671-703. -/
def annE (lk : Look) : Expr Unit → Comp (Expr Ref)
  | .ident t _ =>
    match lk.find t.str with
    | none => unknownIdentifier t
    | some r => .ok (.ident t r)
  | .int v t c => .ok (.int v t c)
  | .float v t => .ok (.float v t)
  | .str v t => .ok (.str v t)
  | .none t => .ok (.none t)
  | .member t m _ =>
    match lk.find t.str with
    | none => unknownIdentifier t
    | some r => if lk.isVar r then .ok (.member t m r) else cFault .assert
  | .arr t es =>
    match annEs lk es with
    | .error x => .error x
    | .ok es => .ok (.arr t es)
  | .deref t l i =>
    match annE lk l with
    | .error x => .error x
    | .ok l =>
      match annE lk i with
      | .error x => .error x
      | .ok i => .ok (.deref t l i)
  | .call t c as =>
    match annEs lk as with
    | .error x => .error x
    | .ok as =>
      match annE lk c with
      | .error x => .error x
      | .ok c => .ok (.call t c as)
  | .bin op l r =>
    match annE lk l with
    | .error x => .error x
    | .ok l =>
      match annE lk r with
      | .error x => .error x
      | .ok r => .ok (.bin op l r)
  | .un op a =>
    match annE lk a with
    | .error x => .error x
    | .ok a => .ok (.un op a)

/-- Expressions in order. -/
def annEs (lk : Look) : List (Expr Unit) → Comp (List (Expr Ref))
  | [] => .ok []
  | e :: es =>
    match annE lk e with
    | .error x => .error x
    | .ok e =>
      match annEs lk es with
      | .error x => .error x
      | .ok es => .ok (e :: es)

end

/-- An expression that may be missing. -/
def annO (lk : Look) : Option (Expr Unit) → Comp (Option (Expr Ref))
  | none => .ok none
  | some e =>
    match annE lk e with
    | .error x => .error x
    | .ok e => .ok (some e)

/-- What the annotation of a statement needs: addresses and which references are variables. -/
structure AnnEnv where
  addr : Ref → Nat
  isVar : Ref → Bool

/-- The view of a stack of scopes. -/
def AnnEnv.look (E : AnnEnv) (ss : List Scope) : Look := ⟨fun n => findDecl E.addr n ss, E.isVar⟩

/-- The variable an assignment or `for` refers to; `bad` is the error for anything else. -/
def AnnEnv.target (E : AnnEnv) (ss : List Scope) (t : Token) (bad : Token → Comp Ref) : Comp Ref :=
  match findDecl E.addr t.str ss with
  | none => bad t
  | some r => if E.isVar r then .ok r else bad t

mutual

/-- Statements, lib_compiler/sema.cpp:299-364, 406-421.  `cur` is the innermost scope, `outer` are
the others, `k` is the number of local variables met so far; the result has the new innermost scope
and number. -/
def annS (E : AnnEnv) (outer : List Scope) (cur : Scope) (k : Nat) :
    Stmt Unit → Comp (Stmt Ref × Scope × Nat)
  | .var t _ init =>
    match annO (E.look (cur :: outer)) init with
    | .error x => .error x
    | .ok init => .ok (.var t (.loc k) init, ⟨t.str, .loc k⟩ :: cur, k + 1)
  | .assign t _ e =>
    match annE (E.look (cur :: outer)) e with
    | .error x => .error x
    | .ok e =>
      match E.target (cur :: outer) t unknownVariable with
      | .error x => .error x
      | .ok r => .ok (.assign t r e, cur, k)
  | .assignArr t _ i e =>
    match annE (E.look (cur :: outer)) i with
    | .error x => .error x
    | .ok i =>
      match annE (E.look (cur :: outer)) e with
      | .error x => .error x
      | .ok e =>
        match E.target (cur :: outer) t unknownArray with
        | .error x => .error x
        | .ok r => .ok (.assignArr t r i e, cur, k)
  | .assignMem t m _ e =>
    match annE (E.look (cur :: outer)) e with
    | .error x => .error x
    | .ok e =>
      match E.target (cur :: outer) t unknownIdentifier with
      | .error x => .error x
      | .ok r => .ok (.assignMem t m r e, cur, k)
  | .call t c as =>
    match annEs (E.look (cur :: outer)) as with
    | .error x => .error x
    | .ok as =>
      match annE (E.look (cur :: outer)) c with
      | .error x => .error x
      | .ok c => .ok (.call t c as, cur, k)
  | .ifS t c thn hasElse els =>
    match annE (E.look ([] :: cur :: outer)) c with
    | .error x => .error x
    | .ok c =>
      match annB E (cur :: outer) [] k thn with
      | .error x => .error x
      | .ok (thn, sc, k) =>
        match annB E (cur :: outer) sc k els with
        | .error x => .error x
        | .ok (els, _, k) => .ok (.ifS t c thn hasElse els, cur, k)
  | .whileS t c body =>
    match annE (E.look ([] :: cur :: outer)) c with
    | .error x => .error x
    | .ok c =>
      match annB E (cur :: outer) [] k body with
      | .error x => .error x
      | .ok (body, _, k) => .ok (.whileS t c body, cur, k)
  | .forS t n _ a b body =>
    match E.target ([] :: cur :: outer) n unknownVariable with
    | .error x => .error x
    | .ok r =>
      match annE (E.look ([] :: cur :: outer)) a with
      | .error x => .error x
      | .ok a =>
        match annE (E.look ([] :: cur :: outer)) b with
        | .error x => .error x
        | .ok b =>
          match annB E (cur :: outer) [] k body with
          | .error x => .error x
          | .ok (body, _, k) => .ok (.forS t n r a b body, cur, k)
  | .ret t e =>
    match annO (E.look (cur :: outer)) e with
    | .error x => .error x
    | .ok e => .ok (.ret t e, cur, k)

/-- The statements of a block one after the other, lib_compiler/ast.h:746-749; a block opens no
scope of its own. -/
def annB (E : AnnEnv) (outer : List Scope) (cur : Scope) (k : Nat) :
    List (Stmt Unit) → Comp (List (Stmt Ref) × Scope × Nat)
  | [] => .ok ([], cur, k)
  | s :: ss =>
    match annS E outer cur k s with
    | .error x => .error x
    | .ok (s, cur, k) =>
      match annB E outer cur k ss with
      | .error x => .error x
      | .ok (ss, cur, k) => .ok (s :: ss, cur, k)

end

/-- The scope made by the arguments of a function, lib_compiler/sema.cpp:400-404, 418-421. -/
def argScope (args : List Token) : Scope :=
  (args.mapIdx fun i t => Decl.mk t.str (.arg i)).reverse

/-- `scope_[0]`: the children of the program, lib_compiler/sema.cpp:313-325. -/
def globalScope {D : Type} (p : Prog D) : Scope := p.mapIdx fun i x => ⟨x.declName, .item i⟩

/-- One child of the program. -/
def annItem (L : Layout) (p : Prog Unit) (i : Nat) : Item Unit → Comp (Item Ref)
  | .var t c init =>
    match annO ((AnnEnv.mk (L.addr i) (refIsVar p)).look [globalScope p]) init with
    | .error x => .error x
    | .ok init => .ok (.var t c init)
  | .func f =>
    match annB ⟨L.addr i, refIsVar p⟩ [globalScope p] (argScope f.args) 0 f.body with
    | .error x => .error x
    | .ok (body, _, _) => .ok (.func ⟨f.name, f.args, body, f.stop⟩)
  | .syscall n a => .ok (.syscall n a)

/-- The children of the program in order, from child `i` on. -/
def annItems (L : Layout) (p : Prog Unit) : Nat → List (Item Unit) → Comp (Prog Ref)
  | _, [] => .ok []
  | i, x :: xs =>
    match annItem L p i x with
    | .error x => .error x
    | .ok x =>
      match annItems L p (i + 1) xs with
      | .error x => .error x
      | .ok xs => .ok (x :: xs)

/-- `sema_decl_annotate_t::visit(ast_program_t*)`, lib_compiler/sema.cpp:313-328. -/
def annotate (L : Layout) (p : Prog Unit) : Comp (Prog Ref) := annItems L p 0 p

/-! ### Evaluation of integer operators at compile time -/

/-- A computation that may be undefined, inside a pass. -/
def liftC {α : Type} (o : Out α) : Comp α :=
  match o with
  | .ok a => .ok a
  | .error f => .error (.fault f)

/-- A truth value as the integer it converts to. -/
def boolI32 (b : Bool) : I32 := if b then 1 else 0

/-- The switch over binary operators in `eval_t::eval_`, lib_compiler/sema.cpp:117-145, and
`opt_const_expr_t::eval_`, lib_compiler/optimize.cpp:276-297.  Overflow is undefined. -/
def constBin (t : Token) (a b : I32) : Comp I32 :=
  if b = 0 ∧ (t.type = .DIV ∨ t.type = .MOD) then onError t.line [str "constant divide by zero"]
  else match t.type with
    | .ADD => liftC (ret32 (a.toInt + b.toInt))
    | .SUB => liftC (ret32 (a.toInt - b.toInt))
    | .MUL => liftC (ret32 (a.toInt * b.toInt))
    | .AND => .ok (boolI32 (a != 0 && b != 0))
    | .OR => .ok (boolI32 (a != 0 || b != 0))
    | .LEQ => .ok (boolI32 (decide (a.toInt ≤ b.toInt)))
    | .GEQ => .ok (boolI32 (decide (a.toInt ≥ b.toInt)))
    | .LT => .ok (boolI32 (decide (a.toInt < b.toInt)))
    | .GT => .ok (boolI32 (decide (a.toInt > b.toInt)))
    | .EQ => .ok (boolI32 (a == b))
    | .DIV => liftC (ret32 (a.toInt.tdiv b.toInt))
    | .MOD =>
      if fits32 (a.toInt.tdiv b.toInt) then .ok (BitVec.ofInt 32 (a.toInt.tmod b.toInt))
      else cFault .ub
    | _ => cFault .assert

/-! ### `sema_global_var_t`, lib_compiler/sema.cpp:218-285 -/

/-- The state of `eval_t`: `value_` (top first) and `valid_`, lib_compiler/sema.cpp:148-150. -/
structure EvalSt where
  stack : List I32
  valid : Bool
  deriving DecidableEq, Repr

/-- `eval_t::is_supported`, lib_compiler/sema.cpp:77-87. -/
def evalSupported {D : Type} : Expr D → Bool
  | .int .. | .bin .. | .un .. | .ident .. => true
  | _ => false

/-- `eval_t::visit(ast_exp_ident_t*)`, lib_compiler/sema.cpp:53-64: the value of a constant whose
expression is an integer literal by now.  Anything but a variable fails the assertion. -/
def evalIdent (p : Prog Ref) (r : Ref) (s : EvalSt) : Comp EvalSt :=
  match r with
  | .item i =>
    match p[i]? with
    | some (.var _ true (some (.int v _ _))) => .ok { s with stack := v :: s.stack }
    | some (.var ..) => .ok { s with valid := false }
    | _ => cFault .assert
  | _ => .ok { s with valid := false }

/-- `eval_t`, lib_compiler/sema.cpp:16-64, 89-146. -/
def evalG (p : Prog Ref) : Expr Ref → EvalSt → Comp EvalSt
  | .int v _ _, s => .ok { s with stack := v :: s.stack }
  | .ident _ r, s => evalIdent p r s
  | .un op a, s =>
    if !evalSupported a then .ok { s with valid := false }
    else match evalG p a s with
      | .error x => .error x
      | .ok s =>
        match s.stack with
        | [] => cFault .ub
        | v :: st =>
          if op.type = .SUB then
            match ret32 (-v.toInt) with
            | .error f => cFault f
            | .ok r => .ok { s with stack := r :: st }
          else cFault .assert
  | .bin op l r, s =>
    if !evalSupported l || !evalSupported r then .ok { s with valid := false }
    else match evalG p l s with
      | .error x => .error x
      | .ok s =>
        match evalG p r s with
        | .error x => .error x
        | .ok s =>
          if !s.valid then .ok { s with stack := 0 :: s.stack }
          else match s.stack with
            | b :: a :: st =>
              match constBin op a b with
              | .error x => .error x
              | .ok v => .ok { s with stack := v :: st }
            | _ => cFault .assert
  | _, s => .ok s

/-- `eval_t::eval`, lib_compiler/sema.cpp:66-74. -/
def evalGlobal (p : Prog Ref) (e : Expr Ref) : Comp (Option I32) :=
  match evalG p e ⟨[], true⟩ with
  | .error x => .error x
  | .ok s =>
    match s.stack with
    | [v] => .ok (if s.valid then some v else none)
    | _ => .ok none

/-- `sema_global_var_t::visit(ast_decl_var_t*)`, lib_compiler/sema.cpp:227-257: the new initialiser
and whether `change_` is set. -/
def globalInit (p : Prog Ref) (e : Expr Ref) : Comp (Option (Expr Ref) × Bool) :=
  match e with
  | .none _ => .ok (none, false)
  | .bin .. | .un .. =>
    match evalGlobal p e with
    | .error x => .error x
    | .ok (some v) => .ok (some (.int v none none), true)
    | .ok none => .ok (some e, false)
  | _ => .ok (some e, false)

/-- `run_globals_`, lib_compiler/sema.cpp:271-279, over the children with the given indices. -/
def globalPass : List Nat → Prog Ref → Bool → Comp (Prog Ref × Bool)
  | [], p, ch => .ok (p, ch)
  | i :: is, p, ch =>
    match p[i]? with
    | some (.var t c (some e)) =>
      match globalInit p e with
      | .error x => .error x
      | .ok (e', ch') => globalPass is (p.set i (.var t c e')) (ch || ch')
    | _ => globalPass is p ch

/-- The loop of `visit(ast_program_t*)`, lib_compiler/sema.cpp:261-264; `fuel` bounds the rounds. -/
def globalLoop : Nat → Prog Ref → Comp (Prog Ref)
  | 0, _ => cFault .diverge
  | n + 1, p =>
    match globalPass (List.range p.length) p false with
    | .error x => .error x
    | .ok (p, true) => globalLoop n p
    | .ok (p, false) => .ok p

/-- `sema_global_var_t::visit(ast_program_t*)`, lib_compiler/sema.cpp:259-268.  Every round but the
last replaces an operator node, so one round more than there are children suffices. -/
def globalVars (p : Prog Ref) : Comp (Prog Ref) :=
  match globalLoop (p.length + 1) p with
  | .error x => .error x
  | .ok p =>
    match globalPass (List.range p.length) p false with
    | .error x => .error x
    | .ok (p, _) => .ok p

/-! ### `sema_const_t`, lib_compiler/sema.cpp:157-210 -/

/-- `ast_decl_var_t::is_const` of a declaration; only children of the program can be constant. -/
def refIsConst {D : Type} (p : Prog D) : Ref → Bool
  | .item i => match p[i]? with
    | some (.var _ c _) => c
    | _ => false
  | _ => false

/-- `visit(ast_exp_ident_t*)`, lib_compiler/sema.cpp:164-186: the node put in place of the name.
All uses of a constant share the literal node (`cell`). -/
def constIdent (p : Prog Ref) (t : Token) (r : Ref) : Comp (Expr Ref) :=
  match r with
  | .item i =>
    match p[i]? with
    | some (.var _ true (some e)) =>
      match e with
      | .int v k c => .ok (.int v k (some (c.getD i)))
      | .str v k => .ok (.str v k)
      | .float v k => .ok (.float v k)
      | .none k => .ok (.none k)
      | _ => errTok t.line "error evaluating const expression for '" t "'"
    | _ => .ok (.ident t r)
  | _ => .ok (.ident t r)

mutual

/-- Expressions.  `ast_exp_call_t::replace_child` (lib_compiler/ast.h:273-279) replaces arguments
only, so a name in the place of the callee stays. -/
def constE (p : Prog Ref) : Expr Ref → Comp (Expr Ref)
  | .ident t r => constIdent p t r
  | .int v t c => .ok (.int v t c)
  | .float v t => .ok (.float v t)
  | .str v t => .ok (.str v t)
  | .none t => .ok (.none t)
  | .member t m r => .ok (.member t m r)
  | .arr t es =>
    match constEs p es with
    | .error x => .error x
    | .ok es => .ok (.arr t es)
  | .deref t l i =>
    match constE p l with
    | .error x => .error x
    | .ok l =>
      match constE p i with
      | .error x => .error x
      | .ok i => .ok (.deref t l i)
  | .call t c as =>
    match constEs p as with
    | .error x => .error x
    | .ok as =>
      match constE p c with
      | .error x => .error x
      | .ok c' => .ok (.call t (match c with | .ident n r => .ident n r | _ => c') as)
  | .bin op l r =>
    match constE p l with
    | .error x => .error x
    | .ok l =>
      match constE p r with
      | .error x => .error x
      | .ok r => .ok (.bin op l r)
  | .un op a =>
    match constE p a with
    | .error x => .error x
    | .ok a => .ok (.un op a)

/-- Expressions in order. -/
def constEs (p : Prog Ref) : List (Expr Ref) → Comp (List (Expr Ref))
  | [] => .ok []
  | e :: es =>
    match constE p e with
    | .error x => .error x
    | .ok e =>
      match constEs p es with
      | .error x => .error x
      | .ok es => .ok (e :: es)

end

/-- An expression that may be missing. -/
def constO (p : Prog Ref) : Option (Expr Ref) → Comp (Option (Expr Ref))
  | none => .ok none
  | some e =>
    match constE p e with
    | .error x => .error x
    | .ok e => .ok (some e)

mutual

/-- Statements; assigning to a constant is an error, lib_compiler/sema.cpp:188-194. -/
def constS (p : Prog Ref) : Stmt Ref → Comp (Stmt Ref)
  | .var t r init =>
    match constO p init with
    | .error x => .error x
    | .ok init => .ok (.var t r init)
  | .assign t r e =>
    if refIsConst p r then errTok t.line "cant assign to constant variable '" t "'"
    else match constE p e with
      | .error x => .error x
      | .ok e => .ok (.assign t r e)
  | .assignArr t r i e =>
    match constE p i with
    | .error x => .error x
    | .ok i =>
      match constE p e with
      | .error x => .error x
      | .ok e => .ok (.assignArr t r i e)
  | .assignMem t m r e =>
    match constE p e with
    | .error x => .error x
    | .ok e => .ok (.assignMem t m r e)
  | .call t c as =>
    match constEs p as with
    | .error x => .error x
    | .ok as =>
      match constE p c with
      | .error x => .error x
      | .ok c' => .ok (.call t (match c with | .ident n r => .ident n r | _ => c') as)
  | .ifS t c thn h els =>
    match constE p c with
    | .error x => .error x
    | .ok c =>
      match constB p thn with
      | .error x => .error x
      | .ok thn =>
        match constB p els with
        | .error x => .error x
        | .ok els => .ok (.ifS t c thn h els)
  | .whileS t c body =>
    match constE p c with
    | .error x => .error x
    | .ok c =>
      match constB p body with
      | .error x => .error x
      | .ok body => .ok (.whileS t c body)
  | .forS t n r a b body =>
    match constE p a with
    | .error x => .error x
    | .ok a =>
      match constE p b with
      | .error x => .error x
      | .ok b =>
        match constB p body with
        | .error x => .error x
        | .ok body => .ok (.forS t n r a b body)
  | .ret t e =>
    match constO p e with
    | .error x => .error x
    | .ok e => .ok (.ret t e)

/-- The statements of a block. -/
def constB (p : Prog Ref) : List (Stmt Ref) → Comp (List (Stmt Ref))
  | [] => .ok []
  | s :: ss =>
    match constS p s with
    | .error x => .error x
    | .ok s =>
      match constB p ss with
      | .error x => .error x
      | .ok ss => .ok (s :: ss)

end

/-- One child of the program; for a declaration lib_compiler/sema.cpp:196-203. -/
def constItem (p : Prog Ref) : Item Ref → Comp (Item Ref)
  | .var t c init =>
    match constO p init with
    | .error x => .error x
    | .ok init =>
      if c = true ∧ init = none then errTok t.line "constant '" t "' must be initalized"
      else .ok (.var t c init)
  | .func f =>
    match constB p f.body with
    | .error x => .error x
    | .ok body => .ok (.func { f with body := body })
  | .syscall n a => .ok (.syscall n a)

/-- The children with the given indices in order; later ones see what became of earlier ones. -/
def constPass : List Nat → Prog Ref → Comp (Prog Ref)
  | [], p => .ok p
  | i :: is, p =>
    match p[i]? with
    | none => constPass is p
    | some x =>
      match constItem p x with
      | .error x => .error x
      | .ok x => constPass is (p.set i x)

/-- `sema_const_t::visit(ast_program_t*)`, lib_compiler/sema.cpp:205-207. -/
def consts (p : Prog Ref) : Comp (Prog Ref) := constPass (List.range p.length) p

/-! ### `sema_multi_decls_t`, lib_compiler/sema.cpp:456-538 -/

/-- `visit(ast_decl_var_t*)`, lib_compiler/sema.cpp:462-468, with the names in all open scopes. -/
def declare {D : Type} (vis : List Str) (t : Token) (_ : D) : Comp (List Str) :=
  if vis.contains t.str then errTok t.line "var '" t "' already exists in this scope"
  else .ok (t.str :: vis)

mutual

/-- Statements, lib_compiler/sema.cpp:470-497: the names visible afterwards.  Expressions declare
nothing. -/
def multiS {D : Type} (vis : List Str) : Stmt D → Comp (List Str)
  | .var t d _ => declare vis t d
  | .ifS _ _ thn _ els =>
    match multiB vis thn with
    | .error x => .error x
    | .ok _ =>
      match multiB vis els with
      | .error x => .error x
      | .ok _ => .ok vis
  | .whileS _ _ body =>
    match multiB vis body with
    | .error x => .error x
    | .ok _ => .ok vis
  | .forS _ _ _ _ _ body =>
    match multiB vis body with
    | .error x => .error x
    | .ok _ => .ok vis
  | _ => .ok vis

/-- The statements of a block. -/
def multiB {D : Type} (vis : List Str) : List (Stmt D) → Comp (List Str)
  | [] => .ok vis
  | s :: ss =>
    match multiS vis s with
    | .error x => .error x
    | .ok vis => multiB vis ss

end

/-- The arguments of a function, lib_compiler/sema.cpp:505-507. -/
def multiArgs (vis : List Str) : List Token → Comp (List Str)
  | [] => .ok vis
  | t :: ts =>
    match declare vis t () with
    | .error x => .error x
    | .ok vis => multiArgs vis ts

/-- One child of the program, lib_compiler/sema.cpp:499-510: the names visible afterwards.  A
system call has no token for the message. -/
def multiItem {D : Type} (vis : List Str) : Item D → Comp (List Str)
  | .var t _ _ => declare vis t ()
  | .func f =>
    if vis.contains f.name.str then errTok f.name.line "function '" f.name "' already exists"
    else
      match multiArgs (f.name.str :: vis) f.args with
      | .error x => .error x
      | .ok v =>
        match multiB v f.body with
        | .error x => .error x
        | .ok _ => .ok (f.name.str :: vis)
  | .syscall n _ => if vis.contains n then cFault .ub else .ok (n :: vis)

/-- The children in order. -/
def multiItems {D : Type} (vis : List Str) : List (Item D) → Comp Unit
  | [] => .ok ()
  | x :: xs =>
    match multiItem vis x with
    | .error x => .error x
    | .ok vis => multiItems vis xs

/-- `sema_multi_decls_t::visit(ast_program_t*)`, lib_compiler/sema.cpp:512-516. -/
def multiDecls {D : Type} (p : Prog D) : Comp Unit := multiItems [] p

/-! ### `sema_num_args_t`, lib_compiler/sema.cpp:544-588 -/

/-- How many arguments the function behind a reference takes; `none` if it is no function or takes
any number. -/
def wantedArgs {D : Type} (p : Prog D) : Ref → Option Nat
  | .item i => match p[i]? with
    | some (.func f) => some f.args.length
    | some (.syscall _ a) => a
    | _ => none
  | _ => none

/-- `visit(ast_exp_call_t*)` before it descends, lib_compiler/sema.cpp:556-572. -/
def checkCall {D : Type} (p : Prog D) (c : Expr Ref) (n : Nat) : Comp Unit :=
  match c with
  | .ident t r =>
    match wantedArgs p r with
    | none => .ok ()
    | some w =>
      if n > w then errTok t.line "too many arguments given to '" t "'"
      else if n < w then errTok t.line "not enough arguments given to '" t "'"
      else .ok ()
  | _ => .ok ()

mutual

/-- Expressions. -/
def argsE (p : Prog Ref) : Expr Ref → Comp Unit
  | .arr _ es => argsEs p es
  | .deref _ l i =>
    match argsE p l with
    | .error x => .error x
    | .ok _ => argsE p i
  | .call _ c as =>
    match checkCall p c as.length with
    | .error x => .error x
    | .ok _ =>
      match argsEs p as with
      | .error x => .error x
      | .ok _ => argsE p c
  | .bin _ l r =>
    match argsE p l with
    | .error x => .error x
    | .ok _ => argsE p r
  | .un _ a => argsE p a
  | _ => .ok ()

/-- Expressions in order. -/
def argsEs (p : Prog Ref) : List (Expr Ref) → Comp Unit
  | [] => .ok ()
  | e :: es =>
    match argsE p e with
    | .error x => .error x
    | .ok _ => argsEs p es

end

/-- An expression that may be missing. -/
def argsO (p : Prog Ref) : Option (Expr Ref) → Comp Unit
  | none => .ok ()
  | some e => argsE p e

mutual

/-- Statements. -/
def argsS (p : Prog Ref) : Stmt Ref → Comp Unit
  | .var _ _ init => argsO p init
  | .assign _ _ e => argsE p e
  | .assignArr _ _ i e =>
    match argsE p i with
    | .error x => .error x
    | .ok _ => argsE p e
  | .assignMem _ _ _ e => argsE p e
  | .call _ c as =>
    match checkCall p c as.length with
    | .error x => .error x
    | .ok _ =>
      match argsEs p as with
      | .error x => .error x
      | .ok _ => argsE p c
  | .ifS _ c thn _ els =>
    match argsE p c with
    | .error x => .error x
    | .ok _ =>
      match argsB p thn with
      | .error x => .error x
      | .ok _ => argsB p els
  | .whileS _ c body =>
    match argsE p c with
    | .error x => .error x
    | .ok _ => argsB p body
  | .forS _ _ _ a b body =>
    match argsE p a with
    | .error x => .error x
    | .ok _ =>
      match argsE p b with
      | .error x => .error x
      | .ok _ => argsB p body
  | .ret _ e => argsO p e

/-- The statements of a block. -/
def argsB (p : Prog Ref) : List (Stmt Ref) → Comp Unit
  | [] => .ok ()
  | s :: ss =>
    match argsS p s with
    | .error x => .error x
    | .ok _ => argsB p ss

end

/-- One child of the program. -/
def argsItem (p : Prog Ref) : Item Ref → Comp Unit
  | .var _ _ init => argsO p init
  | .func f => argsB p f.body
  | .syscall .. => .ok ()

/-- The children in order. -/
def argsItems (p : Prog Ref) : List (Item Ref) → Comp Unit
  | [] => .ok ()
  | x :: xs =>
    match argsItem p x with
    | .error x => .error x
    | .ok _ => argsItems p xs

/-- `sema_num_args_t::visit(ast_program_t*)`, lib_compiler/sema.cpp:577-587 (the map `funcs_` is
never read). -/
def numArgs (p : Prog Ref) : Comp Unit := argsItems p p

/-! ### All passes -/

/-- `run_sema`, lib_compiler/sema.cpp:591-598. -/
def runSema (L : Layout) (p : Prog Unit) : Comp (Prog Ref) :=
  match annotate L p with
  | .error x => .error x
  | .ok p =>
    match globalVars p with
    | .error x => .error x
    | .ok p =>
      match consts p with
      | .error x => .error x
      | .ok p =>
        match multiDecls p with
        | .error x => .error x
        | .ok _ =>
          match numArgs p with
          | .error x => .error x
          | .ok _ => .ok p

end Ccml
