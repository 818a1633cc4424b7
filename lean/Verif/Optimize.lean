import Verif.Sema
/-!
The optimisation passes that are run (lib_compiler/optimize.cpp).  `op_decl_elim_t` is disabled in
the code and not modelled.
-/
namespace Ccml

/-! ### `opt_post_ret_t`, lib_compiler/optimize.cpp:312-339 -/

/-- `is_a<ast_stmt_return_t>()`. -/
def Stmt.isRet {D : Type} : Stmt D → Bool
  | .ret .. => true
  | _ => false

/-- `visit(ast_block_t*)`, lib_compiler/optimize.cpp:322-335: everything behind the first `return`
is erased.  The function does not descend, so only the outermost block of a function is treated. -/
def cutAfterRet {D : Type} : List (Stmt D) → List (Stmt D)
  | [] => []
  | s :: ss => if s.isRet then [s] else s :: cutAfterRet ss

/-- One child of the program. -/
def postRetItem {D : Type} : Item D → Item D
  | .func f => .func { f with body := cutAfterRet f.body }
  | x => x

/-- `opt_post_ret_t`. -/
def postRet {D : Type} (p : Prog D) : Prog D := p.map postRetItem

/-! ### `opt_const_expr_t`, lib_compiler/optimize.cpp:155-306 -/

/-- `eval_(const ast_exp_unary_op_t*)`, lib_compiler/optimize.cpp:237-252, on a known operand. -/
def constUn (t : Token) (a : I32) : Comp I32 :=
  match t.type with
  | .SUB => liftC (ret32 (-a.toInt))
  | .NOT => .ok (boolI32 (a == 0))
  | _ => cFault .assert

mutual

/-- `value_` of an expression after it has been visited, lib_compiler/optimize.cpp:162-174,
223-301: its value if the pass knows one. -/
def knownE {D : Type} : Expr D → Comp (Option I32)
  | .int v _ _ => .ok (some v)
  | .arr _ es =>
    match knownEs es with
    | .error x => .error x
    | .ok _ => .ok none
  | .deref _ l i =>
    match knownE l with
    | .error x => .error x
    | .ok _ =>
      match knownE i with
      | .error x => .error x
      | .ok _ => .ok none
  | .call _ c as =>
    match knownEs as with
    | .error x => .error x
    | .ok _ =>
      match knownE c with
      | .error x => .error x
      | .ok _ => .ok none
  | .bin op l r =>
    match knownE l with
    | .error x => .error x
    | .ok a =>
      match knownE r with
      | .error x => .error x
      | .ok b =>
        match a, b with
        | some a, some b =>
          match constBin op a b with
          | .error x => .error x
          | .ok v => .ok (some v)
        | _, _ => .ok none
  | .un op a =>
    match knownE a with
    | .error x => .error x
    | .ok none => .ok none
    | .ok (some a) =>
      match constUn op a with
      | .error x => .error x
      | .ok v => .ok (some v)
  | _ => .ok none

/-- Visiting expressions in order. -/
def knownEs {D : Type} : List (Expr D) → Comp Unit
  | [] => .ok ()
  | e :: es =>
    match knownE e with
    | .error x => .error x
    | .ok _ => knownEs es

end

/-- The replacement at the end of the visitors for `if`, `while`, `return` and assignment,
lib_compiler/optimize.cpp:176-214: only a binary operator is replaced. -/
def foldTop {D : Type} (e : Expr D) : Comp (Expr D) :=
  match knownE e with
  | .error x => .error x
  | .ok v =>
    match e, v with
    | .bin .., some v => .ok (.int v none none)
    | _, _ => .ok e

/-- Visiting an expression that may be missing. -/
def knownO {D : Type} : Option (Expr D) → Comp Unit
  | none => .ok ()
  | some e =>
    match knownE e with
    | .error x => .error x
    | .ok _ => .ok ()

mutual

/-- Statements, lib_compiler/optimize.cpp:176-214 and the default visitors of
lib_compiler/ast.h:671-761.  The second evaluation of the condition after the blocks were visited
gives the same value as the first. -/
def foldS {D : Type} : Stmt D → Comp (Stmt D)
  | .var t d init =>
    match knownO init with
    | .error x => .error x
    | .ok _ => .ok (.var t d init)
  | .assign t d e =>
    match foldTop e with
    | .error x => .error x
    | .ok e => .ok (.assign t d e)
  | .assignArr t d i e =>
    match knownE i with
    | .error x => .error x
    | .ok _ =>
      match knownE e with
      | .error x => .error x
      | .ok _ => .ok (.assignArr t d i e)
  | .assignMem t m d e =>
    match knownE e with
    | .error x => .error x
    | .ok _ => .ok (.assignMem t m d e)
  | .call t c as =>
    match knownEs as with
    | .error x => .error x
    | .ok _ =>
      match knownE c with
      | .error x => .error x
      | .ok _ => .ok (.call t c as)
  | .ifS t c thn h els =>
    match foldTop c with
    | .error x => .error x
    | .ok c =>
      match foldB thn with
      | .error x => .error x
      | .ok thn =>
        match foldB els with
        | .error x => .error x
        | .ok els => .ok (.ifS t c thn h els)
  | .whileS t c body =>
    match foldTop c with
    | .error x => .error x
    | .ok c =>
      match foldB body with
      | .error x => .error x
      | .ok body => .ok (.whileS t c body)
  | .forS t n d a b body =>
    match knownE a with
    | .error x => .error x
    | .ok _ =>
      match knownE b with
      | .error x => .error x
      | .ok _ =>
        match foldB body with
        | .error x => .error x
        | .ok body => .ok (.forS t n d a b body)
  | .ret t e =>
    match e with
    | none => .ok (.ret t none)
    | some e =>
      match foldTop e with
      | .error x => .error x
      | .ok e => .ok (.ret t (some e))

/-- The statements of a block. -/
def foldB {D : Type} : List (Stmt D) → Comp (List (Stmt D))
  | [] => .ok []
  | s :: ss =>
    match foldS s with
    | .error x => .error x
    | .ok s =>
      match foldB ss with
      | .error x => .error x
      | .ok ss => .ok (s :: ss)

end

/-- One child of the program. -/
def foldItem {D : Type} : Item D → Comp (Item D)
  | .var t c init =>
    match knownO init with
    | .error x => .error x
    | .ok _ => .ok (.var t c init)
  | .func f =>
    match foldB f.body with
    | .error x => .error x
    | .ok body => .ok (.func { f with body := body })
  | .syscall n a => .ok (.syscall n a)

/-- `opt_const_expr_t`, all children in order. -/
def constFold {D : Type} : Prog D → Comp (Prog D)
  | [] => .ok []
  | x :: xs =>
    match foldItem x with
    | .error x => .error x
    | .ok x =>
      match constFold xs with
      | .error x => .error x
      | .ok xs => .ok (x :: xs)

/-! ### `opt_if_remove_t`, lib_compiler/optimize.cpp:345-381 -/

/-- The value in a literal node, given the shared nodes that were overwritten with 1. -/
def litVal (m : List Nat) (v : I32) (cell : Option Nat) : I32 :=
  match cell with
  | some c => if m.contains c then 1 else v
  | none => v

mutual

/-- Statements; `m` lists the shared literals overwritten so far.  The literal that is the
condition itself and is not shared is overwritten in place. -/
def pruneS {D : Type} (m : List Nat) : Stmt D → Stmt D × List Nat
  | .ifS t c thn h els =>
    match pruneB m thn with
    | (thn, m) =>
      match pruneB m els with
      | (els, m) =>
        match c with
        | .int v k cell =>
          if litVal m v cell ≠ 0 then (.ifS t (.int v k cell) thn false [], m)
          else match cell with
            | none => (.ifS t (.int 1 k none) (if h then els else []) false [], m)
            | some n => (.ifS t (.int v k (some n)) (if h then els else []) false [], n :: m)
        | c => (.ifS t c thn h els, m)
  | .whileS t c body =>
    match pruneB m body with
    | (body, m) =>
      match c with
      | .int v k cell =>
        if litVal m v cell = 0 then (.whileS t (.int v k cell) [], m)
        else (.whileS t (.int v k cell) body, m)
      | c => (.whileS t c body, m)
  | .forS t n d a b body =>
    match pruneB m body with
    | (body, m) => (.forS t n d a b body, m)
  | s => (s, m)

/-- The statements of a block. -/
def pruneB {D : Type} (m : List Nat) : List (Stmt D) → List (Stmt D) × List Nat
  | [] => ([], m)
  | s :: ss =>
    match pruneS m s with
    | (s, m) =>
      match pruneB m ss with
      | (ss, m) => (s :: ss, m)

end

/-- The children in order. -/
def pruneItems {D : Type} (m : List Nat) : List (Item D) → List (Item D) × List Nat
  | [] => ([], m)
  | .func f :: xs =>
    match pruneB m f.body with
    | (body, m) =>
      match pruneItems m xs with
      | (xs, m) => (.func { f with body := body } :: xs, m)
  | x :: xs =>
    match pruneItems m xs with
    | (xs, m) => (x :: xs, m)

mutual

/-- What an overwritten literal looks like to everything that uses it. -/
def patchE {D : Type} (m : List Nat) : Expr D → Expr D
  | .int v t c => .int (litVal m v c) t c
  | .arr t es => .arr t (patchEs m es)
  | .deref t l i => .deref t (patchE m l) (patchE m i)
  | .call t c as => .call t (patchE m c) (patchEs m as)
  | .bin op l r => .bin op (patchE m l) (patchE m r)
  | .un op a => .un op (patchE m a)
  | e => e

/-- A list of expressions. -/
def patchEs {D : Type} (m : List Nat) : List (Expr D) → List (Expr D)
  | [] => []
  | e :: es => patchE m e :: patchEs m es

end

mutual

/-- Statements. -/
def patchS {D : Type} (m : List Nat) : Stmt D → Stmt D
  | .var t d init => .var t d (init.map (patchE m))
  | .assign t d e => .assign t d (patchE m e)
  | .assignArr t d i e => .assignArr t d (patchE m i) (patchE m e)
  | .assignMem t k d e => .assignMem t k d (patchE m e)
  | .call t c as => .call t (patchE m c) (patchEs m as)
  | .ifS t c thn h els => .ifS t (patchE m c) (patchB m thn) h (patchB m els)
  | .whileS t c body => .whileS t (patchE m c) (patchB m body)
  | .forS t n d a b body => .forS t n d (patchE m a) (patchE m b) (patchB m body)
  | .ret t e => .ret t (e.map (patchE m))

/-- The statements of a block. -/
def patchB {D : Type} (m : List Nat) : List (Stmt D) → List (Stmt D)
  | [] => []
  | s :: ss => patchS m s :: patchB m ss

end

/-- One child of the program. -/
def patchItem {D : Type} (m : List Nat) : Item D → Item D
  | .var t c init =>
    .var t c (init.map (patchE m))
  | .func f => .func { f with body := patchB m f.body }
  | x => x

/-- `opt_if_remove_t`: the tree it leaves behind, with every use of an overwritten literal
showing the new value.  (The initialiser of the constant itself keeps its old value here although it
is the same node; nothing reads it any more.) -/
def ifRemove {D : Type} (p : Prog D) : Prog D :=
  match pruneItems [] p with
  | (p, m) => p.map (patchItem m)

/-! ### All passes -/

/-- `run_optimize`, lib_compiler/optimize.cpp:384-394; `opt` is `nano_t::optimize`. -/
def runOptimize {D : Type} (opt : Bool) (p : Prog D) : Comp (Prog D) :=
  if opt then
    match constFold (postRet p) with
    | .error x => .error x
    | .ok p => .ok (ifRemove p)
  else .ok p

end Ccml
