import Verif.Optimize
/-!
The passes before code generation (lib_compiler/pre_codegen.cpp) and the code generator
(lib_compiler/codegen.cpp, lib_compiler/program_builder.h, lib_compiler/program_builder.cpp).

The function `@init` made by `pregen_init_t` is not appended to the tree here; the passes treat it as
one more child at the end.
-/
namespace Ccml

/-! ### `pregen_init_t`, lib_compiler/pre_codegen.cpp:172-211 -/

/-- The assignments in the body of `@init`, lib_compiler/pre_codegen.cpp:184-197, for the children
from index `i` on. -/
def initFrom : Nat → List (Item Ref) → List (Stmt Ref)
  | _, [] => []
  | i, .var t false (some e) :: xs => .assign t (.item i) e :: initFrom (i + 1) xs
  | i, _ :: xs => initFrom (i + 1) xs

/-- The body of `@init`. -/
def initBody (p : Prog Ref) : List (Stmt Ref) := initFrom 0 p

/-! ### `pregen_offset_t`, lib_compiler/pre_codegen.cpp:11-99 -/

/-- `!is_const` variables, the ones that get a global slot. -/
def Item.isSlot {D : Type} : Item D → Bool
  | .var _ c _ => !c
  | _ => false

/-- The offset given to global variable `i`, lib_compiler/pre_codegen.cpp:57-63; a constant keeps
the 0 of the constructor. -/
def globalOffset {D : Type} (p : Prog D) (i : Nat) : Nat :=
  match p[i]? with
  | some (.var _ false _) => (p.take i).countP Item.isSlot
  | _ => 0

/-- A local variable with the offset it was given. -/
structure LocalVar where
  name : Token
  ref : Ref
  off : Nat
  deriving Repr

mutual

/-- `visit` for statements, lib_compiler/pre_codegen.cpp:22-52, with `offset_.back() = cur`: the
variables met in order and `offset_.back()` afterwards.  Blocks work on a copy of the counter. -/
def offS (cur : Nat) : Stmt Ref → List LocalVar × Nat
  | .var t r _ => ([⟨t, r, cur⟩], cur + 1)
  | .ifS _ _ thn _ els => ((offB cur thn).1 ++ (offB cur els).1, cur)
  | .whileS _ _ body => ((offB cur body).1, cur)
  | .forS _ _ _ _ _ body => ((offB cur body).1, cur)
  | _ => ([], cur)

/-- The statements of a block. -/
def offB (cur : Nat) : List (Stmt Ref) → List LocalVar × Nat
  | [] => ([], cur)
  | s :: ss =>
    ((offS cur s).1 ++ (offB (offS cur s).2 ss).1, (offB (offS cur s).2 ss).2)

end

/-- The local variables of a function in traversal order. -/
def funcLocals (body : List (Stmt Ref)) : List LocalVar := (offB 0 body).1

/-- `stack_size_`, lib_compiler/pre_codegen.cpp:29, 90. -/
def stackSize (ls : List LocalVar) : Nat := ls.foldl (fun n l => max n (l.off + 1)) 0

/-- `decl->offset` of a local variable; the constructor sets 0 (lib_compiler/ast.h:591-600), which
is what a declaration that is no longer part of the tree has. -/
def localOffset (ls : List LocalVar) (r : Ref) : Nat :=
  match ls.find? (fun l => l.ref == r) with
  | some l => l.off
  | none => 0

/-! ### The builder -/

/-- The state of `codegen_pass_t`: the program, `func_map_` and `call_fixups_` (by the name of the
function), lib_compiler/codegen.cpp:536-541. -/
structure Builder where
  prog : Program
  funcMap : List (Str × I32)
  fixups : List (Str × Nat)
  deriving DecidableEq, Repr

/-- `program_builder_t::head`, lib_compiler/program_builder.h:38-42: the assertion fails when the
size is no positive `int32_t`. -/
def bHead (b : Builder) : Out Nat :=
  if b.prog.code.length < 2147483648 then .ok b.prog.code.length else .error .assert

/-- `set_line`, lib_compiler/program_builder.cpp:5-11. -/
def setLine (lines : LineTable) (pc : Nat) : Option Token → LineTable
  | none => lines
  | some t => lines.set (BitVec.ofNat 32 pc) t.line.toLine

/-- `codegen_pass_t::emit`, lib_compiler/codegen.cpp:544-618. -/
def bEmit (i : Ins) (t : Option Token) (b : Builder) : Out Builder := do
  let pc ← bHead b
  let bs ← emitIns i
  .ok { b with prog := { b.prog with
    code := b.prog.code ++ bs
    lines := setLine b.prog.lines pc t } }

/-- `get_fixup`, lib_compiler/codegen.cpp:497-499. -/
def bFixup (b : Builder) : Out Nat := do
  let _ ← bHead b
  getFixup b.prog.code

/-- `apply_fixup`, lib_compiler/program_builder.h:44-47. -/
def bApply (idx v : Nat) (b : Builder) : Out Builder := do
  let code ← applyFixup b.prog.code idx (BitVec.ofNat 32 v)
  .ok { b with prog := { b.prog with code := code } }

/-- `add_string_`, lib_compiler/codegen.cpp:74-78: the index and the builder. -/
def bString (s : Str) (b : Builder) : Nat × Builder :=
  (b.prog.strings.length, { b with prog := { b.prog with strings := b.prog.strings ++ [s] } })

/-- The index of the first entry with a name, in `add_syscall` and `get_func_`. -/
def sysIndex (sys : List Syscall) (name : Str) : Option Nat := sys.findIdx? (fun s => s.name == name)

/-- `add_syscall`, lib_compiler/program_builder.h:49-62. -/
def addSyscall (name : Str) (p : Program) : Nat × Program :=
  match sysIndex p.syscalls name with
  | some i => (i, p)
  | none => (p.syscalls.length, { p with syscalls := p.syscalls ++ [⟨name, none⟩] })

/-- `int32_t(n)`. -/
def i32 (n : Nat) : I32 := BitVec.ofNat 32 n

/-! ### Code generation -/

/-- `tok_to_ins_`, lib_compiler/codegen.cpp:18-37. -/
def tokIns : Tok → Out Op
  | .ADD => .ok .ADD
  | .SUB => .ok .SUB
  | .MUL => .ok .MUL
  | .DIV => .ok .DIV
  | .MOD => .ok .MOD
  | .AND => .ok .AND
  | .OR => .ok .OR
  | .NOT => .ok .NOT
  | .EQ => .ok .EQ
  | .LT => .ok .LT
  | .GT => .ok .GT
  | .LEQ => .ok .LEQ
  | .GEQ => .ok .GEQ
  | _ => .error .assert

/-- What the code of a function depends on: the program, the number of its arguments, and the
offsets and number of its local variables. -/
structure GenCtx where
  prog : Prog Ref
  nargs : Nat
  off : Ref → Nat
  size : Nat

/-- `func->args.size() + func->stack_size`, lib_compiler/codegen.cpp:377, 450, 530. -/
def GenCtx.space (cx : GenCtx) : I32 := i32 (cx.nargs + cx.size)

/-- The context of a function. -/
def funcCtx (p : Prog Ref) (f : FuncDecl Ref) : GenCtx :=
  ⟨p, f.args.length, localOffset (funcLocals f.body), stackSize (funcLocals f.body)⟩

/-- The context of `@init`. -/
def initCtx (p : Prog Ref) : GenCtx := ⟨p, 0, fun _ => 0, 0⟩

/-- `arg->offset`, lib_compiler/pre_codegen.cpp:76-83: the last argument has offset -1. -/
def argOffset (nargs i : Nat) : I32 := BitVec.ofInt 32 ((i : Int) - nargs)

/-- Where a variable is: opcodes for reading and writing, and operand.  Constants and functions
fail an assertion (lib_compiler/codegen.cpp:50-72). -/
def varPlace (cx : GenCtx) : Ref → Out (Op × Op × I32)
  | .item i =>
    match cx.prog[i]? with
    | some (.var _ false _) => .ok (.GETG, .SETG, i32 (globalOffset cx.prog i))
    | _ => .error .assert
  | .arg i => .ok (.GETV, .SETV, argOffset cx.nargs i)
  | .loc k => .ok (.GETV, .SETV, i32 (cx.off (.loc k)))

/-- `get_decl_`, lib_compiler/codegen.cpp:62-72. -/
def genGet (cx : GenCtx) (r : Ref) (t : Option Token) (b : Builder) : Out Builder := do
  let (g, _, o) ← varPlace cx r
  bEmit (.i1 g o) t b

/-- `set_decl_`, lib_compiler/codegen.cpp:50-60. -/
def genSet (cx : GenCtx) (r : Ref) (t : Option Token) (b : Builder) : Out Builder := do
  let (_, s, o) ← varPlace cx r
  bEmit (.i1 s o) t b

/-- A call fixup for the operand just written, lib_compiler/codegen.cpp:92-95, 196-200. -/
def addFixup (name : Str) (b : Builder) : Out Builder := do
  let f ← bFixup b
  .ok { b with fixups := b.fixups ++ [(name, f)] }

/-- `visit(ast_exp_ident_t*)`, lib_compiler/codegen.cpp:140-151, with `get_func_`, 80-98. -/
def genIdent (cx : GenCtx) (t : Token) (r : Ref) (b : Builder) : Out Builder :=
  match r with
  | .item i =>
    match cx.prog[i]? with
    | some (.func f) => do
      let b ← bEmit (.i1 .NEW_FUNC 0) (some t) b
      addFixup f.name.str b
    | some (.syscall n _) =>
      match sysIndex b.prog.syscalls n with
      | some j => bEmit (.i1 .NEW_SCALL (i32 j)) (some t) b
      | none => .error .assert
    | _ => genGet cx r (some t) b
  | _ => genGet cx r (some t) b

/-- What a call does after its arguments, lib_compiler/codegen.cpp:184-207; `callee` emits the code
of the callee. -/
def genInvoke (cx : GenCtx) (t : Token) (c : Expr Ref) (n : Nat)
    (callee : Builder → Out Builder) (b : Builder) : Out Builder :=
  let indirect : Out Builder := do
    let b ← callee b
    bEmit (.i1 .ICALL (i32 n)) (some t) b
  match c with
  | .ident name (.item i) =>
    match cx.prog[i]? with
    | some (.func f) =>
      if f.args.length = n then do
        let b ← bEmit (.i2 .CALL (i32 n) 0) (some t) b
        addFixup f.name.str b
      else .error .assert
    | some (.syscall s a) =>
      if a = none ∨ a = some n then
        bEmit (.i2 .SCALL (i32 n) (i32 (addSyscall s b.prog).1)) (some name)
          { b with prog := (addSyscall s b.prog).2 }
      else .error .assert
    | _ => indirect
  | _ => indirect

mutual

/-- Expressions, lib_compiler/codegen.cpp:117-229. -/
def genE (cx : GenCtx) : Expr Ref → Builder → Out Builder
  | .ident t r, b => genIdent cx t r b
  | .int v t _, b => bEmit (.i1 .NEW_INT v) t b
  | .float v t, b => bEmit (.i1 .NEW_FLT v) t b
  | .str s t, b => bEmit (.i1 .NEW_STR (i32 (bString s b).1)) t (bString s b).2
  | .none t, b => bEmit (.i0 .NEW_NONE) t b
  | .member t m r, b => do
    let (i, b) := bString m.str b
    let b ← genGet cx r (some t) b
    bEmit (.i1 .GETM (i32 i)) (some m) b
  | .arr t es, b => do
    let b ← genEs cx es b
    if es.length = 0 then .error .assert
    else bEmit (.i1 .ARY_INIT (i32 es.length)) (some t) b
  | .deref t l i, b => do
    let b ← genE cx i b
    let b ← genE cx l b
    bEmit (.i0 .DEREF) (some t) b
  | .call t c as, b => do
    let b ← genEs cx as b
    genInvoke cx t c as.length (genE cx c) b
  | .bin op l r, b => do
    let b ← genE cx l b
    let b ← genE cx r b
    let o ← tokIns op.type
    bEmit (.i0 o) (some op) b
  | .un op a, b => do
    let b ← genE cx a b
    match op.type with
    | .SUB => bEmit (.i0 .NEG) (some op) b
    | .NOT => bEmit (.i0 .NOT) (some op) b
    | _ => .ok b

/-- Expressions in order. -/
def genEs (cx : GenCtx) : List (Expr Ref) → Builder → Out Builder
  | [], b => .ok b
  | e :: es, b => do
    let b ← genE cx e b
    genEs cx es b

end

mutual

/-- Statements, lib_compiler/codegen.cpp:210-214, 231-414, 457-474. -/
def genS (cx : GenCtx) : Stmt Ref → Builder → Out Builder
  | .var _ _ none, b => .ok b
  | .var t r (some e), b => do
    let b ← genE cx e b
    bEmit (.i1 .SETV (i32 (cx.off r))) (some t) b
  | .assign t r e, b => do
    let b ← genE cx e b
    genSet cx r (some t) b
  | .assignArr t r i e, b => do
    let b ← genE cx e b
    let b ← genE cx i b
    let b ← genGet cx r (some t) b
    bEmit (.i0 .SETA) (some t) b
  | .assignMem t m r e, b => do
    let b ← genE cx e b
    let b ← genGet cx r (some t) b
    let (i, b) := bString m.str b
    bEmit (.i1 .SETM (i32 i)) (some m) b
  | .call t c as, b => do
    let b ← genEs cx as b
    let b ← genInvoke cx t c as.length (genE cx c) b
    bEmit (.i1 .POP 1) (some t) b
  | .ifS t c thn hasElse els, b => do
    let b ← genE cx c b
    let b ← bEmit (.i1 .FJMP 0) (some t) b
    let toL0 ← bFixup b
    let b ← genB cx thn b
    match hasElse with
    | false =>
      let l0 ← bHead b
      bApply toL0 l0 b
    | true =>
      let b ← bEmit (.i1 .JMP 0) none b
      let toL1 ← bFixup b
      let l0 ← bHead b
      let b ← genB cx els b
      let l1 ← bHead b
      let b ← bApply toL0 l0 b
      bApply toL1 l1 b
  | .whileS t c body, b => do
    let b ← bEmit (.i1 .JMP 0) (some t) b
    let toL1 ← bFixup b
    let l0 ← bHead b
    let b ← genB cx body b
    let l1 ← bHead b
    let b ← genE cx c b
    let b ← bEmit (.i1 .TJMP 0) (some t) b
    let toL0 ← bFixup b
    let b ← bApply toL0 l0 b
    bApply toL1 l1 b
  | .forS t n r start stop body, b => do
    let b ← genE cx start b
    let b ← genSet cx r (some n) b
    let b ← bEmit (.i1 .JMP 0) (some t) b
    let toL1 ← bFixup b
    let l0 ← bHead b
    let b ← genB cx body b
    let b ← genGet cx r (some t) b
    let b ← bEmit (.i1 .NEW_INT 1) (some t) b
    let b ← bEmit (.i0 .ADD) (some t) b
    let b ← genSet cx r (some t) b
    let l1 ← bHead b
    let b ← genGet cx r (some t) b
    let b ← genE cx stop b
    let b ← bEmit (.i0 .LT) (some t) b
    let b ← bEmit (.i1 .TJMP 0) (some t) b
    let toL0 ← bFixup b
    let b ← bApply toL0 l0 b
    bApply toL1 l1 b
  | .ret t none, b => do
    let b ← bEmit (.i0 .NEW_NONE) (some t) b
    bEmit (.i1 .RET cx.space) (some t) b
  | .ret t (some e), b => do
    let b ← genE cx e b
    bEmit (.i1 .RET cx.space) (some t) b

/-- The statements of a block, lib_compiler/codegen.cpp:281-285. -/
def genB (cx : GenCtx) : List (Stmt Ref) → Builder → Out Builder
  | [], b => .ok b
  | s :: ss, b => do
    let b ← genS cx s b
    genB cx ss b

end

/-- Changing the entry that `function_find(name)` returns, lib_compiler/codegen.cpp:422-425, 454:
the first with that name. -/
def updFunction (name : Str) (g : Function → Function) : List Function → Out (List Function)
  | [] => .error .assert
  | f :: fs =>
    if f.name = name then .ok (g f :: fs)
    else
      match updFunction name g fs with
      | .error x => .error x
      | .ok fs => .ok (f :: fs)

/-- Storing `code_start_` and `code_end_`. -/
def bFunction (name : Str) (g : Function → Function) (b : Builder) : Out Builder := do
  let fs ← updFunction name g b.prog.functions
  .ok { b with prog := { b.prog with functions := fs } }

/-- The start of `visit(ast_decl_func_t*)`, lib_compiler/codegen.cpp:422-428. -/
def bEnter (name : Str) (b : Builder) : Out Builder := do
  let pc ← bHead b
  let b ← bFunction name (fun f => { f with codeStart := i32 pc, codeEnd := i32 pc }) b
  .ok { b with funcMap := (name, i32 pc) :: b.funcMap }

/-- `func->code_end_ = pos()`, lib_compiler/codegen.cpp:454, 533. -/
def bLeave (name : Str) (b : Builder) : Out Builder := do
  let pc ← bHead b
  bFunction name (fun f => { f with codeEnd := i32 pc }) b

/-- `LOCALS` at the start of a function with local variables, lib_compiler/codegen.cpp:437-439. -/
def genLocals (cx : GenCtx) (t : Token) (b : Builder) : Out Builder :=
  if cx.size > 0 then bEmit (.i1 .LOCALS (i32 cx.size)) (some t) b else .ok b

/-- The code for falling off the end, lib_compiler/codegen.cpp:442-452. -/
def genEnd (cx : GenCtx) (f : FuncDecl Ref) (b : Builder) : Out Builder :=
  if (f.body.getLast?.map Stmt.isRet).getD false then .ok b
  else do
    let b ← bEmit (.i1 .NEW_INT 0) (some f.stop) b
    bEmit (.i1 .RET cx.space) (some f.stop) b

/-- `visit(ast_decl_func_t*)`, lib_compiler/codegen.cpp:416-455. -/
def genFunc (p : Prog Ref) (f : FuncDecl Ref) (b : Builder) : Out Builder := do
  let b ← bEnter f.name.str b
  let b ← genLocals (funcCtx p f) f.name b
  let b ← genB (funcCtx p f) f.body b
  let b ← genEnd (funcCtx p f) f b
  bLeave f.name.str b

/-- `"@init"` -/
def initName : Str := str "@init"

/-- `visit_init`, lib_compiler/codegen.cpp:502-534. -/
def genInit (p : Prog Ref) (b : Builder) : Out Builder := do
  let b ← bEnter initName b
  let b ← bEmit (.i1 .GLOBALS (i32 (p.countP Item.isSlot))) none b
  let b ← genB (initCtx p) (initBody p) b
  let b ← bEmit (.i1 .NEW_INT 0) none b
  let b ← bEmit (.i1 .RET (initCtx p).space) none b
  bLeave initName b

/-- `visit(ast_decl_var_t*)` for a global, lib_compiler/codegen.cpp:457-462. -/
def genGlobal (p : Prog Ref) (i : Nat) (t : Token) (b : Builder) : Builder :=
  { b with prog := { b.prog with globals := b.prog.globals ++ [⟨t.str, i32 (globalOffset p i)⟩] } }

/-- The children of the program from index `i` on, lib_compiler/codegen.cpp:100-109. -/
def genItems (p : Prog Ref) : Nat → List (Item Ref) → Builder → Out Builder
  | _, [], b => .ok b
  | i, .var t _ _ :: xs, b => genItems p (i + 1) xs (genGlobal p i t b)
  | i, .func f :: xs, b => do
    let b ← genFunc p f b
    genItems p (i + 1) xs b
  | i, .syscall .. :: xs, b => genItems p (i + 1) xs b

/-- `func_map_[name]`, lib_compiler/codegen.cpp:112: zero if there is no entry. -/
def mapGet (m : List (Str × I32)) (name : Str) : I32 :=
  match m.find? (fun e => e.1 == name) with
  | some e => e.2
  | none => 0

/-- The loop over `call_fixups_`, lib_compiler/codegen.cpp:110-114. -/
def applyFixups (m : List (Str × I32)) : List (Str × Nat) → List Byte → Out (List Byte)
  | [], code => .ok code
  | (name, idx) :: fs, code =>
    match applyFixup code idx (mapGet m name) with
    | .error x => .error x
    | .ok code => applyFixups m fs code

/-- `visit(ast_program_t*)`, lib_compiler/codegen.cpp:100-115. -/
def genProgram (p : Prog Ref) (b : Builder) : Out Program := do
  let b ← genItems p 0 p b
  let b ← genInit p b
  let code ← applyFixups b.funcMap b.fixups b.prog.code
  .ok { b.prog with code := code }

/-! ### `pregen_functions_t`, lib_compiler/pre_codegen.cpp:105-166 -/

/-- The names and offsets listed for a function. -/
def identsOf : List (Token × I32) → Out (List Ident)
  | [] => .ok []
  | (t, o) :: ts => do
    let n ← t.string
    let is ← identsOf ts
    .ok (⟨n, o⟩ :: is)

/-- The entry for a script function, lib_compiler/pre_codegen.cpp:134-152. -/
def funcEntry (f : FuncDecl Ref) : Out Function := do
  let args ← identsOf (f.args.mapIdx fun i t => (t, argOffset f.args.length i))
  let locals ← identsOf ((funcLocals f.body).map fun l => (l.name, i32 l.off))
  .ok ⟨f.name.str, 0, 0, locals, args⟩

/-- The children in order: the table of system calls grows, functions are collected. -/
def pregenItems : List (Item Ref) → Program → Out Program
  | [], p => .ok p
  | .func f :: xs, p => do
    let e ← funcEntry f
    pregenItems xs { p with functions := p.functions ++ [e] }
  | .syscall n _ :: xs, p => pregenItems xs (addSyscall n p).2
  | .var .. :: xs, p => pregenItems xs p

/-- `pregen_functions_t` with the entry of `@init` at the end. -/
def pregen (p : Prog Ref) (prog : Program) : Out Program := do
  let prog ← pregenItems p prog
  .ok { prog with functions := prog.functions ++ [⟨initName, 0, 0, [], []⟩] }

/-- `run_pre_codegen` and `codegen_t::run` on an empty program, lib_compiler/pre_codegen.cpp:214-228,
lib_compiler/codegen.cpp:629-639. -/
def codegen (p : Prog Ref) : Out Program := do
  let prog ← pregen p Program.empty
  genProgram p ⟨prog, [], []⟩

end Ccml
