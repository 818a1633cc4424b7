import Verif.Codegen
import Verif.AbsMem
/-!
What a program means: an evaluator on the annotated tree that knows nothing of instructions, stacks,
offsets or addresses in the code.  It is a specification; the theorems about the compiler compare
the running machine with it.

The code base has no document that defines the language.  The order of evaluation (left to right,
arguments before the callee, the index before the array, the assigned value first) and the
conversions are read off the virtual machine (lib_vm/thread.cpp) and the code generator
(lib_compiler/codegen.cpp).
-/
namespace Ccml.Sem
open Ccml

/-- Everything outside the variables of the running functions. -/
structure State where
  /-- contents of the arrays -/
  mem : Store
  /-- the global variables by slot -/
  globals : List Val
  /-- the other threads -/
  before : List (Thread Val)
  after : List (Thread Val)
  /-- what `wait` left in the running thread -/
  waits : I32
  /-- what host functions read and write -/
  io : Io

/-- How an evaluation ends. -/
inductive Res (α : Type)
  /-- with a result -/
  | ok (a : α) (w : State)
  /-- with an error of the thread -/
  | err (x : TErr) (w : State)
  /-- with a failed assertion or undefined behaviour of the machine -/
  | fault (f : Fault)
  /-- not within the given bound on loop rounds and call depth -/
  | timeout
  /-- the program reads a variable that was never assigned, or calls a host function with the wrong
  number of arguments: no claim -/
  | undef

/-- One after the other. -/
def Res.bind {α β : Type} (r : Res α) (f : α → State → Res β) : Res β :=
  match r with
  | .ok a w => f a w
  | .err x w => .err x w
  | .fault f => .fault f
  | .timeout => .timeout
  | .undef => .undef

/-! ### Operators -/

/-- The result of an operator. -/
inductive Ans
  | val (v : Val)
  | err (x : TErr)
  | fault (f : Fault)
  | undef

/-- Exact integers; a result outside 32 bits is undefined. -/
def exact (z : Int) : Ans :=
  if -2147483648 ≤ z ∧ z ≤ 2147483647 then .val (.int (BitVec.ofInt 32 z)) else .fault .ub

/-- Truth values are the integers 1 and 0. -/
def bool (b : Bool) : Ans := .val (.int (if b then 1 else 0))

/-- Numbers as floats. -/
def number (fl : FloatOps) : View → Option F32
  | .int v => some (fl.ofInt v)
  | .float f => some f
  | _ => none

/-- Conditions. -/
def truth (fl : FloatOps) : View → Bool
  | .none => false
  | .int v => v ≠ 0
  | .float f => !fl.eq f fl.zero
  | .str s => s ≠ []
  | .arr _ => true
  | .func _ => true
  | .syscall _ => true

/-- Integers exactly, other numbers as floats, anything else is an error. -/
def arith (fl : FloatOps) (i : Int → Int → Ans) (f : F32 → F32 → Val) (other : Ans) (l r : View) : Ans :=
  match l, r with
  | .int a, .int b => i a.toInt b.toInt
  | l, r =>
    match number fl l, number fl r with
    | some a, some b => .val (f a b)
    | _, _ => other

/-- Text put together. -/
def concat (a b : Out Str) : Ans :=
  match a, b with
  | .ok s, .ok t => .val (.str (s ++ t))
  | .error f, _ => .fault f
  | _, .error f => .fault f

/-- `+` when not both are numbers. -/
def addOther (fl : FloatOps) : View → View → Ans
  | .str s, r => concat (.ok s) (r.toBuf fl)
  | l, .str s => concat (l.toBuf fl) (.ok s)
  | _, _ => .err .bad_type_operation

/-- Comparison of numbers. -/
def compare (fl : FloatOps) (i : Int → Int → Bool) (f : F32 → F32 → Bool) : View → View → Ans :=
  arith fl (fun a b => bool (i a b)) (fun a b => .int (if f a b then 1 else 0)) (.err .bad_type_operation)

/-- `==` -/
def equal (fl : FloatOps) : View → View → Ans
  | .none, .none => bool true
  | .none, _ => bool false
  | _, .none => bool false
  | .str a, .str b => bool (a.length = b.length ∧ cstr a = cstr b)
  | .func a, .func b => bool (a = b)
  | l, r => arith fl (fun a b => bool (a = b)) (fun a b => .int (if fl.eq a b then 1 else 0))
      (.err .bad_type_operation) l r

/-- The binary operators. -/
def binary (fl : FloatOps) (op : Tok) (l r : View) : Ans :=
  match op with
  | .ADD => arith fl (fun a b => exact (a + b)) (fun a b => .float (fl.add a b)) (addOther fl l r) l r
  | .SUB => arith fl (fun a b => exact (a - b)) (fun a b => .float (fl.sub a b))
      (.err .bad_type_operation) l r
  | .MUL => arith fl (fun a b => exact (a * b)) (fun a b => .float (fl.mul a b))
      (.err .bad_type_operation) l r
  | .DIV => arith fl (fun a b => if b = 0 then .err .bad_divide_by_zero else exact (a.tdiv b))
      (fun a b => .float (fl.div a b)) (.err .bad_type_operation) l r
  | .MOD =>
    match l, r with
    | .int a, .int b =>
      if b.toInt = 0 then .err .bad_divide_by_zero
      else if -2147483648 ≤ a.toInt.tdiv b.toInt ∧ a.toInt.tdiv b.toInt ≤ 2147483647 then
        .val (.int (BitVec.ofInt 32 (a.toInt.tmod b.toInt)))
      else .fault .ub
    | _, _ => .err .bad_type_operation
  | .AND => bool (truth fl l && truth fl r)
  | .OR => bool (truth fl l || truth fl r)
  | .EQ => equal fl l r
  | .LT => compare fl (fun a b => a < b) fl.lt l r
  | .GT => compare fl (fun a b => a > b) fl.gt l r
  | .LEQ => compare fl (fun a b => a ≤ b) fl.le l r
  | .GEQ => compare fl (fun a b => a ≥ b) fl.ge l r
  | _ => .undef

/-- The unary operators. -/
def unary (fl : FloatOps) (op : Tok) (v : View) : Ans :=
  match op with
  | .SUB =>
    match v with
    | .int a => exact (-a.toInt)
    | _ => .err .bad_type_operation
  | .NOT => bool (!truth fl v)
  | _ => .undef

/-- The answer as the end of an evaluation. -/
def Ans.res (w : State) : Ans → Res Val
  | .val v => .ok v w
  | .err x => .err x w
  | .fault f => .fault f
  | .undef => .undef

/-- Looking at a value.  A reference to an array that does not exist is undefined behaviour. -/
def look {β : Type} (v : Val) (w : State) (f : View → Res β) : Res β :=
  match v.view w.mem with
  | .ok x => f x
  | .error x => .fault x

/-- A binary operator on values. -/
def binaryV (fl : FloatOps) (op : Tok) (a b : Val) (w : State) : Res Val :=
  look b w fun r => look a w fun l => (binary fl op l r).res w

/-- A unary operator on a value. -/
def unaryV (fl : FloatOps) (op : Tok) (a : Val) (w : State) : Res Val :=
  look a w fun v => (unary fl op v).res w

/-! ### Arrays -/

/-- `a[i]` -/
def index (a i : Val) (w : State) : Res Val :=
  look a w fun av =>
    match av with
    | .none => .err .bad_array_object w
    | _ =>
      look i w fun iv =>
        match iv with
        | .int k =>
          match a with
          | .arr l =>
            match w.mem[l]? with
            | none => .fault .ub
            | some elems =>
              if 0 ≤ k.toInt then
                match elems[k.toInt.toNat]? with
                | some v => .ok v w
                | none => .err .bad_array_bounds w
              else .err .bad_array_bounds w
          | .str s =>
            if 0 ≤ k.toInt then
              match s[k.toInt.toNat]? with
              | some c => .ok (.int (c.setWidth 32)) w
              | none => .err .bad_array_bounds w
            else .err .bad_array_bounds w
          | _ => .err .bad_type_operation w
        | _ => .err .bad_array_index w

/-- `a[i] = v` -/
def update (a i v : Val) (w : State) : Res Unit :=
  look a w fun _ =>
    match a with
    | .arr l =>
      look i w fun iv =>
        match iv with
        | .int k =>
          match w.mem[l]? with
          | none => .fault .ub
          | some elems =>
            if 0 ≤ k.toInt ∧ k.toInt < elems.length then
              look v w fun _ => .ok () { w with mem := w.mem.set l (elems.set k.toInt.toNat v) }
            else .err .bad_array_bounds w
        | _ => .err .bad_array_index w
    | _ => .err .bad_array_object w

/-- `a.name` without handlers of the host. -/
def member (a : Val) (name : Str) (w : State) : Res Val :=
  look a w fun av =>
    match av with
    | .arr n =>
      if name = str "length" then .ok (.int (BitVec.ofNat 32 n)) w else .err .bad_member_access w
    | _ => .err .bad_member_access w

/-! ### Names -/

/-- What is known about a local variable or argument. -/
inductive Slot
  /-- not declared so far in this call -/
  | fresh
  /-- its block has been left -/
  | dead
  /-- declared, not assigned -/
  | unset
  | val (v : Val)

/-- Declared and still in scope. -/
def Slot.live : Slot → Bool
  | .unset => true
  | .val _ => true
  | _ => false

/-- The variables of a call. -/
abbrev Vars := Ref → Slot

/-- A changed variable. -/
def Vars.set (ρ : Vars) (r : Ref) (x : Slot) : Vars := fun q => if q = r then x else ρ q

/-- The variables after a block that started with `ρ` and ended with `ρ'`. -/
def Vars.leave (ρ ρ' : Vars) : Vars := fun r =>
  if (ρ r).live then ρ' r else
    match ρ' r with
    | .fresh => .fresh
    | _ => .dead

/-- What the meaning of a program depends on. -/
structure Ctx where
  prog : Prog Ref
  fl : FloatOps
  /-- the value that stands for the script function declared by child `i` -/
  funAddr : Nat → I32
  /-- the host functions by name -/
  table : List Syscall
  /-- what a host function does with its arguments -/
  host : FnPtr → List Val → State → Res Val

/-- The slot of global variable `i`: the number of variables before it that are not constant. -/
def Ctx.slot (cx : Ctx) (i : Nat) : Nat :=
  ((cx.prog.take i).filter fun x => match x with | .var _ false _ => true | _ => false).length

/-- The index of a host function in the table. -/
def Ctx.hostIndex (cx : Ctx) (name : Str) : Option Nat := cx.table.findIdx? fun s => s.name == name

/-- The function a function value stands for. -/
def Ctx.funAt (cx : Ctx) (a : I32) : Option Nat :=
  (List.range cx.prog.length).find? fun i =>
    match cx.prog[i]? with
    | some (.func _) => cx.funAddr i == a
    | _ => false

/-- The value of a literal. -/
def literal : Expr Ref → Option Val
  | .int v _ _ => some (.int v)
  | .float v _ => some (.float v)
  | .str s _ => some (.str s)
  | .none _ => some .none
  | _ => none

/-- The value of a name. -/
def Ctx.ident (cx : Ctx) (ρ : Vars) (r : Ref) (w : State) : Res Val :=
  match r with
  | .item i =>
    match cx.prog[i]? with
    | some (.func _) => .ok (.func (cx.funAddr i)) w
    | some (.syscall n _) =>
      match cx.hostIndex n with
      | some j => .ok (.syscall (BitVec.ofNat 32 j)) w
      | none => .undef
    | some (.var _ false _) =>
      match w.globals[cx.slot i]? with
      | some v => .ok v w
      | none => .err .bad_get_global w
    | some (.var _ true (some e)) =>
      match literal e with
      | some v => .ok v w
      | none => .undef
    | _ => .undef
  | r =>
    match ρ r with
    | .val v => .ok v w
    | _ => .undef

/-- Reading a variable (not a constant, not a function). -/
def Ctx.get (cx : Ctx) (ρ : Vars) (r : Ref) (w : State) : Res Val :=
  match r with
  | .item i =>
    match cx.prog[i]? with
    | some (.var _ false _) => cx.ident ρ (.item i) w
    | _ => .undef
  | r => cx.ident ρ r w

/-- Assigning to a variable. -/
def Ctx.set (cx : Ctx) (ρ : Vars) (r : Ref) (v : Val) (w : State) : Res Vars :=
  match r with
  | .item i =>
    match cx.prog[i]? with
    | some (.var _ false _) =>
      if cx.slot i < w.globals.length then .ok ρ { w with globals := w.globals.set (cx.slot i) v }
      else .err .bad_set_global w
    | _ => .undef
  | r => if (ρ r).live then .ok (ρ.set r (.val v)) w else .undef

/-! ### Calls -/

/-- Calls of script functions: which, with which arguments. -/
abbrev CallF := Nat → List Val → State → Res Val

/-- Calling a value. -/
def Ctx.apply (cx : Ctx) (callF : CallF) (v : Val) (args : List Val) (w : State) : Res Val :=
  match v with
  | .func a =>
    match cx.funAt a with
    | none => .undef
    | some i =>
      match cx.prog[i]? with
      | some (.func f) => if f.args.length = args.length then callF i args w else .err .bad_num_args w
      | _ => .undef
  | .syscall j =>
    if j.toInt < 0 then .fault .assert
    else match cx.table[j.toInt.toNat]? with
      | none => .fault .assert
      | some s =>
        match s.call with
        | none => .fault .assert
        | some fn => cx.host fn args w
  | .none => .fault .assert
  | v => look v w fun _ => .err .bad_type_operation w

/-! ### Expressions -/

mutual

/-- The value of an expression. -/
def evalE (cx : Ctx) (callF : CallF) (ρ : Vars) : Expr Ref → State → Res Val
  | .ident _ r, w => cx.ident ρ r w
  | .int v _ _, w => .ok (.int v) w
  | .float v _, w => .ok (.float v) w
  | .str s _, w => .ok (.str s) w
  | .none _, w => .ok .none w
  | .member _ m r, w => (cx.get ρ r w).bind fun a w => member a m.str w
  | .arr _ es, w => (evalEs cx callF ρ es w).bind fun vs w =>
      .ok (.arr w.mem.length) { w with mem := w.mem ++ [vs] }
  | .deref _ l i, w => (evalE cx callF ρ i w).bind fun i w =>
      (evalE cx callF ρ l w).bind fun a w => index a i w
  | .call _ c as, w => (evalEs cx callF ρ as w).bind fun vs w =>
      (evalE cx callF ρ c w).bind fun c w => cx.apply callF c vs w
  | .bin op l r, w => (evalE cx callF ρ l w).bind fun a w =>
      (evalE cx callF ρ r w).bind fun b w =>
        if op.type = .NOT then .undef else binaryV cx.fl op.type a b w
  | .un op a, w => (evalE cx callF ρ a w).bind fun a w =>
      if op.type = .SUB ∨ op.type = .NOT then unaryV cx.fl op.type a w else .undef

/-- Expressions from left to right. -/
def evalEs (cx : Ctx) (callF : CallF) (ρ : Vars) : List (Expr Ref) → State → Res (List Val)
  | [], w => .ok [] w
  | e :: es, w => (evalE cx callF ρ e w).bind fun v w =>
      (evalEs cx callF ρ es w).bind fun vs w => .ok (v :: vs) w

end

/-! ### Statements -/

/-- Where control goes after a statement. -/
inductive Flow
  | next (ρ : Vars)
  | ret (v : Val)

/-- Continue unless the function has returned. -/
def Flow.andThen (fl : Flow) (w : State) (f : Vars → State → Res Flow) : Res Flow :=
  match fl with
  | .next ρ => f ρ w
  | .ret v => .ok (.ret v) w

/-- The end of a block. -/
def Flow.leave (ρ : Vars) : Flow → Flow
  | .next ρ' => .next (ρ.leave ρ')
  | .ret v => .ret v

/-- At most `n` rounds of a loop: test, body, step. -/
def loop (test : Vars → State → Res Bool) (body : Vars → State → Res Flow) : Nat → Vars → State → Res Flow
  | 0, _, _ => .timeout
  | n + 1, ρ, w => (test ρ w).bind fun b w =>
    if b then (body ρ w).bind fun fl w => fl.andThen w (loop test body n) else .ok (.next ρ) w

mutual

/-- Statements; `zi` tells for which variables a declaration without initialiser is known to give
`none`, `n` bounds the rounds of a loop. -/
def evalS (cx : Ctx) (callF : CallF) (zi : Ref → Bool) (n : Nat) : Stmt Ref → Vars → State → Res Flow
  | .var _ r init, ρ, w =>
    match r with
    | .loc _ =>
      match init with
      | none =>
        match ρ r with
        | .fresh => .ok (.next (ρ.set r (if zi r then .val .none else .unset))) w
        | _ => .ok (.next (ρ.set r .unset)) w
      | some e => (evalE cx callF ρ e w).bind fun v w => .ok (.next (ρ.set r (.val v))) w
    | _ => .undef
  | .assign _ r e, ρ, w => (evalE cx callF ρ e w).bind fun v w =>
      (cx.set ρ r v w).bind fun ρ w => .ok (.next ρ) w
  | .assignArr _ r i e, ρ, w => (evalE cx callF ρ e w).bind fun v w =>
      (evalE cx callF ρ i w).bind fun i w => (cx.get ρ r w).bind fun a w =>
        (update a i v w).bind fun _ w => .ok (.next ρ) w
  | .assignMem _ _ r e, ρ, w => (evalE cx callF ρ e w).bind fun _ w =>
      (cx.get ρ r w).bind fun _ w => .err .bad_member_access w
  | .call _ c as, ρ, w => (evalEs cx callF ρ as w).bind fun vs w =>
      (evalE cx callF ρ c w).bind fun c w => (cx.apply callF c vs w).bind fun _ w => .ok (.next ρ) w
  | .ifS _ c thn hasElse els, ρ, w => (evalE cx callF ρ c w).bind fun v w =>
      look v w fun x =>
        if truth cx.fl x then (evalB cx callF zi n thn ρ w).bind fun fl w => .ok (fl.leave ρ) w
        else if hasElse then (evalB cx callF zi n els ρ w).bind fun fl w => .ok (fl.leave ρ) w
        else .ok (.next ρ) w
  | .whileS _ c body, ρ, w =>
      loop (fun ρ w => (evalE cx callF ρ c w).bind fun v w => look v w fun x => .ok (truth cx.fl x) w)
        (fun ρ w => (evalB cx callF zi n body ρ w).bind fun fl w => .ok (fl.leave ρ) w) n ρ w
  | .forS _ _ r a b body, ρ, w => (evalE cx callF ρ a w).bind fun v w => (cx.set ρ r v w).bind fun ρ w =>
      loop (fun ρ w => (cx.get ρ r w).bind fun i w => (evalE cx callF ρ b w).bind fun z w =>
          (binaryV cx.fl .LT i z w).bind fun v w => look v w fun x => .ok (truth cx.fl x) w)
        (fun ρ w => (evalB cx callF zi n body ρ w).bind fun fl w => (fl.leave ρ).andThen w fun ρ w =>
          (cx.get ρ r w).bind fun i w => (binaryV cx.fl .ADD i (.int 1) w).bind fun v w =>
            (cx.set ρ r v w).bind fun ρ w => .ok (.next ρ) w) n ρ w
  | .ret _ none, _, w => .ok (.ret .none) w
  | .ret _ (some e), ρ, w => (evalE cx callF ρ e w).bind fun v w => .ok (.ret v) w

/-- The statements of a block. -/
def evalB (cx : Ctx) (callF : CallF) (zi : Ref → Bool) (n : Nat) :
    List (Stmt Ref) → Vars → State → Res Flow
  | [], ρ, w => .ok (.next ρ) w
  | s :: ss, ρ, w => (evalS cx callF zi n s ρ w).bind fun fl w =>
      fl.andThen w fun ρ w => evalB cx callF zi n ss ρ w

end

/-! ### Functions and programs -/

/-- The variables at the start of a call. -/
def params (args : List Val) : Vars
  | .arg i => match args[i]? with
    | some v => .val v
    | none => .fresh
  | _ => .fresh

/-- The result of the body of a function: falling off its end returns 0. -/
def result (fl : Flow) : Val :=
  match fl with
  | .next _ => .int 0
  | .ret v => v

/-- Calling the function declared by child `i`; `n` bounds the depth of calls and the rounds of each
loop.  `zi` is as in `evalS`, for each function. -/
def callFn (cx : Ctx) (zi : Nat → Ref → Bool) : Nat → CallF
  | 0, _, _, _ => .timeout
  | n + 1, i, args, w =>
    match cx.prog[i]? with
    | some (.func f) =>
      if args.length = f.args.length then
        (evalB cx (callFn cx zi n) (zi i) (n + 1) f.body (params args) w).bind fun fl w => .ok (result fl) w
      else .undef
    | _ => .undef

/-- The initialisers in the order of the text. -/
def initVars (cx : Ctx) (callF : CallF) : Nat → List (Item Ref) → State → Res Unit
  | _, [], w => .ok () w
  | i, .var _ false (some e) :: xs, w => (evalE cx callF (fun _ => .fresh) e w).bind fun v w =>
      (cx.set (fun _ => .fresh) (.item i) v w).bind fun _ w => initVars cx callF (i + 1) xs w
  | i, .var _ false none :: xs, w => initVars cx callF (i + 1) xs w
  | i, .var _ true _ :: xs, w => initVars cx callF (i + 1) xs w
  | i, .func _ :: xs, w => initVars cx callF (i + 1) xs w
  | i, .syscall .. :: xs, w => initVars cx callF (i + 1) xs w

/-- Starting a program: all global variables are `none`, then the initialisers run.  A program
without global variables leaves those of the machine alone. -/
def startUp (cx : Ctx) (zi : Nat → Ref → Bool) (n : Nat) (w : State) : Res Unit :=
  initVars cx (callFn cx zi n) 0 cx.prog
    (if cx.slot cx.prog.length = 0 then w
      else { w with globals := List.replicate (cx.slot cx.prog.length) .none })

end Ccml.Sem
