import Verif.Sem
/-!
What a program means, read off its source: an evaluator on the tree that the parser makes, before any
pass of the compiler.  Names are looked up in the blocks around their use while the program runs.
Nothing here knows of references, slots of local variables, constants folded in advance, instructions
or addresses in the code.  It is a specification; it shares with `Sem` the meaning of the operators on
values (`Sem.binary`, `Sem.unary`, `Sem.index`, `Sem.update`, `Sem.member`) and the way an evaluation
can end (`Sem.Res`).
-/
namespace Ccml.Src
open Ccml Sem

/-- The arguments and local variables in scope, the one declared last first; `none` is a variable that
was declared without a value and not assigned so far. -/
abbrev Locals := List (Str × Option Val)

/-- The variable a name refers to. -/
def Locals.get (ρ : Locals) (n : Str) : Option (Option Val) := (ρ.find? fun d => d.1 == n).map (·.2)

/-- Assigning to the variable a name refers to. -/
def Locals.put (n : Str) (v : Val) : Locals → Locals
  | [] => []
  | (m, x) :: ρ => if m = n then (m, some v) :: ρ else (m, x) :: Locals.put n v ρ

/-- The variables after a block that started with `ρ` and ended with `ρ'`. -/
def Locals.leave (ρ ρ' : Locals) : Locals := ρ'.drop (ρ'.length - ρ.length)

/-- What the meaning of a program depends on. -/
structure Ctx where
  prog : Prog Unit
  fl : FloatOps
  /-- the value that stands for the script function declared by child `i` -/
  funAddr : Nat → I32
  /-- the host functions by name -/
  table : List Syscall
  /-- what a host function does with its arguments -/
  host : FnPtr → List Val → State → Res Val

/-- The child of the program that declares a name. -/
def Ctx.global (cx : Ctx) (n : Str) : Option Nat := cx.prog.findIdx? fun x => x.declName == n

/-- The slot of global variable `i`: the number of variables before it that are not constant. -/
def Ctx.slot (cx : Ctx) (i : Nat) : Nat :=
  ((cx.prog.take i).filter fun x => match x with | .var _ false _ => true | _ => false).length

/-- The index of a host function in the table. -/
def Ctx.hostIndex (cx : Ctx) (name : Str) : Option Nat := cx.table.findIdx? fun s => s.name == name

/-- The function a function value stands for. -/
def Ctx.funAt (cx : Ctx) (a : I32) : Option Nat :=
  (List.range cx.prog.length).find? fun i =>
    match cx.prog[i]? with
    | some (.func _) => cx.funAddr i == a
    | _ => false

/-! ### Constants -/

/-- An integer computed from integers; `val` gives the values of constants. -/
def constInt (fl : FloatOps) (val : Str → Option I32) : Expr Unit → Option I32
  | .int v _ _ => some v
  | .ident t _ => val t.str
  | .un op a =>
    match constInt fl val a with
    | some a => match unary fl op.type (.int a) with
      | .val (.int v) => some v
      | _ => none
    | none => none
  | .bin op l r =>
    match constInt fl val l, constInt fl val r with
    | some a, some b => match binary fl op.type (.int a) (.int b) with
      | .val (.int v) => some v
      | _ => none
    | _, _ => none
  | _ => none

/-- The value of a constant that is declared as an integer, or by operators on integers and such
constants; at most `n` constants deep. -/
def Ctx.constNum (cx : Ctx) : Nat → Str → Option I32
  | 0, _ => none
  | n + 1, name =>
    match cx.global name with
    | some i =>
      match cx.prog[i]? with
      | some (.var _ true (some (.ident ..))) => none
      | some (.var _ true (some e)) => constInt cx.fl (cx.constNum n) e
      | _ => none
    | none => none

/-- The value of a constant: a literal, a number computed from constants, or another constant. -/
def Ctx.constVal (cx : Ctx) : Nat → Nat → Option Val
  | 0, _ => none
  | n + 1, i =>
    match cx.prog[i]? with
    | some (.var _ true (some (.float v _))) => some (.float v)
    | some (.var _ true (some (.str s _))) => some (.str s)
    | some (.var _ true (some (.ident t _))) => (cx.global t.str).bind (cx.constVal n)
    | some (.var _ true (some e)) => (constInt cx.fl (cx.constNum cx.prog.length) e).map .int
    | _ => none

/-! ### Names -/

/-- The value of a name that is not local. -/
def Ctx.item (cx : Ctx) (i : Nat) (w : State) : Res Val :=
  match cx.prog[i]? with
  | some (.func _) => .ok (.func (cx.funAddr i)) w
  | some (.syscall n _) =>
    match cx.hostIndex n with
    | some j => .ok (.syscall (BitVec.ofNat 32 j)) w
    | none => .undef
  | some (.var _ false _) =>
    match w.globals[cx.slot i]? with
    | some v => .ok v w
    | none => .err .bad_get_global w
  | some (.var _ true _) =>
    match cx.constVal cx.prog.length i with
    | some v => .ok v w
    | none => .undef
  | none => .undef

/-- The value of a name. -/
def Ctx.ident (cx : Ctx) (ρ : Locals) (n : Str) (w : State) : Res Val :=
  match ρ.get n with
  | some (some v) => .ok v w
  | some none => .undef
  | none =>
    match cx.global n with
    | some i => cx.item i w
    | none => .undef

/-- Is the child a variable that can be assigned? -/
def Ctx.isVar (cx : Ctx) (i : Nat) : Bool :=
  match cx.prog[i]? with
  | some (.var _ false _) => true
  | _ => false

/-- Reading a variable (not a constant, not a function). -/
def Ctx.get (cx : Ctx) (ρ : Locals) (n : Str) (w : State) : Res Val :=
  match ρ.get n with
  | some (some v) => .ok v w
  | some none => .undef
  | none =>
    match cx.global n with
    | some i => if cx.isVar i then cx.item i w else .undef
    | none => .undef

/-- Assigning to a global variable. -/
def Ctx.setItem (cx : Ctx) (i : Nat) (v : Val) (w : State) : Res Unit :=
  if cx.slot i < w.globals.length then .ok () { w with globals := w.globals.set (cx.slot i) v }
  else .err .bad_set_global w

/-- Assigning to a variable. -/
def Ctx.set (cx : Ctx) (ρ : Locals) (n : Str) (v : Val) (w : State) : Res Locals :=
  match ρ.get n with
  | some _ => .ok (ρ.put n v) w
  | none =>
    match cx.global n with
    | some i => if cx.isVar i then (cx.setItem i v w).bind fun _ w => .ok ρ w else .undef
    | none => .undef

/-! ### Calls -/

/-- Calling a value. -/
def Ctx.apply (cx : Ctx) (callF : CallF) (v : Val) (args : List Val) (w : State) : Res Val :=
  match v with
  | .func a =>
    match cx.funAt a with
    | none => .undef
    | some i =>
      match cx.prog[i]? with
      | some (.func f) => if f.args.length = args.length then callF i args w else .err .bad_num_args w
      | _ => .undef
  | .syscall j =>
    if j.toInt < 0 then .fault .assert
    else match cx.table[j.toInt.toNat]? with
      | none => .fault .assert
      | some s =>
        match s.call with
        | none => .fault .assert
        | some fn => cx.host fn args w
  | .none => .fault .assert
  | v => look v w fun _ => .err .bad_type_operation w

/-! ### Expressions -/

mutual

/-- The value of an expression. -/
def evalE (cx : Ctx) (callF : CallF) (ρ : Locals) : Expr Unit → State → Res Val
  | .ident t _, w => cx.ident ρ t.str w
  | .int v _ _, w => .ok (.int v) w
  | .float v _, w => .ok (.float v) w
  | .str s _, w => .ok (.str s) w
  | .none _, w => .ok .none w
  | .member t m _, w => (cx.get ρ t.str w).bind fun a w => member a m.str w
  | .arr _ es, w => (evalEs cx callF ρ es w).bind fun vs w =>
      .ok (.arr w.mem.length) { w with mem := w.mem ++ [vs] }
  | .deref _ l i, w => (evalE cx callF ρ i w).bind fun i w =>
      (evalE cx callF ρ l w).bind fun a w => index a i w
  | .call _ c as, w => (evalEs cx callF ρ as w).bind fun vs w =>
      (evalE cx callF ρ c w).bind fun c w => cx.apply callF c vs w
  | .bin op l r, w => (evalE cx callF ρ l w).bind fun a w =>
      (evalE cx callF ρ r w).bind fun b w =>
        if op.type = .NOT then .undef else binaryV cx.fl op.type a b w
  | .un op a, w => (evalE cx callF ρ a w).bind fun a w =>
      if op.type = .SUB ∨ op.type = .NOT then unaryV cx.fl op.type a w else .undef

/-- Expressions from left to right. -/
def evalEs (cx : Ctx) (callF : CallF) (ρ : Locals) : List (Expr Unit) → State → Res (List Val)
  | [], w => .ok [] w
  | e :: es, w => (evalE cx callF ρ e w).bind fun v w =>
      (evalEs cx callF ρ es w).bind fun vs w => .ok (v :: vs) w

end

/-! ### Statements -/

/-- Where control goes after a statement. -/
inductive Flow
  | next (ρ : Locals)
  | ret (v : Val)

/-- Continue unless the function has returned. -/
def Flow.andThen (fl : Flow) (w : State) (f : Locals → State → Res Flow) : Res Flow :=
  match fl with
  | .next ρ => f ρ w
  | .ret v => .ok (.ret v) w

/-- The end of a block. -/
def Flow.leave (ρ : Locals) : Flow → Flow
  | .next ρ' => .next (ρ.leave ρ')
  | .ret v => .ret v

/-- At most `n` rounds of a loop: test, body, step. -/
def loop (test : Locals → State → Res Bool) (body : Locals → State → Res Flow) :
    Nat → Locals → State → Res Flow
  | 0, _, _ => .timeout
  | n + 1, ρ, w => (test ρ w).bind fun b w =>
    if b then (body ρ w).bind fun fl w => fl.andThen w (loop test body n) else .ok (.next ρ) w

mutual

/-- Statements; `n` bounds the rounds of a loop. -/
def evalS (cx : Ctx) (callF : CallF) (n : Nat) : Stmt Unit → Locals → State → Res Flow
  | .var t _ none, ρ, w => .ok (.next ((t.str, none) :: ρ)) w
  | .var t _ (some e), ρ, w => (evalE cx callF ρ e w).bind fun v w =>
      .ok (.next ((t.str, some v) :: ρ)) w
  | .assign t _ e, ρ, w => (evalE cx callF ρ e w).bind fun v w =>
      (cx.set ρ t.str v w).bind fun ρ w => .ok (.next ρ) w
  | .assignArr t _ i e, ρ, w => (evalE cx callF ρ e w).bind fun v w =>
      (evalE cx callF ρ i w).bind fun i w => (cx.get ρ t.str w).bind fun a w =>
        (update a i v w).bind fun _ w => .ok (.next ρ) w
  | .assignMem t _ _ e, ρ, w => (evalE cx callF ρ e w).bind fun _ w =>
      (cx.get ρ t.str w).bind fun _ w => .err .bad_member_access w
  | .call _ c as, ρ, w => (evalEs cx callF ρ as w).bind fun vs w =>
      (evalE cx callF ρ c w).bind fun c w => (cx.apply callF c vs w).bind fun _ w => .ok (.next ρ) w
  | .ifS _ c thn hasElse els, ρ, w => (evalE cx callF ρ c w).bind fun v w =>
      look v w fun x =>
        if truth cx.fl x then (evalB cx callF n thn ρ w).bind fun fl w => .ok (fl.leave ρ) w
        else if hasElse then (evalB cx callF n els ρ w).bind fun fl w => .ok (fl.leave ρ) w
        else .ok (.next ρ) w
  | .whileS _ c body, ρ, w =>
      loop (fun ρ w => (evalE cx callF ρ c w).bind fun v w => look v w fun x => .ok (truth cx.fl x) w)
        (fun ρ w => (evalB cx callF n body ρ w).bind fun fl w => .ok (fl.leave ρ) w) n ρ w
  | .forS _ i _ a b body, ρ, w => (evalE cx callF ρ a w).bind fun v w =>
      (cx.set ρ i.str v w).bind fun ρ w =>
      loop (fun ρ w => (cx.get ρ i.str w).bind fun i w => (evalE cx callF ρ b w).bind fun z w =>
          (binaryV cx.fl .LT i z w).bind fun v w => look v w fun x => .ok (truth cx.fl x) w)
        (fun ρ w => (evalB cx callF n body ρ w).bind fun fl w => (fl.leave ρ).andThen w fun ρ w =>
          (cx.get ρ i.str w).bind fun j w => (binaryV cx.fl .ADD j (.int 1) w).bind fun v w =>
            (cx.set ρ i.str v w).bind fun ρ w => .ok (.next ρ) w) n ρ w
  | .ret _ none, _, w => .ok (.ret .none) w
  | .ret _ (some e), ρ, w => (evalE cx callF ρ e w).bind fun v w => .ok (.ret v) w

/-- The statements of a block. -/
def evalB (cx : Ctx) (callF : CallF) (n : Nat) : List (Stmt Unit) → Locals → State → Res Flow
  | [], ρ, w => .ok (.next ρ) w
  | s :: ss, ρ, w => (evalS cx callF n s ρ w).bind fun fl w =>
      fl.andThen w fun ρ w => evalB cx callF n ss ρ w

end

/-! ### Functions and programs -/

/-- The arguments of a call by name. -/
def params (names : List Token) (args : List Val) : Locals :=
  (List.zipWith (fun t v => (t.str, some v)) names args).reverse

/-- The result of the body of a function: falling off its end returns 0. -/
def result (fl : Flow) : Val :=
  match fl with
  | .next _ => .int 0
  | .ret v => v

/-- Calling the function declared by child `i`; `n` bounds the depth of calls and the rounds of each
loop. -/
def callFn (cx : Ctx) : Nat → CallF
  | 0, _, _, _ => .timeout
  | n + 1, i, args, w =>
    match cx.prog[i]? with
    | some (.func f) =>
      if args.length = f.args.length then
        (evalB cx (callFn cx n) (n + 1) f.body (params f.args args) w).bind fun fl w => .ok (result fl) w
      else .undef
    | _ => .undef

/-- Calling a function by name. -/
def call (cx : Ctx) (n : Nat) (name : Str) (args : List Val) (w : State) : Res Val :=
  match cx.global name with
  | some i => callFn cx n i args w
  | none => .undef

/-- The initialisers in the order of the text.  A variable initialised with just `none` counts as not
initialised. -/
def initVars (cx : Ctx) (callF : CallF) : Nat → List (Item Unit) → State → Res Unit
  | _, [], w => .ok () w
  | i, .var _ false (some (.none _)) :: xs, w => initVars cx callF (i + 1) xs w
  | i, .var _ false (some e) :: xs, w => (evalE cx callF [] e w).bind fun v w =>
      (cx.setItem i v w).bind fun _ w => initVars cx callF (i + 1) xs w
  | i, _ :: xs, w => initVars cx callF (i + 1) xs w

/-- Starting a program: all global variables are `none`, then the initialisers run.  A program
without global variables leaves those of the machine alone. -/
def startUp (cx : Ctx) (n : Nat) (w : State) : Res Unit :=
  initVars cx (callFn cx n) 0 cx.prog
    (if cx.slot cx.prog.length = 0 then w
      else { w with globals := List.replicate (cx.slot cx.prog.length) .none })

end Ccml.Src
