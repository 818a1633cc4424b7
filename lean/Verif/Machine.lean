import Verif.Sdl
import Verif.Program
/-!
The virtual machine: `thread_t` (lib_vm/thread.h, thread.cpp) and `vm_t` (lib_vm/vm.h, vm.cpp).

The stack is kept with its top first.  Stack heights and code positions are not truncated to 32
bits (a stack of 2^31 entries would need 16 GiB); all values, operands and jump targets are.
-/
namespace Ccml

/-- `frame_t`, lib_vm/thread.h:20-32. -/
structure Frame where
  sp : Nat
  ret : Int
  callee : Int
  terminal : Bool
  deriving DecidableEq, Repr

/-- `thread_t`, lib_vm/thread.h:109-160.  `user_data` and the back references to the virtual
machine are omitted. -/
structure Thread (P : Type) where
  waits : I32
  lastLine : Line
  error : TErr
  cycles : I32
  finished : Bool
  halted : Bool
  pc : Int
  /-- innermost frame first -/
  frames : List Frame
  /-- top of stack first -/
  stack : List P
  breakpoints : List Line
  deriving DecidableEq, Repr

/-- `thread_t::has_error`, lib_vm/thread.h:62-64. -/
def Thread.hasError {P : Type} (t : Thread P) : Bool := t.error != .success

/-- What host functions keep outside the machine: the standard streams and the state of the random
number generator (driver/driver.cpp:18-75); in the graphical driver its window, clock and generator
(driver_sdl/driver.cpp:16-32). -/
structure Io where
  /-- what can still be read from standard input -/
  input : Str
  /-- what was written to standard output -/
  output : Str
  /-- `static uint32_t x` of `xorshift32` -/
  seed : BitVec 32
  /-- the variables of the graphical driver; whether a thread halts is kept in the thread -/
  sdl : Sdl.Driver := {}
  /-- what SDL answers in each call of a function of the graphical driver -/
  outside : Nat → Sdl.Outside := fun _ => ⟨0, fun _ => false, fun _ _ => none⟩
  /-- how many functions of the graphical driver have been called; not kept in the code, it selects the answer -/
  asked : Nat := 0

/-- Before anything has been read or written, with nothing to read: driver/driver.cpp:19. -/
def Io.fresh : Io := { input := [], output := [], seed := 12345 }

/-- State seen by an executing thread: itself, the memory, the globals `vm_t::g_`, the rest of
the thread list `vm_t::threads_` (lib_vm/vm.h:119-127): `before` it and `after` it, and what host
functions read and write. -/
structure St (P M : Type) where
  th : Thread P
  mem : M
  globals : List P
  before : List (Thread P)
  after : List (Thread P)
  io : Io

/-- A piece of machine code: changes the state or ends abnormally. -/
abbrev VM (P M : Type) := StateT (St P M) (Except Fault)

/-- `handlers_t`, lib_vm/vm.h:22-59: host callbacks, each possibly null. -/
structure Handlers (P M : Type) where
  onThreadError : Option (VM P M Bool) := none
  onThreadFinish : Option (VM P M Bool) := none
  onMemberGet : Option (P → Str → VM P M Bool) := none
  onMemberSet : Option (P → P → Str → VM P M Bool) := none
  onArrayGet : Option (P → P → VM P M Bool) := none
  onArraySet : Option (P → P → P → VM P M Bool) := none
  onEquals : Option (P → P → VM P M Bool) := none
  onAdd : Option (P → P → VM P M Bool) := none
  onSub : Option (P → P → VM P M Bool) := none
  onMul : Option (P → P → VM P M Bool) := none
  onDiv : Option (P → P → VM P M Bool) := none

/-- Everything a running machine refers to but does not change. -/
structure Env (P M : Type) where
  prog : Program
  fl : FloatOps
  mem : MemOps P M
  handlers : Handlers P M
  /-- behaviour of the host function at an address, given the number of arguments -/
  native : FnPtr → I32 → VM P M Unit

section
variable {P M : Type}

/-- Abnormal end. -/
def fault {α : Type} (f : Fault) : VM P M α := fun _ => .error f

/-- A computation on numbers or memory that may be undefined. -/
def lift {α : Type} (o : Out α) : VM P M α := fun s =>
  match o with
  | .ok a => .ok (a, s)
  | .error f => .error f

/-- `assert(c)`. -/
def assertThat (c : Bool) : VM P M Unit := if c then pure () else fault .assert

/-- Change the executing thread. -/
def modTh (f : Thread P → Thread P) : VM P M Unit := fun s => .ok ((), { s with th := f s.th })

/-- Read the executing thread. -/
def getTh : VM P M (Thread P) := fun s => .ok (s.th, s)

/-- `raise_error` and `set_error_`, lib_vm/thread.h:74-77, 188-191. -/
def raise (e : TErr) : VM P M Unit := modTh fun t => { t with error := e, finished := true }

/-! ### Value stack, lib_vm/value.h:156-258 and value.cpp:14-44 -/

/-- `value_stack_t::push`, lib_vm/value.h:215-217. -/
def push (v : P) : VM P M Unit := modTh fun t => { t with stack := v :: t.stack }

/-- `value_stack_t::pop`, lib_vm/value.h:207-212. -/
def pop : VM P M P := fun s =>
  match s.th.stack with
  | [] => .error .assert
  | v :: r => .ok (v, { s with th := { s.th with stack := r } })

/-- `value_stack_t::reserve`, lib_vm/value.h:186-190. -/
def reserve (e : Env P M) (n : Nat) : VM P M Unit :=
  modTh fun t => { t with stack := List.replicate n e.mem.nil ++ t.stack }

/-- `value_stack_t::discard`, lib_vm/value.h:192-197. -/
def discard (n : Nat) : VM P M Unit := fun s =>
  if n ≤ s.th.stack.length then
    .ok ((), { s with th := { s.th with stack := s.th.stack.drop n } })
  else .error .assert

/-- Element `i` of the stack counted from the bottom (`stack_[i]`). -/
def stackAt (st : List P) (i : Int) : Option P :=
  if 0 ≤ i then st.reverse[i.toNat]? else none

/-- `value_stack_t::get` (non-const), lib_vm/value.h:228-236. -/
def stackGet (e : Env P M) (i : Int) : VM P M P := fun s =>
  match stackAt s.th.stack i with
  | some v => .ok (v, s)
  | none => match raise .bad_getv s with
    | .ok (_, s') => .ok (e.mem.nil, s')
    | .error f => .error f

/-- Replace element `i` counted from the bottom. -/
def stackPut (st : List P) (i : Nat) (v : P) : List P := (st.reverse.set i v).reverse

/-- `value_stack_t::set`, lib_vm/value.h:238-245. -/
def stackSet (i : Int) (v : P) : VM P M Unit := fun s =>
  if 0 ≤ i ∧ i < s.th.stack.length then
    .ok ((), { s with th := { s.th with stack := stackPut s.th.stack i.toNat v } })
  else raise .bad_setv s

/-- Allocation followed by a push. -/
def pushNew (f : M → Out (P × M)) : VM P M Unit := fun s =>
  match f s.mem with
  | .error x => .error x
  | .ok (p, m) => .ok ((), { s with mem := m, th := { s.th with stack := p :: s.th.stack } })

/-- `push_int`, lib_vm/value.cpp:26-28. -/
def pushInt (e : Env P M) (v : I32) : VM P M Unit := pushNew (e.mem.newInt · v)
/-- `push_float`, lib_vm/value.cpp:30-32. -/
def pushFloat (e : Env P M) (v : F32) : VM P M Unit := pushNew (e.mem.newFloat · v)
/-- `push_string`, lib_vm/value.cpp:34-40. -/
def pushStr (e : Env P M) (v : Str) : VM P M Unit := pushNew (e.mem.newStr · v)
/-- `push_func`, lib_vm/value.cpp:18-20. -/
def pushFunc (e : Env P M) (v : I32) : VM P M Unit := pushNew (e.mem.newFunc · v)
/-- `push_syscall`, lib_vm/value.cpp:22-24. -/
def pushSyscall (e : Env P M) (v : I32) : VM P M Unit := pushNew (e.mem.newSyscall · v)

/-- `b ? 1 : 0` pushed as an integer. -/
def pushBool (e : Env P M) (b : Bool) : VM P M Unit := pushInt e (if b then 1 else 0)

/-- Reading a value through its pointer. -/
def view (e : Env P M) (p : P) : VM P M View := fun s => lift (e.mem.view s.mem p) s

/-- `value_gc_t::copy`, lib_vm/vm_gc.cpp:88-110. -/
def copyVal (e : Env P M) (m : M) (p : P) : Out (P × M) :=
  match e.mem.view m p with
  | .error f => .error f
  | .ok (.int v) => e.mem.newInt m v
  | .ok (.float f) => e.mem.newFloat m f
  | .ok (.str s) => e.mem.newStr m s
  | .ok (.func v) => e.mem.newFunc m v
  | .ok (.syscall v) => e.mem.newSyscall m v
  | .ok .none => .ok (e.mem.nil, m)
  | .ok (.arr _) => .error .assert

/-! ### Instruction fetch -/

/-- `assert(sizeof(pc_) < program.size())` and the read of the byte at `pc_`,
lib_vm/thread.cpp:90-96. -/
def readOpcode (e : Env P M) : VM P M Byte := fun s =>
  if ¬ 4 < e.prog.code.length then .error .assert
  else if s.th.pc < 0 then .error .ub
  else match e.prog.code[s.th.pc.toNat]? with
    | none => .error .ub
    | some b => .ok (b, { s with th := { s.th with pc := s.th.pc + 1 } })

/-- `read_operand_`, lib_vm/thread.cpp:75-81. -/
def readOperand (e : Env P M) : VM P M I32 := fun s =>
  if ¬ 4 < e.prog.code.length then .error .assert
  else if s.th.pc < 0 then .error .ub
  else match read32 e.prog.code s.th.pc.toNat with
    | none => .error .ub
    | some v => .ok (v, { s with th := { s.th with pc := s.th.pc + 4 } })

/-- `pc_ = x`. -/
def jump (x : Int) : VM P M Unit := modTh fun t => { t with pc := x }

/-! ### Frames -/

/-- `enter_`, lib_vm/thread.cpp:797-806. -/
def enter (sp : Nat) (ret callee : Int) : VM P M Unit := modTh fun t =>
  { t with frames := ⟨sp, ret, callee, false⟩ :: t.frames, pc := callee }

/-- `leave_`, lib_vm/thread.cpp:809-825. -/
def leave : VM P M Int := fun s =>
  match s.th.frames with
  | [] => match raise .stack_underflow s with
    | .ok (_, s') => .ok (0, s')
    | .error f => .error f
  | f :: fs =>
    let fin := f.terminal || fs.isEmpty
    if fin ∧ s.th.stack.length = 0 then .error .assert
    else .ok (f.ret, { s with th := { s.th with finished := fin, frames := fs } })

/-- `frame_()`, lib_vm/thread.h:176-185. -/
def curFrame : VM P M Frame := fun s =>
  match s.th.frames with
  | [] => .error .assert
  | f :: _ => .ok (f, s)

/-! ### Instructions -/

/-- The tail of the arithmetic instructions: try the host handler, then fail
(e.g. lib_vm/thread.cpp:137-143). -/
def tryHandler (h : Option (P → P → VM P M Bool)) (l r : P) : VM P M Unit := do
  match h with
  | some f => if (← f l r) then pure () else raise .bad_type_operation
  | none => raise .bad_type_operation

/-- `do_INS_ADD_`, lib_vm/thread.cpp:98-144. -/
def doADD (e : Env P M) : VM P M Unit := do
  let r ← pop
  let l ← pop
  let rv ← view e r
  let lv ← view e l
  match lv, rv with
  | .int a, .int b => pushInt e (← lift (ret32 (a.toInt + b.toInt)))
  | lv, rv =>
    match lv.num? e.fl, rv.num? e.fl with
    | some a, some b => pushFloat e (e.fl.add a b)
    | _, _ =>
      match lv with
      | .str s => pushStr e (s ++ (← lift (rv.toBuf e.fl)))
      | _ =>
        match rv with
        | .str s => pushStr e ((← lift (lv.toBuf e.fl)) ++ s)
        | _ => tryHandler e.handlers.onAdd l r

/-- `do_INS_SUB_`, lib_vm/thread.cpp:146-166. -/
def doSUB (e : Env P M) : VM P M Unit := do
  let r ← pop
  let l ← pop
  let rv ← view e r
  let lv ← view e l
  match lv, rv with
  | .int a, .int b => pushInt e (← lift (ret32 (a.toInt - b.toInt)))
  | lv, rv =>
    match lv.num? e.fl, rv.num? e.fl with
    | some a, some b => pushFloat e (e.fl.sub a b)
    | _, _ => tryHandler e.handlers.onSub l r

/-- `do_INS_MUL_`, lib_vm/thread.cpp:168-189. -/
def doMUL (e : Env P M) : VM P M Unit := do
  let r ← pop
  let l ← pop
  let rv ← view e r
  let lv ← view e l
  match lv, rv with
  | .int a, .int b => pushInt e (← lift (ret32 (a.toInt * b.toInt)))
  | lv, rv =>
    match lv.num? e.fl, rv.num? e.fl with
    | some a, some b => pushFloat e (e.fl.mul a b)
    | _, _ => tryHandler e.handlers.onMul l r

/-- `do_INS_DIV_`, lib_vm/thread.cpp:191-216.  C++ integer division truncates toward zero. -/
def doDIV (e : Env P M) : VM P M Unit := do
  let r ← pop
  let l ← pop
  let rv ← view e r
  let lv ← view e l
  match lv, rv with
  | .int a, .int b =>
    if b = 0 then raise .bad_divide_by_zero
    else pushInt e (← lift (ret32 (a.toInt.tdiv b.toInt)))
  | lv, rv =>
    match lv.num? e.fl, rv.num? e.fl with
    | some a, some b => pushFloat e (e.fl.div a b)
    | _, _ => tryHandler e.handlers.onDiv l r

/-- `a % b` for `b ≠ 0`: undefined exactly when `a / b` is not representable. -/
def rem32 (a b : I32) : Out I32 :=
  if fits32 (a.toInt.tdiv b.toInt) then .ok (BitVec.ofInt 32 (a.toInt.tmod b.toInt))
  else .error .ub

/-- `do_INS_MOD_`, lib_vm/thread.cpp:218-232. -/
def doMOD (e : Env P M) : VM P M Unit := do
  let r ← pop
  let l ← pop
  let rv ← view e r
  let lv ← view e l
  match lv, rv with
  | .int a, .int b =>
    if b = 0 then raise .bad_divide_by_zero
    else pushInt e (← lift (rem32 a b))
  | _, _ => raise .bad_type_operation

/-- `do_INS_AND_`, lib_vm/thread.cpp:234-238. -/
def doAND (e : Env P M) : VM P M Unit := do
  let r ← pop
  let l ← pop
  let rv ← view e r
  let lv ← view e l
  pushBool e (lv.asBool e.fl && rv.asBool e.fl)

/-- `do_INS_OR_`, lib_vm/thread.cpp:240-244. -/
def doOR (e : Env P M) : VM P M Unit := do
  let r ← pop
  let l ← pop
  let rv ← view e r
  let lv ← view e l
  pushBool e (lv.asBool e.fl || rv.asBool e.fl)

/-- `do_INS_NOT_`, lib_vm/thread.cpp:246-249. -/
def doNOT (e : Env P M) : VM P M Unit := do
  let l ← pop
  let lv ← view e l
  pushBool e (!lv.asBool e.fl)

/-- `do_INS_NEG_`, lib_vm/thread.cpp:251-258. -/
def doNEG (e : Env P M) : VM P M Unit := do
  let o ← pop
  match ← view e o with
  | .int v => pushInt e (← lift (ret32 (-v.toInt)))
  | _ => raise .bad_type_operation

/-- Shape shared by `do_INS_LT_`, `do_INS_GT_`, `do_INS_LEQ_`, `do_INS_GEQ_`,
lib_vm/thread.cpp:260-321. -/
def doCompare (e : Env P M) (ic : Int → Int → Bool) (fc : F32 → F32 → Bool) : VM P M Unit := do
  let r ← pop
  let l ← pop
  let rv ← view e r
  let lv ← view e l
  match lv, rv with
  | .int a, .int b => pushBool e (ic a.toInt b.toInt)
  | lv, rv =>
    match lv.num? e.fl, rv.num? e.fl with
    | some a, some b => pushBool e (fc a b)
    | _, _ => raise .bad_type_operation

/-- `do_INS_LT_`, lib_vm/thread.cpp:260-274. -/
def doLT (e : Env P M) : VM P M Unit := doCompare e (fun a b => decide (a < b)) e.fl.lt
/-- `do_INS_GT_`, lib_vm/thread.cpp:276-290. -/
def doGT (e : Env P M) : VM P M Unit := doCompare e (fun a b => decide (a > b)) e.fl.gt
/-- `do_INS_LEQ_`, lib_vm/thread.cpp:292-306. -/
def doLEQ (e : Env P M) : VM P M Unit := doCompare e (fun a b => decide (a ≤ b)) e.fl.le
/-- `do_INS_GEQ_`, lib_vm/thread.cpp:308-321. -/
def doGEQ (e : Env P M) : VM P M Unit := doCompare e (fun a b => decide (a ≥ b)) e.fl.ge

/-- `do_INS_EQ_`, lib_vm/thread.cpp:323-368. -/
def doEQ (e : Env P M) : VM P M Unit := do
  let r ← pop
  let l ← pop
  let rv ← view e r
  let lv ← view e l
  match lv, rv with
  | .int a, .int b => pushBool e (a == b)
  | .str a, .str b => pushBool e (a.length == b.length && cstr a == cstr b)
  | .func a, .func b => pushBool e (a == b)
  | .none, .none => pushBool e true
  | .none, _ => pushBool e false
  | _, .none => pushBool e false
  | lv, rv =>
    match lv.num? e.fl, rv.num? e.fl with
    | some a, some b => pushBool e (e.fl.eq a b)
    | _, _ => tryHandler e.handlers.onEquals l r

/-- `do_INS_JMP_`, lib_vm/thread.cpp:370-372. -/
def doJMP (e : Env P M) : VM P M Unit := do
  jump (← readOperand e).toInt

/-- `do_INS_TJMP_`, lib_vm/thread.cpp:374-380. -/
def doTJMP (e : Env P M) : VM P M Unit := do
  let target ← readOperand e
  let o ← pop
  if (← view e o).asBool e.fl then jump target.toInt else pure ()

/-- `do_INS_FJMP_`, lib_vm/thread.cpp:382-388. -/
def doFJMP (e : Env P M) : VM P M Unit := do
  let target ← readOperand e
  let o ← pop
  if (← view e o).asBool e.fl then pure () else jump target.toInt

/-- `do_INS_CALL_`, lib_vm/thread.cpp:390-396. -/
def doCALL (e : Env P M) : VM P M Unit := do
  let _numArgs ← readOperand e
  let callee ← readOperand e
  let t ← getTh
  enter t.stack.length t.pc callee.toInt

/-- `do_INS_RET_`, lib_vm/thread.cpp:398-412. -/
def doRET (e : Env P M) : VM P M Unit := do
  let operand ← readOperand e
  let sval ← pop
  let t ← getTh
  if (t.stack.length : Int) < operand.toInt then raise .stack_underflow
  else
    discard operand.toNat
    push sval
    jump (← leave)

/-- `do_syscall_`, lib_vm/thread.cpp:414-420. -/
def doSyscall (e : Env P M) (operand numArgs : I32) : VM P M Unit :=
  if operand.toInt < 0 then fault .assert
  else match e.prog.syscalls[operand.toNat]? with
    | none => fault .assert
    | some s => match s.call with
      | none => fault .assert
      | some fn => e.native fn numArgs

/-- `do_INS_SCALL_`, lib_vm/thread.cpp:422-426. -/
def doSCALL (e : Env P M) : VM P M Unit := do
  let numArgs ← readOperand e
  let operand ← readOperand e
  doSyscall e operand numArgs

/-- `do_INS_ICALL_`, lib_vm/thread.cpp:428-450. -/
def doICALL (e : Env P M) : VM P M Unit := do
  let numArgs ← readOperand e
  let callee ← pop
  match ← view e callee with
  | .none => fault .assert
  | .syscall v => doSyscall e v numArgs
  | .func addr =>
    match e.prog.findByPc addr with
    | none => fault .assert
    | some f =>
      if (f.numArgs : Int) ≠ numArgs.toInt then raise .bad_num_args else pure ()
      let t ← getTh
      enter t.stack.length t.pc addr.toInt
  | _ => raise .bad_type_operation

/-- Pop `n` values. -/
def popN : Nat → VM P M Unit
  | 0 => pure ()
  | n + 1 => do
    let _ ← pop
    popN n

/-- `do_INS_POP_`, lib_vm/thread.cpp:452-457. -/
def doPOP (e : Env P M) : VM P M Unit := do
  let operand ← readOperand e
  popN operand.toInt.toNat

/-- `do_INS_NEW_INT_`, lib_vm/thread.cpp:459-462. -/
def doNEW_INT (e : Env P M) : VM P M Unit := do pushInt e (← readOperand e)

/-- `do_INS_NEW_STR_`, lib_vm/thread.cpp:464-470. -/
def doNEW_STR (e : Env P M) : VM P M Unit := do
  let index ← readOperand e
  if ¬ index.toInt < e.prog.strings.length then fault .assert
  else if index.toInt < 0 then fault .ub
  else match e.prog.strings[index.toNat]? with
    | some s => pushStr e s
    | none => fault .ub

/-- `do_INS_NEW_ARY_`, lib_vm/thread.cpp:472-476. -/
def doNEW_ARY (e : Env P M) : VM P M Unit := do
  let n ← readOperand e
  if n.toInt ≤ 0 then fault .assert else pushNew (e.mem.newArr · n.toNat)

/-- `do_INS_NEW_NONE_`, lib_vm/thread.cpp:478-480. -/
def doNEW_NONE (e : Env P M) : VM P M Unit := push e.mem.nil

/-- `do_INS_NEW_FLT_`, lib_vm/thread.cpp:482-487. -/
def doNEW_FLT (e : Env P M) : VM P M Unit := do pushFloat e (← readOperand e)

/-- `do_INS_NEW_FUNC_`, lib_vm/thread.cpp:489-493. -/
def doNEW_FUNC (e : Env P M) : VM P M Unit := do
  let v ← readOperand e
  if v.toInt < 0 then fault .assert else pushFunc e v

/-- `do_INS_NEW_SCALL_`, lib_vm/thread.cpp:495-499. -/
def doNEW_SCALL (e : Env P M) : VM P M Unit := do
  let v ← readOperand e
  if v.toInt < 0 then fault .assert else pushSyscall e v

/-- `do_INS_GLOBALS_`, lib_vm/thread.cpp:501-507: resize and zero; a negative size makes
`resize` throw. -/
def doGLOBALS (e : Env P M) : VM P M Unit := do
  let n ← readOperand e
  if n = 0 then pure ()
  else if n.toInt < 0 then fault .exn
  else fun s => .ok ((), { s with globals := List.replicate n.toNat e.mem.nil })

/-- `do_INS_LOCALS_`, lib_vm/thread.cpp:509-514. -/
def doLOCALS (e : Env P M) : VM P M Unit := do
  let n ← readOperand e
  reserve e n.toNat

/-- `do_INS_GETV_` and `getv_`, lib_vm/thread.cpp:516-519, 893-896. -/
def doGETV (e : Env P M) : VM P M Unit := do
  let offs ← readOperand e
  let f ← curFrame
  push (← stackGet e (f.sp + offs.toInt))

/-- `do_INS_SETV_` and `setv_`, lib_vm/thread.cpp:521-524, 898-901. -/
def doSETV (e : Env P M) : VM P M Unit := do
  let offs ← readOperand e
  let v ← pop
  let f ← curFrame
  stackSet (f.sp + offs.toInt) v

/-- `do_INS_GETG_`, lib_vm/thread.cpp:526-533. -/
def doGETG (e : Env P M) : VM P M Unit := do
  let i ← readOperand e
  let s ← get
  if i.toInt < 0 then raise .bad_get_global
  else match s.globals[i.toNat]? with
    | none => raise .bad_get_global
    | some v => push v

/-- `do_INS_SETG_`, lib_vm/thread.cpp:535-542. -/
def doSETG (e : Env P M) : VM P M Unit := do
  let i ← readOperand e
  let s ← get
  if i.toInt < 0 ∨ (s.globals.length : Int) ≤ i.toInt then raise .bad_set_global
  else
    let v ← pop
    modify fun s => { s with globals := s.globals.set i.toNat v }

/-- `do_INS_DEREF_`, lib_vm/thread.cpp:544-584 (without the handler call in front). -/
def derefCore (e : Env P M) (a i : P) : VM P M Unit := do
  match ← view e a with
  | .none => raise .bad_array_object
  | av =>
    match ← view e i with
    | .int index =>
      match av with
      | .arr n =>
        if index.toInt < 0 ∨ (n : Int) ≤ index.toInt then raise .bad_array_bounds
        else
          let s ← get
          push (← lift (e.mem.arrGet s.mem a index.toNat))
      | .str s =>
        if index.toInt < 0 then raise .bad_array_bounds
        else match s[index.toNat]? with
          | none => raise .bad_array_bounds
          | some c => pushInt e (c.setWidth 32)
      | _ => raise .bad_type_operation
    | _ => raise .bad_array_index

/-- `do_INS_DEREF_`, lib_vm/thread.cpp:544-584. -/
def doDEREF (e : Env P M) : VM P M Unit := do
  let a ← pop
  let i ← pop
  match e.handlers.onArrayGet with
  | some h => if (← h a i) then pure () else derefCore e a i
  | none => derefCore e a i

/-- `do_INS_SETA_`, lib_vm/thread.cpp:586-620 (without the handler call in front). -/
def setaCore (e : Env P M) (a i v : P) : VM P M Unit := do
  match ← view e a with
  | .arr n =>
    match ← view e i with
    | .int index =>
      if index.toInt < 0 ∨ (n : Int) ≤ index.toInt then raise .bad_array_bounds
      else
        let s ← get
        match ← view e v with
        | .arr _ =>
          let m ← lift (e.mem.arrSet s.mem a index.toNat v)
          modify fun s => { s with mem := m }
        | _ =>
          let (p, m) ← lift (copyVal e s.mem v)
          let m ← lift (e.mem.arrSet m a index.toNat p)
          modify fun s => { s with mem := m }
    | _ => raise .bad_array_index
  | _ => raise .bad_array_object

/-- `do_INS_SETA_`, lib_vm/thread.cpp:586-620. -/
def doSETA (e : Env P M) : VM P M Unit := do
  let a ← pop
  let i ← pop
  let v ← pop
  match e.handlers.onArraySet with
  | some h => if (← h a i v) then pure () else setaCore e a i v
  | none => setaCore e a i v

/-- The member name of GETM/SETM: `assert(strtab.size() > operand)` compares unsigned,
lib_vm/thread.cpp:630-632, 651-653. -/
def memberName (e : Env P M) (operand : I32) : VM P M Str :=
  if operand.toInt < 0 then fault .assert
  else match e.prog.strings[operand.toNat]? with
    | none => fault .assert
    | some s => pure s

/-- `do_INS_SETM_`, lib_vm/thread.cpp:622-642. -/
def doSETM (e : Env P M) : VM P M Unit := do
  let obj ← pop
  let expr ← pop
  let member ← memberName e (← readOperand e)
  match e.handlers.onMemberSet with
  | some h => if (← h obj expr member) then pure () else raise .bad_member_access
  | none => raise .bad_member_access

/-- Tail of `do_INS_GETM_`, lib_vm/thread.cpp:663-671. -/
def getmHandler (e : Env P M) (obj : P) (member : Str) : VM P M Unit := do
  match e.handlers.onMemberGet with
  | some h => if (← h obj member) then pure () else raise .bad_member_access
  | none => raise .bad_member_access

/-- `do_INS_GETM_`, lib_vm/thread.cpp:644-672. -/
def doGETM (e : Env P M) : VM P M Unit := do
  let obj ← pop
  let member ← memberName e (← readOperand e)
  match ← view e obj with
  | .arr n =>
    if member = str "length" then pushInt e (BitVec.ofNat 32 n) else getmHandler e obj member
  | _ => getmHandler e obj member

/-- Store the top `n` stack values into elements `n-1, ..., 0` of `a`,
lib_vm/thread.cpp:679-682. -/
def fillArray (e : Env P M) (a : P) : Nat → VM P M Unit
  | 0 => pure ()
  | n + 1 => do
    let v ← pop
    let s ← get
    let m ← lift (e.mem.arrSet s.mem a n v)
    modify fun s => { s with mem := m }
    fillArray e a n

/-- `do_INS_ARY_INIT_`, lib_vm/thread.cpp:674-684. -/
def doARY_INIT (e : Env P M) : VM P M Unit := do
  let n ← readOperand e
  if n.toInt ≤ 0 then fault .assert
  else
    let s ← get
    let (a, m) ← lift (e.mem.newArr s.mem n.toNat)
    modify fun s => { s with mem := m }
    fillArray e a n.toNat
    push a

/-- The dispatch of `step_imp_`, lib_vm/thread.cpp:737-780. -/
def exec (e : Env P M) : Option Op → VM P M Unit
  | some .ADD => doADD e | some .SUB => doSUB e | some .MUL => doMUL e | some .DIV => doDIV e
  | some .MOD => doMOD e | some .AND => doAND e | some .OR => doOR e | some .NOT => doNOT e
  | some .NEG => doNEG e | some .LT => doLT e | some .GT => doGT e | some .LEQ => doLEQ e
  | some .GEQ => doGEQ e | some .EQ => doEQ e | some .JMP => doJMP e | some .TJMP => doTJMP e
  | some .FJMP => doFJMP e | some .CALL => doCALL e | some .RET => doRET e
  | some .SCALL => doSCALL e | some .ICALL => doICALL e | some .POP => doPOP e
  | some .NEW_ARY => doNEW_ARY e | some .NEW_INT => doNEW_INT e | some .NEW_STR => doNEW_STR e
  | some .NEW_NONE => doNEW_NONE e | some .NEW_FLT => doNEW_FLT e
  | some .NEW_FUNC => doNEW_FUNC e | some .NEW_SCALL => doNEW_SCALL e
  | some .LOCALS => doLOCALS e | some .GLOBALS => doGLOBALS e | some .GETV => doGETV e
  | some .SETV => doSETV e | some .GETG => doGETG e | some .SETG => doSETG e
  | some .DEREF => doDEREF e | some .SETA => doSETA e | some .GETM => doGETM e
  | some .SETM => doSETM e | some .ARY_INIT => doARY_INIT e
  | none => raise .bad_opcode

/-- `get_source_line`, lib_vm/thread.cpp:854-856. -/
def sourceLine (e : Env P M) (t : Thread P) : Line := e.prog.lines.get (BitVec.ofInt 32 t.pc)

/-- The breakpoint check at the end of `step_imp_`, lib_vm/thread.cpp:782-792. -/
def checkBreak (e : Env P M) (t : Thread P) : Thread P :=
  if t.breakpoints.isEmpty then t
  else
    let l := sourceLine e t
    { t with
      halted := t.halted || (t.breakpoints.contains l && l != t.lastLine)
      lastLine := l }

/-- `step_imp_`, lib_vm/thread.cpp:733-795. -/
def stepImp (e : Env P M) : VM P M Unit := do
  let b ← readOpcode e
  exec e (Op.ofByte b)
  modTh (checkBreak e)
  modTh fun t => { t with cycles := t.cycles + 1 }

/-! ### Garbage collection hooks -/

/-- Cut the list `l` into pieces of the lengths of `shape`. -/
def splitLike {α : Type} : List (List α) → List α → List (List α)
  | [], _ => []
  | x :: xs, l => l.take x.length :: splitLike xs (l.drop x.length)

/-- Give each thread its stack back (stacks are traced bottom first). -/
def withStacks : List (Thread P) → List (List P) → List (Thread P)
  | t :: ts, s :: ss => { t with stack := s.reverse } :: withStacks ts ss
  | _, _ => []

/-- `vm_t::gc_collect`, lib_vm/vm.cpp:22-31: trace the globals, then the stack of every thread in
list order, then flip the spaces. -/
def gcCollect (e : Env P M) : VM P M Unit := fun s =>
  let stacks := (s.before ++ s.th :: s.after).map (fun t => t.stack.reverse)
  let shape := s.globals :: stacks
  match e.mem.collect s.mem shape.flatten with
  | .error f => .error f
  | .ok (roots, m) =>
    match splitLike shape roots with
    | [] => .error .ub
    | g :: ss =>
      let ts := withStacks (s.before ++ s.th :: s.after) ss
      match ts.drop s.before.length with
      | [] => .error .ub
      | th :: after =>
        .ok ((), { th := th, mem := m, globals := g,
                   before := ts.take s.before.length, after := after, io := s.io })

/-- `tick_gc_`, lib_vm/thread.cpp:858-863. -/
def tickGc (e : Env P M) : VM P M Unit := fun s =>
  if e.mem.shouldCollect s.mem then gcCollect e s else .ok ((), s)

/-! ### Running a thread -/

/-- Call a handler unless it is null. -/
def runHandler : Option (VM P M Bool) → VM P M Unit
  | some h => do
    let _ ← h
    pure ()
  | none => pure ()

/-- `on_thread_error` at the end of a failed thread, lib_vm/thread.cpp:875-879. -/
def errorHandler (e : Env P M) : VM P M Unit := do
  let t ← getTh
  if t.hasError then runHandler e.handlers.onThreadError else pure ()

/-- The end-of-thread handlers in `resume`, lib_vm/thread.cpp:875-882. -/
def finishHandlers (e : Env P M) : VM P M Unit := do
  errorHandler e
  runHandler e.handlers.onThreadFinish

/-- The loop of `resume`, lib_vm/thread.cpp:871-888, for `n` rounds.  The result tells whether the
loop was left by `break`. -/
def resumeLoop (e : Env P M) : Nat → VM P M Bool
  | 0 => pure false
  | n + 1 => do
    tickGc e
    stepImp e
    let t ← getTh
    if t.finished then
      finishHandlers e
      pure true
    else if t.halted then pure true
    else resumeLoop e n

/-- The loop for a given cycle count, lib_vm/thread.cpp:871.  A negative cycle count runs until the
counter overflows (undefined). -/
def runQuantum (e : Env P M) (cycles : I32) : VM P M Unit :=
  if 0 ≤ cycles.toInt then do
    let _ ← resumeLoop e cycles.toNat
    pure ()
  else do
    if (← resumeLoop e (cycles.toInt + 2147483649).toNat) then pure () else fault .ub

/-- `thread_t::resume`, lib_vm/thread.cpp:865-891. -/
def resume (e : Env P M) (cycles : I32) : VM P M Bool := do
  let t ← getTh
  if t.finished then pure false
  else
    modTh fun t => { t with halted := false }
    runQuantum e cycles
    let t ← getTh
    pure (!t.hasError)

/-- `thread_t::step_inst`, lib_vm/thread.cpp:827-834. -/
def stepInst (e : Env P M) : VM P M Bool := do
  let t ← getTh
  if t.finished then pure false
  else
    gcCollect e
    stepImp e
    let t ← getTh
    pure (!t.hasError)

/-- The loop of `step_line`, lib_vm/thread.cpp:843-850; `fuel` bounds the rounds. -/
def stepLineLoop (e : Env P M) (line : Line) : Nat → VM P M Unit
  | 0 => fault .diverge
  | n + 1 => do
    stepImp e
    let t ← getTh
    if t.finished then pure ()
    else
      assertThat (!t.frames.isEmpty)
      assertThat (!t.hasError)
      if line = sourceLine e t then stepLineLoop e line n else pure ()

/-- `thread_t::step_line`, lib_vm/thread.cpp:836-852. -/
def stepLine (e : Env P M) (fuel : Nat) : VM P M Bool := do
  let t ← getTh
  if t.finished then pure false
  else
    stepLineLoop e (sourceLine e t) fuel
    let t ← getTh
    pure (!t.hasError)

/-- `breakpoint_add`, lib_vm/thread.cpp:903-905. -/
def Thread.breakAdd (t : Thread P) (l : Line) : Thread P :=
  { t with breakpoints := if t.breakpoints.contains l then t.breakpoints else l :: t.breakpoints }

/-- `breakpoint_remove`, lib_vm/thread.cpp:907-912. -/
def Thread.breakRemove (t : Thread P) (l : Line) : Thread P :=
  { t with breakpoints := t.breakpoints.filter (fun x => x != l) }

/-- `breakpoint_clear`, lib_vm/thread.cpp:914-916. -/
def Thread.breakClear (t : Thread P) : Thread P := { t with breakpoints := [] }

/-- `get_return_value`, lib_vm/thread.h:53-55: the top of the stack of a finished thread, `nullptr`
otherwise; an empty stack fails the assertion in `peek`. -/
def Thread.returnValue (e : Env P M) (t : Thread P) : Out P :=
  if t.finished then
    match t.stack with
    | [] => .error .assert
    | v :: _ => .ok v
  else .ok e.mem.nil

/-! ### Creating threads -/

/-- Copy the arguments one after the other, lib_vm/thread.cpp:714-717; the result is in stack
order (last argument first). -/
def copyArgs (e : Env P M) : M → List P → List P → Out (List P × M)
  | m, acc, [] => .ok (acc, m)
  | m, acc, a :: as =>
    match copyVal e m a with
    | .error f => .error f
    | .ok (p, m) => copyArgs e m (p :: acc) as

/-- Constructor of `thread_t` with `reset`, lib_vm/thread.cpp:60-73, 686-692. -/
def Thread.fresh : Thread P where
  waits := 0
  lastLine := Line.unknown
  error := .success
  cycles := 0
  finished := false
  halted := false
  pc := 0
  frames := []
  stack := []
  breakpoints := []

/-- `thread_t::prepare` on a new thread, lib_vm/thread.cpp:694-731; `none` is `return false`. -/
def prepare (e : Env P M) (m : M) (f : Function) (args : List P) : Out (Option (Thread P × M)) :=
  if f.numArgs ≠ args.length then .ok none
  else
    match copyArgs e m [] args with
    | .error x => .error x
    | .ok (st, m) =>
      .ok (some ({ (Thread.fresh : Thread P) with
        stack := st
        pc := f.codeStart.toInt
        frames := [⟨st.length, f.codeStart.toInt, f.codeStart.toInt, true⟩] }, m))

/-- `vm_t::new_thread` as seen from a running thread, lib_vm/vm.cpp:79-90. -/
def spawn (e : Env P M) (f : Function) (args : List P) : VM P M Bool := fun s =>
  match prepare e s.mem f args with
  | .error x => .error x
  | .ok none => .ok (false, s)
  | .ok (some (t, m)) => .ok (true, { s with mem := m, before := t :: s.before })

/-! ### The virtual machine -/

/-- `vm_t` between calls, lib_vm/vm.h:113-127. -/
structure VmState (P M : Type) where
  mem : M
  globals : List P
  threads : List (Thread P)
  /-- not part of `vm_t`: what host functions read and write -/
  io : Io

/-- `vm_t::new_thread`, lib_vm/vm.cpp:79-90; the new thread is the head of the list. -/
def VmState.newThread (e : Env P M) (v : VmState P M) (f : Function) (args : List P) :
    Out (Bool × VmState P M) :=
  match prepare e v.mem f args with
  | .error x => .error x
  | .ok none => .ok (false, v)
  | .ok (some (t, m)) => .ok (true, { v with mem := m, threads := t :: v.threads })

/-- The loop of `vm_t::resume`, lib_vm/vm.cpp:92-117.  `before` are the list nodes already passed
(including threads pushed to the front meanwhile), `after` the nodes still to come; `fuel`
counts the latter. -/
def passLoop (e : Env P M) (cycles : I32) :
    Nat → M → List P → Io → List (Thread P) → List (Thread P) → Out (Bool × VmState P M)
  | _, m, g, io, before, [] => .ok (true, ⟨m, g, before, io⟩)
  | 0, _, _, _, _, _ :: _ => .error .diverge
  | n + 1, m, g, io, before, t :: after =>
    if t.waits ≠ 0 then
      match ret32 (t.waits.toInt - 1) with
      | .error f => .error f
      | .ok w => passLoop e cycles n m g io (before ++ [{ t with waits := w }]) after
    else if t.finished ∨ t.hasError then passLoop e cycles n m g io before after
    else
      match resume e cycles { th := t, mem := m, globals := g, before := before, after := after, io := io } with
      | .error f => .error f
      | .ok (ok, s) =>
        if ok then passLoop e cycles n s.mem s.globals s.io (s.before ++ [s.th]) s.after
        else if s.th.hasError then .ok (false, ⟨s.mem, s.globals, s.before ++ s.th :: s.after, s.io⟩)
        else .error .assert

/-- `vm_t::resume`, lib_vm/vm.cpp:92-117. -/
def VmState.resume (e : Env P M) (v : VmState P M) (cycles : I32) : Out (Bool × VmState P M) :=
  passLoop e cycles v.threads.length v.mem v.globals v.io [] v.threads

/-- `vm_t::finished`, lib_vm/vm.cpp:123-130. -/
def VmState.finished (v : VmState P M) : Bool := v.threads.all (·.finished)

/-- `vm_t::call_init`, lib_vm/vm.cpp:43-53. -/
def VmState.callInit (e : Env P M) (v : VmState P M) : Out (Bool × VmState P M) :=
  match e.prog.findByName (str "@init") with
  | none => .ok (false, v)
  | some f =>
    match v.newThread e f [] with
    | .error x => .error x
    | .ok (false, v) => .ok (false, v)
    | .ok (true, v) => v.resume e 8192

/-- The loop of `call_once`, lib_vm/vm.cpp:66-70; `fuel` bounds the rounds. -/
def callLoop (e : Env P M) : Nat → VM P M Unit
  | 0 => fault .diverge
  | n + 1 => do
    let t ← getTh
    if t.finished ∨ t.hasError then pure ()
    else if (← resume e 131072) then callLoop e n
    else pure ()

/-- Outcome of `call_once`: a return value or a thread error. -/
inductive CallResult (P : Type)
  | value (p : P)
  | error (e : TErr)
  deriving DecidableEq, Repr

/-- `vm_t::call_once`, lib_vm/vm.cpp:55-77.  With a wrong number of arguments `new_thread` returns
`nullptr`, which is then dereferenced. -/
def VmState.callOnce (e : Env P M) (fuel : Nat) (v : VmState P M) (f : Function)
    (args : List P) : Out (CallResult P × VmState P M) :=
  match v.newThread e f args with
  | .error x => .error x
  | .ok (false, _) => .error .ub
  | .ok (true, v) =>
    match v.threads with
    | [] => .error .ub
    | t :: rest =>
      match (do gcCollect e; callLoop e fuel : VM P M Unit)
          { th := t, mem := v.mem, globals := v.globals, before := [], after := rest, io := v.io } with
      | .error x => .error x
      | .ok (_, s) =>
        let v' : VmState P M := ⟨s.mem, s.globals, s.before ++ s.th :: s.after, s.io⟩
        if s.th.hasError then .ok (.error s.th.error, v')
        else match s.th.returnValue e with
          | .error x => .error x
          | .ok p => .ok (.value p, v')

end

end Ccml
