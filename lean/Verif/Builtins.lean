import Verif.Machine
/-!
The built-in functions (lib_builtins/builtin.cpp) and the host functions of the command line driver
(driver/driver.cpp).
-/
namespace Ccml

/-- The host functions of lib_builtins/builtin.cpp:14-244. -/
inductive Builtin
  | abs | min | max | bitand | sin | cos | tan | len | chr | round | ceil | floor | sqrt
  | new_thread | wait | new_array
  deriving DecidableEq, Repr

/-- In the order of registration. -/
def Builtin.all : List Builtin :=
  [.abs, .min, .max, .bitand, .sin, .cos, .tan, .len, .chr, .round, .ceil, .floor, .sqrt,
   .new_thread, .wait, .new_array]

/-- `builtins_register`, lib_builtins/builtin.cpp:246-271: names and argument counts made known to
the compiler (-1: any number). -/
def builtinsRegister : List (Str × Int) :=
  [(str "abs", 1), (str "min", 2), (str "max", 2), (str "bitand", 2), (str "sin", 1),
   (str "cos", 1), (str "tan", 1), (str "len", 1), (str "chr", 1), (str "round", 1),
   (str "ceil", 1), (str "floor", 1), (str "sqrt", 1), (str "new_thread", -1), (str "wait", 1),
   (str "new_array", 1)]

/-- The name table of `builtins_resolve`, lib_builtins/builtin.cpp:275-298. -/
def builtinsMap : List (Str × Builtin) :=
  [(str "abs", .abs), (str "min", .min), (str "max", .max), (str "bitand", .bitand),
   (str "sin", .sin), (str "cos", .cos), (str "tan", .tan), (str "len", .len), (str "chr", .chr),
   (str "round", .round), (str "ceil", .ceil), (str "floor", .floor), (str "sqrt", .sqrt),
   (str "new_thread", .new_thread), (str "wait", .wait), (str "new_array", .new_array)]

/-- Address of a built-in (any injective choice would do). -/
def Builtin.ptr (b : Builtin) : FnPtr := Builtin.all.idxOf b

/-- The function behind an address. -/
def Builtin.ofPtr (p : FnPtr) : Option Builtin := Builtin.all[p]?

/-- `builtins_resolve`, lib_builtins/builtin.cpp:300-305. -/
def builtinsResolve (p : Program) : Program :=
  { p with syscalls := p.syscalls.map fun s =>
      match builtinsMap.lookup s.name with
      | some b => { s with call := some b.ptr }
      | none => s }

section
variable {P M : Type}

/-- `builtin_abs`, lib_builtins/builtin.cpp:14-29. -/
def builtinAbs (e : Env P M) : VM P M Unit := do
  let v ← pop
  match ← view e v with
  | .int x => pushInt e (← lift (if x.toInt < 0 then ret32 (-x.toInt) else .ok x))
  | .float f => pushFloat e (if e.fl.lt f e.fl.zero then e.fl.neg f else f)
  | _ => raise .bad_argument

/-- Shape of `builtin_max` and `builtin_min`, lib_builtins/builtin.cpp:31-55. -/
def builtinPick (e : Env P M) (better : F32 → F32 → Bool) : VM P M Unit := do
  let a ← pop
  let b ← pop
  let av ← view e a
  let bv ← view e b
  match av.num? e.fl, bv.num? e.fl with
  | some af, some bf => pushFloat e (if better af bf then af else bf)
  | _, _ => raise .bad_argument

/-- `builtin_bitand`, lib_builtins/builtin.cpp:57-68. -/
def builtinBitand (e : Env P M) : VM P M Unit := do
  let a ← pop
  let b ← pop
  let av ← view e a
  let bv ← view e b
  match av, bv with
  | .int x, .int y => pushInt e (x &&& y)
  | _, _ => raise .bad_argument

/-- `builtin_len`, lib_builtins/builtin.cpp:70-86. -/
def builtinLen (e : Env P M) : VM P M Unit := do
  let a ← pop
  match ← view e a with
  | .arr n => pushInt e (BitVec.ofNat 32 n)
  | .str s => pushInt e (BitVec.ofNat 32 s.length)
  | _ => raise .bad_argument

/-- `builtin_chr`, lib_builtins/builtin.cpp:88-97: `char x[2] = {char(v), 0}` as a string. -/
def builtinChr (e : Env P M) : VM P M Unit := do
  let v ← pop
  match ← view e v with
  | .int x => pushStr e (cstr [x.setWidth 8])
  | _ => raise .bad_argument

/-- Shape of `builtin_sin` ... `builtin_sqrt`, lib_builtins/builtin.cpp:99-174. -/
def builtinMath (e : Env P M) (f : F32 → F32) : VM P M Unit := do
  let v ← pop
  match (← view e v).num? e.fl with
  | some x => pushFloat e (f x)
  | none => raise .bad_argument

/-- Pop `n` values; the first popped becomes the last of the list,
lib_builtins/builtin.cpp:183-187. -/
def popArgs : Nat → List P → VM P M (List P)
  | 0, acc => pure acc
  | n + 1, acc => do
    let v ← pop
    popArgs n (v :: acc)

/-- `builtin_new_thread`, lib_builtins/builtin.cpp:176-212.  The comparison
`args_.size() + 1 != nargs` is unsigned; `nargs` is positive here. -/
def builtinNewThread (e : Env P M) (nargs : I32) : VM P M Unit :=
  if nargs.toInt ≤ 0 then raise .bad_argument
  else do
    let args ← popArgs (nargs.toNat - 1) []
    let v ← pop
    match ← view e v with
    | .func addr =>
      match e.prog.findByPc addr with
      | none => raise .bad_argument
      | some f =>
        if f.numArgs + 1 ≠ nargs.toNat then raise .bad_argument
        else
          let _ ← spawn e f args
          pushInt e 0
    | _ => raise .bad_argument

/-- `builtin_wait`, lib_builtins/builtin.cpp:214-227. -/
def builtinWait (e : Env P M) : VM P M Unit := do
  let v ← pop
  match (← view e v).int? e.fl with
  | some o =>
    let w ← lift o
    modTh fun t => { t with waits := w }
    pushInt e 0
    if w.toInt > 0 then modTh fun t => { t with halted := true } else pure ()
  | none => raise .bad_argument

/-- `builtin_new_array`, lib_builtins/builtin.cpp:229-244. -/
def builtinNewArray (e : Env P M) : VM P M Unit := do
  let v ← pop
  match (← view e v).int? e.fl with
  | some o =>
    let w ← lift o
    if w.toInt ≤ 0 then raise .bad_argument
    else pushNew (e.mem.newArr · w.toNat)
  | none => raise .bad_argument

/-- The code behind each name. -/
def Builtin.run (e : Env P M) : Builtin → I32 → VM P M Unit
  | .abs, _ => builtinAbs e
  | .min, _ => builtinPick e e.fl.lt
  | .max, _ => builtinPick e e.fl.gt
  | .bitand, _ => builtinBitand e
  | .sin, _ => builtinMath e e.fl.sin
  | .cos, _ => builtinMath e e.fl.cos
  | .tan, _ => builtinMath e e.fl.tan
  | .len, _ => builtinLen e
  | .chr, _ => builtinChr e
  | .round, _ => builtinMath e e.fl.round
  | .ceil, _ => builtinMath e e.fl.ceil
  | .floor, _ => builtinMath e e.fl.floor
  | .sqrt, _ => builtinMath e e.fl.sqrt
  | .new_thread, n => builtinNewThread e n
  | .wait, _ => builtinWait e
  | .new_array, _ => builtinNewArray e

/-! ### The functions of the command line driver, driver/driver.cpp:16-75 -/

/-- Change what host functions read and write. -/
def modIo (f : Io → Io) : VM P M Unit := fun s => .ok ((), { s with io := f s.io })

/-- Read it. -/
def getIo : VM P M Io := fun s => .ok (s.io, s)

/-- `vm_rand`, driver/driver.cpp:26-31. -/
def hostRand (e : Env P M) : VM P M Unit := do
  let io ← getIo
  modIo fun io => { io with seed := xorshift32 io.seed }
  pushInt e (xorshift32 io.seed &&& 0x7fffff)

/-- `vm_getc`, driver/driver.cpp:33-37: the next character, or -1 (`EOF`) if there is none. -/
def hostGetc (e : Env P M) : VM P M Unit := do
  let io ← getIo
  match io.input with
  | [] => pushInt e (-1)
  | c :: cs =>
    modIo fun io => { io with input := cs }
    pushInt e (c.setWidth 32)

/-- `vm_putc`, driver/driver.cpp:39-50.  `assert(v)`: `none` is the null pointer.  `putchar` writes its
argument as an `unsigned char`.  The 0 is also pushed behind a value of another type. -/
def hostPutc (e : Env P M) : VM P M Unit := do
  let v ← pop
  match ← view e v with
  | .none => fault .assert
  | .int x =>
    modIo fun io => { io with output := io.output ++ [x.setWidth 8] }
    pushInt e 0
  | _ =>
    raise .bad_argument
    pushInt e 0

/-- The characters `fgets` reads into a buffer of `n + 1`: up to `n`, up to and with a newline. -/
def fgets : Nat → Str → Str × Str
  | 0, s => ([], s)
  | _, [] => ([], [])
  | n + 1, c :: s => if c = ch '\n' then ([c], s) else ((c :: (fgets n s).1), (fgets n s).2)

/-- `vm_gets`, driver/driver.cpp:52-61.  At the end of the input `fgets` leaves the buffer as it is, and
it has not been initialised.  The bytes of the buffer behind the terminator are compared with the
newline and written back, also not initialised; this has no effect and is not an outcome. -/
def hostGets (e : Env P M) : VM P M Unit := do
  let io ← getIo
  match io.input with
  | [] => fault .ub
  | _ :: _ =>
    modIo fun io => { io with input := (fgets 79 io.input).2 }
    pushStr e (cstr ((fgets 79 io.input).1.map fun c => if c = ch '\n' then 0 else c))

/-- `vm_puts`, driver/driver.cpp:63-75, also bound to the name `print`.  `%s` writes up to the first
NUL, of which strings of the machine have none but the last. -/
def hostPuts (e : Env P M) : VM P M Unit := do
  let v ← pop
  match ← view e v with
  | .none => fault .assert
  | .str s =>
    modIo fun io => { io with output := io.output ++ (s ++ [ch '\n']) }
    pushInt e 0
  | _ =>
    raise .bad_argument
    pushInt e 0

/-! ### The functions of the graphical driver, driver_sdl/driver.cpp:34-301 -/

/-- Pop and read `n` arguments; the one popped first is the last of the list. -/
def popViews (e : Env P M) : Nat → List View → VM P M (List View)
  | 0, acc => pure acc
  | n + 1, acc => do
    let v ← pop
    let x ← view e v
    popViews e n (x :: acc)

/-- `thread_t::halt`, lib_vm/thread.h:89-92. -/
def haltTh : VM P M Unit := modTh fun t => { t with halted := true }

/-- The functions of the graphical driver, driver_sdl/driver.cpp:34-301: all arguments are popped first, and
none of them is read behind an allocation.  What is read from SDL is the next answer of `outside`. -/
def hostSdl (e : Env P M) (fn : Sdl.Fn) : VM P M Unit := do
  let xs ← popViews e fn.arity []
  let io ← getIo
  let (d, r) ← lift (fn.call e.fl (io.outside io.asked) xs { io.sdl with halted := false })
  modIo fun io => { io with sdl := { d with halted := false }, asked := io.asked + 1 }
  (if d.halted then haltTh else pure ())
  match r with
  | .none => push e.mem.nil
  | .int v => pushInt e v

/-- The functions of driver/driver.cpp and driver_sdl/driver.cpp. -/
inductive HostFn
  | putc | getc | puts | gets | rand
  | sdl (fn : Sdl.Fn)
  deriving DecidableEq, Repr

/-- In the order of registration. -/
def HostFn.all : List HostFn := [.putc, .getc, .puts, .gets, .rand] ++ Sdl.Fn.all.map .sdl

/-- The code behind each name. -/
def HostFn.run (e : Env P M) : HostFn → VM P M Unit
  | .putc => hostPutc e
  | .getc => hostGetc e
  | .puts => hostPuts e
  | .gets => hostGets e
  | .rand => hostRand e
  | .sdl fn => hostSdl e fn

/-- Address of a function of the driver (behind those of the built-ins). -/
def HostFn.ptr (b : HostFn) : FnPtr := Builtin.all.length + HostFn.all.idxOf b

/-- The function behind an address. -/
def HostFn.ofPtr (p : FnPtr) : Option HostFn :=
  if p < Builtin.all.length then none else HostFn.all[p - Builtin.all.length]?

/-- The calls of `syscall_register` in `main`, driver/driver.cpp:155-161. -/
def driverRegister : List (Str × Int) :=
  builtinsRegister ++ [(str "putc", 1), (str "getc", 0), (str "puts", 1), (str "gets", 0), (str "rand", 0),
    (str "print", 1)]

/-- The calls of `syscall_resolve` in `main`, driver/driver.cpp:176-181. -/
def driverMap : List (Str × HostFn) :=
  [(str "putc", .putc), (str "getc", .getc), (str "puts", .puts), (str "gets", .gets), (str "rand", .rand),
   (str "print", .puts)]

/-- The binding of host functions in the `main` of both drivers, driver/driver.cpp:176-183 and
driver_sdl/driver.cpp:357-367; `names` are the functions of the driver itself.  The names of the two
groups are different, so the order does not matter. -/
def resolveWith (names : List (Str × HostFn)) (p : Program) : Program :=
  builtinsResolve { p with syscalls := p.syscalls.map fun s =>
      (match names.lookup s.name with
      | some b => { s with call := some b.ptr }
      | none => s) }

/-- The binding of host functions in `main`, driver/driver.cpp:176-183. -/
abbrev driverResolve (p : Program) : Program := resolveWith driverMap p

/-- Calling an address that holds no function is undefined. -/
def nativeBuiltins (e : Env P M) (p : FnPtr) (n : I32) : VM P M Unit :=
  match Builtin.ofPtr p with
  | some b => b.run e n
  | none =>
    match HostFn.ofPtr p with
    | some b => b.run e
    | none => fault .ub

/-- A machine without host handlers whose host functions are the built-ins and those of the command
line driver. -/
def Env.std (prog : Program) (fl : FloatOps) (mem : MemOps P M) : Env P M :=
  { prog := prog, fl := fl, mem := mem, handlers := {},
    native := nativeBuiltins
      { prog := prog, fl := fl, mem := mem, handlers := {}, native := fun _ _ => fault .ub } }

end

end Ccml
