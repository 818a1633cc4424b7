import Verif.Build
import Verif.Builtins
import Verif.Host
import Verif.Source
/-!
The command line driver (driver/driver.cpp): load the files named on the command line, compile them,
run `main`, print what it returns.
-/
namespace Ccml

/-- What a run of the driver leaves behind. -/
structure Exit where
  /-- the status `main` returns or hands to `exit` -/
  status : Int
  /-- what was written to standard output (messages on standard error are not modelled) -/
  output : Str
  /-- the contents of `temp.bin` if it was written -/
  saved : Option (List Byte)
  deriving DecidableEq, Repr

/-- The host functions known to the compiler: the calls of `syscall_register`,
driver/driver.cpp:155-161, with a negative number of arguments for any number
(lib_compiler/nano.cpp:88-102). -/
def driverSys : List (Str × Option Nat) :=
  driverRegister.map fun s => (s.1, if s.2 < 0 then none else some s.2.toNat)

/-- The loop over the arguments, driver/driver.cpp:136-142: `none` is `return -2`. -/
def loadFiles (fs : Str → Option Str) : List Source → List Str → Option (List Source)
  | srcs, [] => some srcs
  | srcs, path :: paths =>
    match loadSource fs srcs path with
    | (true, srcs) => loadFiles fs srcs paths
    | (false, _) => none

/-- `print_result`, driver/driver.cpp:100-125.  For `none` the end of the line is written twice; for a
host function nothing is written between. -/
def printResult (fl : FloatOps) (v : View) : Str :=
  str "exit: " ++
  (match v with
    | .none => str "none\n"
    | .int v => decimal v
    | .str s => ch '"' :: (cstr s ++ [ch '"'])
    | .arr _ => str "array"
    | .float f => cstr (fl.fmt f)
    | .func _ => str "function"
    | .syscall _ => []) ++ [ch '\n']

section
variable {P M : Type}

/-- `main` behind the compiler, driver/driver.cpp:176-223.  `m0` is the memory of the new machine,
`mem` its memory manager; `fuel` bounds the number of calls of `resume` in `call_once`, which runs
for ever if `main` does not return.  That `temp.bin` cannot be opened is not modelled. -/
def driverRun (mem : MemOps P M) (m0 : M) (fl : FloatOps) (fuel : Nat) (prog : Program) (input : Str) :
    Out Exit :=
  let prog := driverResolve prog
  let saved := some (serialSave prog)
  match prog.findByName (str "main") with
  | none => .ok ⟨-4, [], saved⟩
  | some f =>
    let e := Env.std prog fl mem
    match VmState.callInit e ⟨m0, [], [], { input := input, output := [], seed := 12345 }⟩ with
    | .error x => .error x
    | .ok (false, v) => .ok ⟨-5, v.io.output, saved⟩
    | .ok (true, v) =>
      match v.callOnce e fuel f [] with
      | .error x => .error x
      | .ok (.error _, v) => .ok ⟨-6, v.io.output, saved⟩
      | .ok (.value p, v) =>
        match mem.view v.mem p with
        | .error x => .error x
        | .ok x => .ok ⟨0, v.io.output ++ printResult fl x, saved⟩

/-- `main`, driver/driver.cpp:128-224, with the files `paths` as arguments and `input` on standard
input.  `L` are the addresses of the syntax tree nodes, `n` bounds the number of source files.  Errors
of the compiler end in `exit(1)` (driver/driver.cpp:77-84). -/
def driverMain (mem : MemOps P M) (m0 : M) (fs : Str → Option Str) (fl : FloatOps) (L : Layout) (n fuel : Nat)
    (paths : List Str) (input : Str) : Out Exit :=
  match loadFiles fs [] paths with
  | none => .ok ⟨-2, [], none⟩
  | some [] => .ok ⟨-1, [], none⟩
  | some srcs =>
    match build fs fl L true driverSys n srcs with
    | .error (.fault f) => .error f
    | .error (.err _) => .ok ⟨1, [], none⟩
    | .ok none => .ok ⟨1, [], none⟩
    | .ok (some prog) => driverRun mem m0 fl fuel prog input

end
end Ccml
