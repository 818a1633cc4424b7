import Verif.Driver
/-!
The graphical driver (driver_sdl/driver.cpp): load and compile the files named on the command line, run
`main` as a thread between the events of the window.
-/
namespace Ccml

/-- The calls of `syscall_register` in `main`, driver_sdl/driver.cpp:339-348. -/
def sdlRegister : List (Str × Int) :=
  builtinsRegister ++ [(str "cls", 0), (str "rand", 0), (str "video", 2), (str "plot", 2), (str "flip", 0),
    (str "setrgb", 3), (str "circle", 3), (str "line", 4), (str "sleep", 1), (str "keydown", 1)]

/-- The calls of `syscall_resolve` in `main`, driver_sdl/driver.cpp:358-367. -/
def sdlMap : List (Str × HostFn) :=
  [(str "cls", .sdl .cls), (str "rand", .sdl .rand), (str "video", .sdl .video), (str "plot", .sdl .plot),
   (str "flip", .sdl .flip), (str "setrgb", .sdl .setrgb), (str "circle", .sdl .circle), (str "line", .sdl .line),
   (str "sleep", .sdl .sleep), (str "keydown", .sdl .keydown)]

/-- The host functions known to the compiler, driver_sdl/driver.cpp:338-348, with a negative number of
arguments for any number (lib_compiler/nano.cpp:88-102). -/
def sdlSys : List (Str × Option Nat) :=
  sdlRegister.map fun s => (s.1, if s.2 < 0 then none else some s.2.toNat)

/-- The binding of host functions in `main`, driver_sdl/driver.cpp:357-367. -/
abbrev sdlResolve (p : Program) : Program := resolveWith sdlMap p

/-- What one round of the main loop gets from SDL. -/
structure SdlRound where
  /-- `SDL_GetTicks` -/
  ticks : BitVec 32
  /-- whether there is a quit event among those polled in the round -/
  quit : Bool
  deriving DecidableEq, Repr

/-- How the main loop is left. -/
inductive SdlEnd
  /-- a quit event -/
  | quit
  /-- `vm_t::resume` reports that a thread has failed -/
  | failed
  deriving DecidableEq, Repr

section
variable {P M : Type}

/-- The main loop, driver_sdl/driver.cpp:386-406, for the rounds given; `none` if it is still running.
`SDL_Delay` only takes time and is not modelled. -/
def sdlLoop (e : Env P M) : List SdlRound → VmState P M → Out (Option SdlEnd × VmState P M)
  | [], v => .ok (none, v)
  | r :: rs, v =>
    match (if v.io.sdl.tickMark < r.ticks then v.resume e 1024 else .ok (true, v)) with
    | .error f => .error f
    | .ok (false, v) => .ok (some .failed, v)
    | .ok (true, v) => if r.quit then .ok (some .quit, v) else sdlLoop e rs v

/-- `vm_t::has_error`, lib_vm/vm.cpp:119-121. -/
def VmState.hasError (_ : VmState P M) : Bool := false

/-- `main` behind the compiler, driver_sdl/driver.cpp:357-428; `none` if the loop is still running after
the rounds given.  `io` has the answers of SDL to the calls of the program.  A failure of `call_init`
is only reported on standard error. -/
def sdlRun (mem : MemOps P M) (m0 : M) (fl : FloatOps) (io : Io) (rounds : List SdlRound) (prog : Program) :
    Out (Option Exit) :=
  let prog := sdlResolve prog
  match prog.findByName (str "main") with
  | none => .ok (some ⟨1, [], none⟩)
  | some f =>
    let e := Env.std prog fl mem
    match VmState.callInit e ⟨m0, [], [], io⟩ with
    | .error x => .error x
    | .ok (_, v) =>
      match v.newThread e f [] with
      | .error x => .error x
      | .ok (false, v) => .ok (some ⟨1, v.io.output, none⟩)
      | .ok (true, v) =>
        match sdlLoop e rounds v with
        | .error x => .error x
        | .ok (none, _) => .ok none
        | .ok (some _, v) =>
          if v.hasError then .ok (some ⟨1, v.io.output, none⟩)
          else .ok (some ⟨0, v.io.output ++ str "exit: 0\n", none⟩)

/-- What the program finds when it starts: nothing read or written, the answers of SDL in the order of
the calls (`global`, `tick_mark` and the seed as they are initialised, driver_sdl/driver.cpp:16-26). -/
def sdlIo (outside : Nat → Sdl.Outside) : Io := { Io.fresh with outside := outside }

/-- `main`, driver_sdl/driver.cpp:313-428, with the files `paths` as arguments.  `started` tells whether
`SDL_Init` works.  Errors of the compiler end in `exit(1)` (driver_sdl/driver.cpp:303-310, 351-354). -/
def sdlMain (mem : MemOps P M) (m0 : M) (fs : Str → Option Str) (fl : FloatOps) (L : Layout) (n : Nat)
    (started : Bool) (outside : Nat → Sdl.Outside) (rounds : List SdlRound) (paths : List Str) : Out (Option Exit) :=
  if started then
    match loadFiles fs [] paths with
    | none => .ok (some ⟨-2, [], none⟩)
    | some [] => .ok (some ⟨-1, [], none⟩)
    | some srcs =>
      match build fs fl L true sdlSys n srcs with
      | .error (.fault f) => .error f
      | .error (.err _) => .ok (some ⟨1, [], none⟩)
      | .ok none => .ok (some ⟨1, [], none⟩)
      | .ok (some prog) => sdlRun mem m0 fl (sdlIo outside) rounds prog
  else .ok (some ⟨1, [], none⟩)

end
end Ccml
