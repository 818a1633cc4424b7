import Verif.Builtins
/-!
The machine as its host sees it: a sequence of calls to the public functions of `vm_t` and
`thread_t`, and what can be observed of the machine in between.
-/
namespace Ccml
section
variable {P M : Type}

/-- A value made by the host: `new_none`, `new_int`, `new_string`, `new_func`, `new_syscall` and
`new_float` of `value_gc_t`, lib_vm/vm_gc.cpp:9-76. -/
def hostValue (e : Env P M) (m : M) : View → Out (P × M)
  | .none => .ok (e.mem.nil, m)
  | .int v => e.mem.newInt m v
  | .float v => e.mem.newFloat m v
  | .str s => e.mem.newStr m s
  | .func v => e.mem.newFunc m v
  | .syscall v => e.mem.newSyscall m v
  | .arr _ => .error .assert

/-- Several values made by the host, one after the other. -/
def hostValues (e : Env P M) : M → List View → Out (List P × M)
  | m, [] => .ok ([], m)
  | m, x :: xs =>
    match hostValue e m x with
    | .error f => .error f
    | .ok (p, m) =>
      match hostValues e m xs with
      | .error f => .error f
      | .ok (ps, m) => .ok (p :: ps, m)

/-- Instructions of one thread with a collection in front of those marked `true`.  The machine
itself collects when its heap asks for it (`tick_gc_`, lib_vm/thread.cpp:858-863) or before every
instruction (`step_inst`, lib_vm/thread.cpp:827-834); this is the arbitrary schedule. -/
def runSched (e : Env P M) : List Bool → VM P M Unit
  | [] => pure ()
  | c :: cs => do
    if c then gcCollect e else pure ()
    stepImp e
    let t ← getTh
    if t.finished then pure () else runSched e cs

/-- One call of the host. -/
inductive HostOp
  /-- `vm_t::call_init`, lib_vm/vm.cpp:43-53 -/
  | init
  /-- `vm_t::new_thread`, lib_vm/vm.cpp:79-90 -/
  | spawn (f : Function) (args : List View)
  /-- `vm_t::resume`, lib_vm/vm.cpp:92-117 -/
  | resume (cycles : I32)
  /-- `vm_t::call_once`, lib_vm/vm.cpp:55-77 -/
  | call (f : Function) (args : List View) (fuel : Nat)
  /-- `thread_t::step_inst` on the k-th thread, lib_vm/thread.cpp:827-834 -/
  | stepInst (k : Nat)
  /-- `thread_t::step_line` on the k-th thread, lib_vm/thread.cpp:836-852 -/
  | stepLine (k : Nat) (fuel : Nat)
  /-- instructions of the k-th thread with collections in between -/
  | steps (k : Nat) (sched : List Bool)
  /-- `thread_t::breakpoint_add` on the k-th thread, lib_vm/thread.cpp:903-905 -/
  | breakAdd (k : Nat) (l : Line)
  /-- `thread_t::breakpoint_remove` on the k-th thread, lib_vm/thread.cpp:907-912 -/
  | breakRemove (k : Nat) (l : Line)

/-- A value seen from outside: what is found at the end of a path of array indices. -/
abbrev Seen := List Nat → Out View

/-- Look at a value: follow array elements, then read. -/
def peek (mem : MemOps P M) (m : M) : P → List Nat → Out View
  | p, [] => mem.view m p
  | p, i :: path =>
    match mem.arrGet m p i with
    | .error f => .error f
    | .ok q => peek mem m q path

/-- What a call of the host gives back. -/
inductive HostOut
  | flag (b : Bool)
  | returned (r : CallResult Seen)
  | done

/-- A thread seen from outside: every field, the values on its stack looked at. -/
def Thread.seen {β : Type} (f : P → β) (t : Thread P) : Thread β :=
  { waits := t.waits, lastLine := t.lastLine, error := t.error, cycles := t.cycles,
    finished := t.finished, halted := t.halted, pc := t.pc, frames := t.frames,
    stack := t.stack.map f, breakpoints := t.breakpoints }

/-- The machine seen from outside: the globals, all threads, and what host functions have read and
written. -/
def VmState.seen (mem : MemOps P M) (v : VmState P M) : List Seen × List (Thread Seen) × Io :=
  (v.globals.map (peek mem v.mem), v.threads.map (Thread.seen (peek mem v.mem)), v.io)

/-- Run `x` with the k-th thread as the executing one. -/
def onThread {α : Type} (v : VmState P M) (k : Nat) (x : VM P M α) : Out (α × VmState P M) :=
  match v.threads.drop k with
  | [] => .error .ub
  | t :: after =>
    match x { th := t, mem := v.mem, globals := v.globals, before := v.threads.take k,
              after := after, io := v.io } with
    | .error f => .error f
    | .ok (a, s) => .ok (a, ⟨s.mem, s.globals, s.before ++ s.th :: s.after, s.io⟩)

/-- Effect and result of one call of the host. -/
def hostStep (e : Env P M) (v : VmState P M) : HostOp → Out (HostOut × VmState P M)
  | .init => do
    let (b, v) ← v.callInit e
    pure (.flag b, v)
  | .spawn f args => do
    let (ps, m) ← hostValues e v.mem args
    let (b, v) ← VmState.newThread e { v with mem := m } f ps
    pure (.flag b, v)
  | .resume n => do
    let (b, v) ← v.resume e n
    pure (.flag b, v)
  | .call f args fuel => do
    let (ps, m) ← hostValues e v.mem args
    let (r, v) ← VmState.callOnce e fuel { v with mem := m } f ps
    pure (.returned (match r with
      | .value p => .value (peek e.mem v.mem p)
      | .error x => .error x), v)
  | .stepInst k => do
    let (b, v) ← onThread v k (stepInst e)
    pure (.flag b, v)
  | .stepLine k fuel => do
    let (b, v) ← onThread v k (stepLine e fuel)
    pure (.flag b, v)
  | .steps k sched => do
    let (_, v) ← onThread v k (runSched e sched)
    pure (.done, v)
  | .breakAdd k l => do
    let (_, v) ← onThread v k (modTh fun t => t.breakAdd l)
    pure (.done, v)
  | .breakRemove k l => do
    let (_, v) ← onThread v k (modTh fun t => t.breakRemove l)
    pure (.done, v)

/-- A sequence of calls: the results up to an abnormal end, and the final state. -/
def session (e : Env P M) : VmState P M → List HostOp → List HostOut × Out (VmState P M)
  | v, [] => ([], .ok v)
  | v, op :: ops =>
    match hostStep e v op with
    | .error f => ([], .error f)
    | .ok (o, v) => let (os, r) := session e v ops; (o :: os, r)

end
end Ccml
