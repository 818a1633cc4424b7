import Verif.Machine
import Verif.Source
import Verif.Driver
/-!
The report of a run time error: lib_vm/thread_error.cpp and `on_runtime_error` of the command line
driver.  Neither driver calls it: the calls are commented out (driver/driver.cpp:209-217,
driver_sdl/driver.cpp:408-421).
-/
namespace Ccml

/-- `int32_t(err)`: the position in the enumeration, lib_vm/thread_error.h:7-29. -/
def TErr.number : TErr → Nat
  | .success => 0 | .max_cycle_count => 1 | .bad_prepare => 2 | .bad_getv => 3 | .bad_setv => 4
  | .bad_num_args => 5 | .bad_syscall => 6 | .bad_opcode => 7 | .bad_set_global => 8 | .bad_get_global => 9
  | .bad_pop => 10 | .bad_divide_by_zero => 11 | .stack_overflow => 12 | .stack_underflow => 13
  | .bad_globals_size => 14 | .bad_array_bounds => 15 | .bad_array_index => 16 | .bad_array_object => 17
  | .bad_type_operation => 18 | .bad_argument => 19 | .bad_member_access => 20

/-- `get_thread_error`, lib_vm/thread_error.cpp:6-32. -/
def threadErrorName : TErr → Out Str
  | .success => .ok (str "e_success")
  | .max_cycle_count => .ok (str "e_max_cycle_count")
  | .bad_getv => .ok (str "e_bad_getv")
  | .bad_setv => .ok (str "e_bad_setv")
  | .bad_num_args => .ok (str "e_bad_num_args")
  | .bad_syscall => .ok (str "e_bad_syscall")
  | .bad_opcode => .ok (str "e_bad_opcode")
  | .bad_set_global => .ok (str "e_bad_set_global")
  | .bad_get_global => .ok (str "e_bad_get_global")
  | .bad_pop => .ok (str "e_bad_pop")
  | .bad_divide_by_zero => .ok (str "e_bad_divide_by_zero")
  | .stack_overflow => .ok (str "e_stack_overflow")
  | .stack_underflow => .ok (str "e_stack_underflow")
  | .bad_globals_size => .ok (str "e_bad_globals_size")
  | .bad_array_bounds => .ok (str "e_bad_array_bounds")
  | .bad_type_operation => .ok (str "e_bad_type_operation")
  | .bad_argument => .ok (str "e_bad_argument")
  | .bad_array_index => .ok (str "e_bad_array_index")
  | .bad_member_access => .ok (str "e_bad_member_access")
  | .bad_prepare | .bad_array_object => .error .assert

variable {P M : Type}

/-- `on_runtime_error`, driver/driver.cpp:86-98: what is written to standard output and to standard
error.  The second part of `%s` output ends at a NUL. -/
def onRuntimeError (e : Env P M) (t : Thread P) (sources : List Source) : Out (Str × Str) :=
  if t.error = .success then .ok ([], [])
  else
    let line := sourceLine e t
    match threadErrorName t.error with
    | .error f => .error f
    | .ok name =>
      match managerLine sources line with
      | .error f => .error f
      | .ok s =>
        .ok (str "runtime error " ++ decimal (BitVec.ofNat 32 t.error.number) ++ str "\nsource line " ++
          decimal line.line ++ [ch '\n'] ++ cstr s ++ [ch '\n'], name ++ [ch '\n'])

end Ccml
