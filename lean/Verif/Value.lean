import Verif.Basic
/-!
Values, the memory interface of the machine, thread errors, number formatting
(lib_vm/value.h, lib_vm/value.cpp, lib_vm/vm_gc.h, lib_vm/thread_error.h).
-/
namespace Ccml

/-- Bit pattern of a C `float`. -/
abbrev F32 := BitVec 32

/-- Single-precision arithmetic, `%f` formatting and libm, left abstract: every theorem holds
for any interpretation of these operations. -/
structure FloatOps where
  zero : F32
  add : F32 → F32 → F32
  sub : F32 → F32 → F32
  mul : F32 → F32 → F32
  div : F32 → F32 → F32
  neg : F32 → F32
  lt : F32 → F32 → Bool
  gt : F32 → F32 → Bool
  le : F32 → F32 → Bool
  ge : F32 → F32 → Bool
  eq : F32 → F32 → Bool
  /-- `float(int32_t)` -/
  ofInt : I32 → F32
  /-- `int32_t(float)`; `none` when the value is out of range (undefined in C++) -/
  toInt : F32 → Option I32
  /-- `snprintf("%f")` -/
  fmt : F32 → Str
  sin : F32 → F32
  cos : F32 → F32
  tan : F32 → F32
  round : F32 → F32
  floor : F32 → F32
  ceil : F32 → F32
  sqrt : F32 → F32

/-- `thread_error_t`, lib_vm/thread_error.h:7-29. -/
inductive TErr
  | success | max_cycle_count | bad_prepare | bad_getv | bad_setv | bad_num_args
  | bad_syscall | bad_opcode | bad_set_global | bad_get_global | bad_pop
  | bad_divide_by_zero | stack_overflow | stack_underflow | bad_globals_size
  | bad_array_bounds | bad_array_index | bad_array_object | bad_type_operation
  | bad_argument | bad_member_access
  deriving DecidableEq, Repr

/-- What the machine can read from a `value_t*`: its type (lib_vm/value.h:17-28) and payload.
For arrays only the length; elements are read one at a time through the memory interface.
Host-defined types (`val_type_user`) are not modelled. -/
inductive View
  | none
  | int (v : I32)
  | float (f : F32)
  | str (s : Str)
  | arr (n : Nat)
  | func (v : I32)
  | syscall (v : I32)
  deriving DecidableEq, Repr

/-- `value_t::as_bool`, lib_vm/value.h:114-126. -/
def View.asBool (fl : FloatOps) : View → Bool
  | .arr _ => true
  | .func _ => true
  | .syscall _ => true
  | .none => false
  | .str s => s.length != 0
  | .float f => !fl.eq f fl.zero
  | .int v => v != 0

/-- `is_number()` together with `as_float()`, lib_vm/value.h:47-50, 94-102. -/
def View.num? (fl : FloatOps) : View → Option F32
  | .int v => some (fl.ofInt v)
  | .float f => some f
  | _ => Option.none

/-- Decimal digits of `n`, most significant first; `fuel` bounds the number of digits. -/
def decDigits : Nat → Nat → Str
  | 0, _ => []
  | fuel + 1, n =>
    if n < 10 then [BitVec.ofNat 8 (48 + n)]
    else decDigits fuel (n / 10) ++ [BitVec.ofNat 8 (48 + n % 10)]

/-- `printf("%i")` of a 32-bit integer (at most ten digits and a sign). -/
def decimal (v : I32) : Str :=
  if v.toInt < 0 then ch '-' :: decDigits 10 v.toInt.natAbs else decDigits 10 v.toInt.natAbs

/-- The part of a C string before its terminating NUL. -/
def cstr (s : Str) : Str := s.takeWhile (fun b => b != 0)

/-- `to_string(buf, 16, val)`, lib_vm/thread.cpp:35-56, followed by `strlen(buf)`: `snprintf`
keeps at most 15 characters. -/
def View.toBuf (fl : FloatOps) : View → Out Str
  | .float f => .ok ((cstr (fl.fmt f)).take 15)
  | .int v => .ok ((decimal v).take 15)
  | .str s => .ok ((cstr s).take 15)
  | .none => .ok (Ccml.str "none")
  | .func v => .ok ((Ccml.str "function@" ++ decimal v).take 15)
  | .arr _ => .error .assert
  | .syscall _ => .error .assert

/-- What the machine needs from the memory manager `value_gc_t` (lib_vm/vm_gc.h:68-149).  `P` is
the type of `value_t*`, `M` the state of the two spaces.  The machine is written once over this
interface; `Mem.abs` (AbsMem.lean) is a mathematical store and `Mem.gc` (Gc.lean) the two-space
collector of the code. -/
structure MemOps (P M : Type) where
  /-- `nullptr`, the representation of `none` (`new_none`, lib_vm/vm_gc.cpp:58-60) -/
  nil : P
  /-- reading type and payload through the pointer -/
  view : M → P → Out View
  /-- `a->array()[i]` -/
  arrGet : M → P → Nat → Out P
  /-- `a->array()[i] = v` -/
  arrSet : M → P → Nat → P → Out M
  newInt : M → I32 → Out (P × M)
  newFloat : M → F32 → Out (P × M)
  newStr : M → Str → Out (P × M)
  /-- `new_array(n)`: `n` elements, all `none` -/
  newArr : M → Nat → Out (P × M)
  newFunc : M → I32 → Out (P × M)
  newSyscall : M → I32 → Out (P × M)
  shouldCollect : M → Bool
  /-- `trace` over the given roots followed by `collect`; the roots are updated in place -/
  collect : M → List P → Out (List P × M)

/-- `is_number()` with `as_int()`, lib_vm/value.h:47-50, 104-112. -/
def View.int? (fl : FloatOps) : View → Option (Out I32)
  | .int v => some (.ok v)
  | .float f => some (match fl.toInt f with
    | some v => .ok v
    | Option.none => .error .ub)
  | _ => Option.none

end Ccml
