/-!
Shared vocabulary of the model: bytes, machine integers, strings, faults.
-/
namespace Ccml

/-- `uint8_t` / `char`. -/
abbrev Byte := BitVec 8

/-- `int32_t` (read with `BitVec.toInt`) and `uint32_t` (read with `BitVec.toNat`). -/
abbrev I32 := BitVec 32

/-- `std::string` and source text: a sequence of bytes. -/
abbrev Str := List Byte

/-- Character literal of the C++ text. -/
def ch (c : Char) : Byte := BitVec.ofNat 8 c.toNat

/-- String literal of the C++ text. -/
def str (s : String) : Str := s.toList.map ch

/-- Abnormal ends of a C++ execution. -/
inductive Fault
  /-- a failed `assert` -/
  | assert
  /-- undefined behaviour: null dereference, out-of-bounds access, signed overflow, ... -/
  | ub
  /-- an uncaught C++ exception of the standard library (`std::length_error`, ...) -/
  | exn
  /-- unbounded recursion or loop (the model ran out of any fuel it was given) -/
  | diverge
  /-- the garbage-collected heap is full: the code fails an `assert` on the allocated pointer or
  uses it although it is null -/
  | oom
  deriving DecidableEq, Repr

/-- Result of a computation that may end abnormally. -/
abbrev Out (α : Type) := Except Fault α

deriving instance DecidableEq for Except

/-- The range of `int32_t`. -/
def fits32 (x : Int) : Bool := decide (-2147483648 ≤ x ∧ x ≤ 2147483647)

/-- Signed 32-bit result of an arithmetic operation: undefined when out of range. -/
def ret32 (x : Int) : Out I32 :=
  if fits32 x then .ok (BitVec.ofInt 32 x) else .error .ub

theorem toInt_ofInt32 {x : Int} (h : fits32 x = true) : (BitVec.ofInt 32 x).toInt = x := by
  simp only [fits32, decide_eq_true_eq] at h
  rw [BitVec.toInt_ofInt]
  simp only [Int.bmod]
  omega

theorem fits32_toInt (x : I32) : fits32 x.toInt = true := by
  simp only [fits32, decide_eq_true_eq]
  have h1 := BitVec.toInt_lt (x := x)
  have h2 := BitVec.le_toInt (x := x)
  simp at h1 h2
  omega

end Ccml
