import Verif.MachineLemmas
/-!
Concrete environments and states used by the examples beside the theorems.
-/
namespace Ccml.Props
open Ccml

/-- Some interpretation of the floating-point operations. -/
def toyFl : FloatOps where
  zero := 0
  add := fun a b => a + b
  sub := fun a b => a - b
  mul := fun a b => a * b
  div := fun a _ => a
  neg := fun a => -a
  lt := fun a b => a.slt b
  gt := fun a b => b.slt a
  le := fun a b => a.sle b
  ge := fun a b => b.sle a
  eq := fun a b => a == b
  ofInt := fun a => a
  toInt := fun a => some a
  fmt := fun _ => str "1.500000"
  sin := id
  cos := id
  tan := id
  round := id
  floor := id
  ceil := id
  sqrt := id

/-- A machine with the given code and the built-ins only. -/
def toyEnv (code : List Byte) : Env Val Store :=
  Env.std { Program.empty with code := code } toyFl Mem.abs

/-- A thread state with the given stack (top first) inside one frame. -/
def toySt (stack : List Val) (mem : Store := []) : St Val Store :=
  { th := { (Thread.fresh : Thread Val) with stack := stack, frames := [⟨0, 0, 0, true⟩] },
    mem := mem, globals := [], before := [], after := [], io := { input := [], output := [], seed := 12345 } }

end Ccml.Props
