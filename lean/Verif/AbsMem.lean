import Verif.Machine
/-!
The mathematical store: values are immutable, arrays live in a growing list and are referred to
by their index.  No collector.  This is the reference instance of the memory interface; the
instance that follows the code (two spaces and pointers) is in Gc.lean.
-/
namespace Ccml

/-- A value as a script sees it; arrays by reference. -/
inductive Val
  | none
  | int (v : I32)
  | float (f : F32)
  | str (s : Str)
  | arr (loc : Nat)
  | func (v : I32)
  | syscall (v : I32)
  deriving DecidableEq, Repr

/-- The contents of all arrays ever created. -/
abbrev Store := List (List Val)

/-- Reading a value. -/
def Val.view (m : Store) : Val → Out View
  | .none => .ok .none
  | .int v => .ok (.int v)
  | .float f => .ok (.float f)
  | .str s => .ok (.str s)
  | .arr l => match m[l]? with
    | some a => .ok (.arr a.length)
    | Option.none => .error .ub
  | .func v => .ok (.func v)
  | .syscall v => .ok (.syscall v)

/-- Element read. -/
def Val.arrGet (m : Store) : Val → Nat → Out Val
  | .arr l, i => match m[l]? with
    | some a => match a[i]? with
      | some v => .ok v
      | Option.none => .error .ub
    | Option.none => .error .ub
  | _, _ => .error .ub

/-- Element write. -/
def Val.arrSet (m : Store) : Val → Nat → Val → Out Store
  | .arr l, i, v => match m[l]? with
    | some a => if i < a.length then .ok (m.set l (a.set i v)) else .error .ub
    | Option.none => .error .ub
  | _, _, _ => .error .ub

/-- The reference memory. -/
def Mem.abs : MemOps Val Store where
  nil := .none
  view := Val.view
  arrGet := Val.arrGet
  arrSet := Val.arrSet
  newInt := fun m v => .ok (.int v, m)
  newFloat := fun m v => .ok (.float v, m)
  newStr := fun m v => .ok (.str v, m)
  newArr := fun m n => .ok (.arr m.length, m ++ [List.replicate n .none])
  newFunc := fun m v => .ok (.func v, m)
  newSyscall := fun m v => .ok (.syscall v, m)
  shouldCollect := fun _ => false
  collect := fun m roots => .ok (roots, m)

end Ccml
