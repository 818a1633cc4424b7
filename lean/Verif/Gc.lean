import Verif.Machine
/-!
The garbage-collected heap (lib_vm/vm_gc.h, lib_vm/vm_gc.cpp).

An arena is modelled by its fill level and a partial map from offsets to the values that begin
there; that different values occupy disjoint bytes is theorem C44.  A pointer is null or an arena
together with an offset.  Memory that was never allocated or has been cleared has no content: reading
it is undefined.
-/
namespace Ccml

/-- A non-null `value_t*`: one of the two arenas of `space_` (lib_vm/vm_gc.h:148) and an offset
into its data. -/
structure Ptr where
  space : Bool
  off : Nat
  deriving DecidableEq, Repr

/-- A `value_t` in memory with the data behind it (lib_vm/value.h:63-76, 139-153): the bytes of a
string, the element pointers of an array. -/
inductive Cell
  | int (v : I32)
  | float (f : F32)
  | str (s : Str)
  | arr (ps : List (Option Ptr))
  | func (v : I32)
  | syscall (v : I32)
  deriving DecidableEq, Repr

/-- `arena_t`, lib_vm/vm_gc.h:18-62. -/
structure Arena where
  head : Nat
  cells : Nat → Option Cell

/-- `arena_t::clear`, lib_vm/vm_gc.h:37-42.  The bytes stay but must not be used any more. -/
def Arena.clear : Arena := ⟨0, fun _ => none⟩

/-- `arena_t::capacity`, lib_vm/vm_gc.h:48-50, 58. -/
def arenaCapacity : Nat := 1048576

/-- Arithmetic in `size_t`. -/
def sizeT (n : Nat) : Nat := n % 18446744073709551616

/-- The space check of `arena_t::alloc<value_t>`, lib_vm/vm_gc.h:26-35; `sizeof(value_t)` is 8.
The result is the new fill level. -/
def arenaReserve (head extra : Nat) : Option Nat :=
  if sizeT (head + 8 + extra) < arenaCapacity then some (sizeT (head + 8 + extra)) else none

/-- `arena_t::alloc<value_t>(extra)` followed by the initialisation of the value. -/
def Arena.alloc (a : Arena) (extra : Nat) (c : Cell) : Option (Nat × Arena) :=
  match arenaReserve a.head extra with
  | none => none
  | some head => some (a.head, ⟨head, fun o => if o = a.head then some c else a.cells o⟩)

/-- `value_gc_t`, lib_vm/vm_gc.h:145-148.  `frm` and `to` are the arenas `space_from()` and
`space_to()` (lines 107-121); the pointers into `frm` are those whose `space` is `flip`
(`flipflop_ & 1`), the others point into `to`. -/
structure Heap where
  flip : Bool
  frm : Arena
  to : Arena
  fwd : Ptr → Option Ptr

/-- A new `value_gc_t`, lib_vm/vm_gc.h:92-94; also `reset`, lines 98-103. -/
def Heap.empty : Heap := ⟨false, .clear, .clear, fun _ => none⟩

namespace Heap

/-- `space_to().owns(v)`, lib_vm/vm_gc.h:52-54. -/
def inTo (h : Heap) (q : Ptr) : Bool := q.space != h.flip

/-- Read the value at a pointer. -/
def get (h : Heap) (q : Ptr) : Option Cell :=
  if h.inTo q then h.to.cells q.off else h.frm.cells q.off

/-- Overwrite the value at a pointer. -/
def put (h : Heap) (q : Ptr) (c : Cell) : Heap :=
  if h.inTo q then
    { h with to := { h.to with cells := fun o => if o = q.off then some c else h.to.cells o } }
  else
    { h with frm := { h.frm with cells := fun o => if o = q.off then some c else h.frm.cells o } }

/-- `space_to().alloc<value_t>(extra)` and the initialisation. -/
def allocTo (h : Heap) (extra : Nat) (c : Cell) : Option (Ptr × Heap) :=
  match h.to.alloc extra c with
  | none => none
  | some (off, a) => some (⟨!h.flip, off⟩, { h with to := a })

end Heap

/-- Bytes a value needs beyond its `value_t` (lib_vm/vm_gc.cpp:9-76, 149-184). -/
def Cell.extra : Cell → Nat
  | .str s => s.length + 1
  | .arr ps => 8 * ps.length
  | _ => 0

/-- `trace` over a list of pointers, given what it does to each one; lib_vm/vm_gc.cpp:118-197. -/
def traceList (one : Heap → Option Ptr → Out (Option Ptr × Heap)) :
    Heap → List (Option Ptr) → Out (List (Option Ptr) × Heap)
  | h, [] => .ok ([], h)
  | h, p :: ps =>
    match one h p with
    | .error f => .error f
    | .ok (p, h) =>
      match traceList one h ps with
      | .error f => .error f
      | .ok (ps, h) => .ok (p :: ps, h)

/-- Copy a value that is not an array into the to-space, lib_vm/vm_gc.cpp:146-171.  The tracer does
not check the allocation and would write through a null pointer; the model ends with `oom`. -/
def moveCell (h : Heap) (c : Cell) : Out (Option Ptr × Heap) :=
  match h.allocTo c.extra c with
  | none => .error .oom
  | some (q, h) => .ok (some q, h)

/-- The body of the loop in `trace`, lib_vm/vm_gc.cpp:123-196, returning the new content of
`list[i]`.  `depth` is the recursion depth the C++ stack allows.  The elements of an array are read
before and written after the recursive call over all of them; in the code each is written when it is
done.  The difference can only be seen by an array that is reached from its own elements, for which
the recursion does not end. -/
def traceOne : Nat → Heap → Option Ptr → Out (Option Ptr × Heap)
  | _, h, none => .ok (none, h)
  | depth, h, some q =>
    match h.get q with
    | none => .error .ub
    | some (.arr ps) =>
      match depth with
      | 0 => .error .diverge
      | depth + 1 =>
        match traceList (traceOne depth) h ps with
        | .error f => .error f
        | .ok (ps, h) =>
          let h := h.put q (.arr ps)
          if h.inTo q then .ok (some q, h)
          else match h.fwd q with
            | some x => .ok (some x, h)
            | none =>
              match h.allocTo (8 * ps.length) (.arr ps) with
              | none => .error .oom
              | some (n, h) => .ok (some n, { h with fwd := fun x => if x = q then some n else h.fwd x })
    | some (.str s) =>
      if h.inTo q then .ok (some q, h)
      else if cstr s ≠ s then .error .assert
      else moveCell h (.str s)
    | some c => if h.inTo q then .ok (some q, h) else moveCell h c

/-- `collect`, lib_vm/vm_gc.cpp:112-116. -/
def Heap.flipSpaces (h : Heap) : Heap :=
  { flip := !h.flip, frm := h.to, to := .clear, fwd := fun _ => none }

/-- Trace of all roots followed by `collect` (`vm_t::gc_collect`, lib_vm/vm.cpp:22-31). -/
def gcRun (depth : Nat) (h : Heap) (roots : List (Option Ptr)) : Out (List (Option Ptr) × Heap) :=
  match traceList (traceOne depth) h roots with
  | .error f => .error f
  | .ok (roots, h) => .ok (roots, h.flipSpaces)

/-- `assert(v)` behind every allocation of the `new_*` functions, lib_vm/vm_gc.cpp:9-76, is the
outcome `oom`. -/
def gcNew (h : Heap) (c : Cell) : Out (Option Ptr × Heap) :=
  match h.allocTo c.extra c with
  | none => .error .oom
  | some (q, h) => .ok (some q, h)

/-- Reading type and payload. -/
def gcView (h : Heap) : Option Ptr → Out View
  | none => .ok .none
  | some q => match h.get q with
    | none => .error .ub
    | some (.int v) => .ok (.int v)
    | some (.float f) => .ok (.float f)
    | some (.str s) => .ok (.str s)
    | some (.arr ps) => .ok (.arr ps.length)
    | some (.func v) => .ok (.func v)
    | some (.syscall v) => .ok (.syscall v)

/-- `array()[i]`, lib_vm/value.h:73-76. -/
def gcArrGet (h : Heap) (p : Option Ptr) (i : Nat) : Out (Option Ptr) :=
  match p with
  | none => .error .ub
  | some q => match h.get q with
    | some (.arr ps) => match ps[i]? with
      | some x => .ok x
      | none => .error .ub
    | _ => .error .ub

/-- `array()[i] = v`, lib_vm/value.h:73-76. -/
def gcArrSet (h : Heap) (p : Option Ptr) (i : Nat) (v : Option Ptr) : Out Heap :=
  match p with
  | none => .error .ub
  | some q => match h.get q with
    | some (.arr ps) => if i < ps.length then .ok (h.put q (.arr (ps.set i v))) else .error .ub
    | _ => .error .ub

/-- `should_collect`, lib_vm/vm_gc.cpp:78-86. -/
def gcShould (h : Heap) : Bool := h.to.head * 100 / arenaCapacity > 75

/-- The memory manager of the code.  `depth` is the recursion depth available to the tracer.  The
length of a `std::string` is below 2^63; the argument of `new_array` is an `int32_t`. -/
def Mem.gc (depth : Nat) (should : Heap → Bool := gcShould) : MemOps (Option Ptr) Heap where
  nil := none
  view := gcView
  arrGet := gcArrGet
  arrSet := gcArrSet
  newInt := fun h v => gcNew h (.int v)
  newFloat := fun h v => gcNew h (.float v)
  newStr := fun h s => if s.length < 9223372036854775808 then gcNew h (.str s) else .error .oom
  newArr := fun h n =>
    if n < 2147483648 then gcNew h (.arr (List.replicate n none)) else .error .ub
  newFunc := fun h v => gcNew h (.func v)
  newSyscall := fun h v => gcNew h (.syscall v)
  shouldCollect := should
  collect := gcRun depth

end Ccml
