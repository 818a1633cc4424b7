import Verif.Instr
/-!
`program_t`: tables, look-ups and the program file format
(lib_common/program.h, lib_common/program.cpp, lib_common/types.h).
-/
namespace Ccml

/-- `line_t`, lib_common/types.h:12-37. -/
structure Line where
  file : I32
  line : I32
  deriving DecidableEq, Repr

/-- Default constructor of `line_t`, lib_common/types.h:17. -/
def Line.unknown : Line := ⟨-1, -1⟩

/-- `identifier_t`, lib_common/types.h:39-44. -/
structure Ident where
  name : Str
  offset : I32
  deriving DecidableEq, Repr

/-- `function_t`, lib_common/types.h:46-73. -/
structure Function where
  name : Str
  codeStart : I32
  codeEnd : I32
  locals : List Ident
  args : List Ident
  deriving DecidableEq, Repr

/-- `function_t::num_args`, lib_common/types.h:65-67. -/
def Function.numArgs (f : Function) : Nat := f.args.length

/-- The address of a host function (`nano_syscall_t`, lib_common/types.h:10).  The behaviour
behind the address is given separately by the host environment. -/
abbrev FnPtr := Nat

/-- `program_t::syscall_entry_t`, lib_common/program.h:23-26; `none` is `nullptr`. -/
structure Syscall where
  name : Str
  call : Option FnPtr
  deriving DecidableEq, Repr

/-- `program_t::linetable_t`, lib_common/program.h:20: a `std::map` from code offset to
line, represented by its entries in iteration order (increasing keys). -/
abbrev LineTable := List (I32 × Line)

/-- The representation invariant of `std::map`: keys strictly increasing (signed). -/
def LineTable.Sorted : LineTable → Prop
  | [] => True
  | [_] => True
  | a :: b :: t => a.1.toInt < b.1.toInt ∧ LineTable.Sorted (b :: t)

/-- `line_table_[pc] = line`, lib_common/program.h:98-100 and program.cpp:70. -/
def LineTable.set : LineTable → I32 → Line → LineTable
  | [], k, l => [(k, l)]
  | (k', l') :: t, k, l =>
    if k.toInt < k'.toInt then (k, l) :: (k', l') :: t
    else if k = k' then (k, l) :: t
    else (k', l') :: LineTable.set t k l

/-- `program_t::get_line`, lib_common/program.h:46-53. -/
def LineTable.get (t : LineTable) (pc : I32) : Line :=
  match t.find? (fun e => e.1 == pc) with
  | some e => e.2
  | none => Line.unknown

/-- `program_t`, lib_common/program.h:102-118. -/
structure Program where
  globals : List Ident
  syscalls : List Syscall
  functions : List Function
  code : List Byte
  lines : LineTable
  strings : List Str
  deriving DecidableEq, Repr

/-- A freshly constructed or `reset()` program, lib_common/program.cpp:217-224. -/
def Program.empty : Program := ⟨[], [], [], [], [], []⟩

/-- `function_find(name)`, lib_common/program.cpp:226-242. -/
def Program.findByName (p : Program) (name : Str) : Option Function :=
  p.functions.find? (fun f => f.name == name)

/-- `function_find(pc)`, lib_common/program.cpp:244-260. -/
def Program.findByPc (p : Program) (pc : I32) : Option Function :=
  p.functions.find? (fun f => decide (f.codeStart.toInt ≤ pc.toInt ∧ pc.toInt < f.codeEnd.toInt))

/-- `syscall_resolve`, lib_common/program.cpp:262-271. -/
def Program.resolve (p : Program) (name : Str) (fn : FnPtr) : Program × Bool :=
  ({ p with syscalls := p.syscalls.map fun s =>
      if s.name == name then { s with call := some fn } else s },
   p.syscalls.any fun s => s.name == name)

/-! ### Writing -/

/-- `emit(fd, int32_t)`, lib_common/program.cpp:12-14 (little-endian host). -/
def saveI32 (v : I32) : List Byte := le32 v

/-- `int32_t(x.size())`, e.g. lib_common/program.cpp:21. -/
def size32 (n : Nat) : I32 := BitVec.ofNat 32 n

/-- `emit(fd, std::string)`, lib_common/program.cpp:20-23. -/
def saveStr (s : Str) : List Byte := saveI32 (size32 s.length) ++ s

/-- Body of the loops over `locals_` and `args_`, lib_common/program.cpp:34-35, 40-41. -/
def saveIdent (i : Ident) : List Byte := saveStr i.name ++ saveI32 i.offset

/-- A count followed by the elements. -/
def saveList {α : Type} (f : α → List Byte) (l : List α) : List Byte :=
  saveI32 (size32 l.length) ++ l.flatMap f

/-- `emit(fd, function_t)`, lib_common/program.cpp:25-43. -/
def saveFunction (f : Function) : List Byte :=
  saveStr f.name ++ saveI32 f.codeStart ++ saveI32 f.codeEnd ++
  saveList saveIdent f.locals ++ saveList saveIdent f.args

/-- Body of the loop in `emit(fd, linetable_t)`, lib_common/program.cpp:47-53. -/
def saveLine (e : I32 × Line) : List Byte :=
  saveI32 e.1 ++ saveI32 e.2.file ++ saveI32 e.2.line

/-- `magic`, lib_common/program.cpp:10. -/
def magic : I32 := 0x4C4D4343

/-- `serial_save`, lib_common/program.cpp:122-160: the bytes written to the file.  Failure to
open the file and short writes (unchecked in the code) are not modelled here; C02 covers the
files a crash during the write may leave behind. -/
def serialSave (p : Program) : List Byte :=
  saveI32 magic ++
  saveList (fun s : Syscall => saveStr s.name) p.syscalls ++
  saveList saveFunction p.functions ++
  (saveI32 (size32 p.code.length) ++ p.code) ++
  saveList saveLine p.lines ++
  saveList saveStr p.strings

/-! ### Reading -/

/-- A reader over the remaining bytes of the file: `none` is the `return false` path. -/
abbrev Rd (α : Type) := List Byte → Out (Option (α × List Byte))

/-- Sequencing with `TRY`, lib_common/program.cpp:6. -/
def Rd.bind {α β : Type} (m : Rd α) (f : α → Rd β) : Rd β := fun r =>
  match m r with
  | .error e => .error e
  | .ok none => .ok none
  | .ok (some (a, r')) => f a r'

/-- Success without reading. -/
def Rd.pure {α : Type} (a : α) : Rd α := fun r => .ok (some (a, r))

instance : Monad Rd where
  pure := Rd.pure
  bind := Rd.bind

/-- `consume(fd, int32_t)`, lib_common/program.cpp:56-58. -/
def readI32 : Rd I32
  | b0 :: b1 :: b2 :: b3 :: r => .ok (some (of32 b0 b1 b2 b3, r))
  | _ => .ok none

/-- `fread(buf, 1, n, fd) == n`, lib_common/program.cpp:83, 200. -/
def readBytes (n : Nat) : Rd (List Byte) := fun r =>
  if n ≤ r.length then .ok (some (r.take n, r.drop n)) else .ok none

/-- `consume(fd, std::string)`, lib_common/program.cpp:75-89.  A size of 256 or more fails the
assertion, a negative size makes `resize` throw; the text ends at the first NUL because of
`string.assign(const char *)`. -/
def readStr : Rd Str := Rd.bind readI32 fun n r =>
  if ¬ n.toInt < 256 then .error .assert
  else if n.toInt < 0 then .error .exn
  else match readBytes n.toNat r with
    | .error e => .error e
    | .ok none => .ok none
    | .ok (some (d, r')) => .ok (some (d.takeWhile (fun b => b != 0), r'))

/-- A loop `for (i = 0; i < n; ++i)` that appends one element per round. -/
def readMany {α : Type} (m : Rd α) : Nat → Rd (List α)
  | 0 => Rd.pure []
  | n + 1 => Rd.bind m fun a => Rd.bind (readMany m n) fun l => Rd.pure (a :: l)

/-- A count followed by that many elements; a negative count gives no round. -/
def readList {α : Type} (m : Rd α) : Rd (List α) :=
  Rd.bind readI32 fun n => readMany m n.toInt.toNat

/-- Body of the loops over `locals_` and `args_`, lib_common/program.cpp:101-104, 110-113. -/
def readIdent : Rd Ident :=
  Rd.bind readStr fun name => Rd.bind readI32 fun off => Rd.pure ⟨name, off⟩

/-- `consume(fd, function_t)`, lib_common/program.cpp:91-116. -/
def readFunction : Rd Function :=
  Rd.bind readStr fun name =>
  Rd.bind readI32 fun s =>
  Rd.bind readI32 fun e =>
  Rd.bind (readList readIdent) fun locals =>
  Rd.bind (readList readIdent) fun args =>
  Rd.pure ⟨name, s, e, locals, args⟩

/-- Body of the loop in `consume(fd, linetable_t)`, lib_common/program.cpp:64-69. -/
def readLine : Rd (I32 × Line) :=
  Rd.bind readI32 fun pc => Rd.bind readI32 fun f => Rd.bind readI32 fun l =>
  Rd.pure (pc, ⟨f, l⟩)

/-- `consume(fd, linetable_t)`, lib_common/program.cpp:60-73: entries are inserted one by one
into the map. -/
def readLines : Rd LineTable :=
  Rd.bind (readList readLine) fun es =>
  Rd.pure (es.foldl (fun t e => t.set e.1 e.2) [])

/-- `consume(fd, syscalls_.back().name_)`, lib_common/program.cpp:187: the result is ignored.
When the read fails the end of the file has been reached and the name is whatever
`resize` left (modelled as empty: the load fails afterwards in any case). -/
def readName : Rd Str := fun r =>
  match readStr r with
  | .error e => .error e
  | .ok none => .ok (some ([], []))
  | .ok (some x) => .ok (some x)

/-- `serial_load`, lib_common/program.cpp:162-215, on the contents of the file: `none` is
`return false` (the state of the program object after a failed load is not modelled). -/
def serialLoad (file : List Byte) : Out (Option Program) :=
  let m : Rd Program :=
    Rd.bind readI32 fun m =>
    if m ≠ magic then (fun _ => .ok none) else
    Rd.bind (readList readName) fun names =>
    Rd.bind (readList readFunction) fun funs =>
    Rd.bind readI32 fun n =>
    if n.toInt < 0 then (fun _ => .error .exn) else
    Rd.bind (readBytes n.toNat) fun code =>
    Rd.bind readLines fun lines =>
    Rd.bind (readList readStr) fun strings =>
    Rd.pure ⟨[], names.map fun s => ⟨s, none⟩, funs, code, lines, strings⟩
  match m file with
  | .error e => .error e
  | .ok none => .ok none
  | .ok (some (p, _)) => .ok (some p)

end Ccml
