import Verif.Lexer
/-!
Source texts and the source manager (lib_common/source.h, lib_common/source.cpp,
lib_common/file.h).
-/
namespace Ccml

/-- `source_t`, lib_common/source.h:11-93.  `data` holds the bytes before the terminating NUL that
the load functions append, `none` while the pointer is null; `lines` holds the offsets of the line
starts in the buffer. -/
structure Source where
  path : Str
  data : Option Str
  lines : List Nat
  deriving DecidableEq, Repr

/-- `source_t::clear` and the default constructor, lib_common/source.h:44-48. -/
def Source.empty : Source := ⟨[], none, []⟩

/-- The loop of `source_t::_gen_lines`, lib_common/source.h:78-87, at offset `i`; it stops at the
first NUL (the terminator, or one inside the text). -/
def genLinesFrom (i : Nat) : Str → List Nat
  | [] => []
  | c :: t =>
    if c = 0 then [] else if c = ch '\n' then (i + 1) :: genLinesFrom (i + 1) t
    else genLinesFrom (i + 1) t

/-- `source_t::_gen_lines`, lib_common/source.h:74-88. -/
def genLines (text : Str) : List Nat := 0 :: genLinesFrom 0 text

/-- `source_t::load_from_string`, lib_common/source.h:30-42; `text` is a C string. -/
def Source.fromString (text : Str) : Bool × Source :=
  let t := cstr text
  if t.length = 0 then (false, .empty) else (true, ⟨str "unknown", some t, genLines t⟩)

/-- `source_t::load_from_file`, lib_common/source.h:13-28, with `file_t::load`,
lib_common/file.h:7-37.  The file system is a parameter: `fs path` is the content of the file, `none`
when it cannot be opened or read to the end. -/
def Source.fromFile (fs : Str → Option Str) (path : Str) : Bool × Source :=
  match fs path with
  | none => (false, .empty)
  | some t => if t.length = 0 then (false, .empty) else (true, ⟨path, some t, genLines t⟩)

/-- `source_t::get_line`, lib_common/source.h:54-67, with the result and the text assigned to
`out`; `none` leaves `out` as it is.  Indexing a null buffer does not happen: a source without text
has no lines. -/
def Source.getLine (s : Source) (num : BitVec 32) : Out (Bool × Option Str) :=
  if num.toNat = 0 then .error .assert
  else
    let n := num.toNat - 1
    let text := s.data.getD []
    match s.lines[n]?, s.lines[n + 1]? with
    | some a, some b => .ok (true, some ((text.drop a).take (b - a)))
    | some a, none => .ok (true, some (cstr (text.drop a)))
    | none, _ => .ok (false, none)

/-- Offset of the last occurrence of `c`, as `std::string::rfind`; 0 when there is none
(`npos` is replaced by 0 in lib_common/source.cpp:10-11). -/
def rfind0 (c : Byte) (s : Str) : Nat :=
  s.length - (s.reverse.takeWhile (fun d => d != c)).length - 1

/-- `base_path`, lib_common/source.cpp:7-14. -/
def basePath (s : Str) : Str := s.take (max (rfind0 (ch '/') s) (rfind0 (ch '\\') s))

/-- `path_cmp`, lib_common/source.cpp:17-32, on C strings without their terminator: the end of
`y` compares unequal to every character of `x`. -/
def pathCmp : Str → Str → Bool
  | [], _ => true
  | _ :: _, [] => false
  | c :: x, d :: y =>
    if lower c = lower d then pathCmp x y
    else if c = ch '\\' ∧ d = ch '/' then pathCmp x y
    else if c = ch '/' ∧ d = ch '\\' then pathCmp x y
    else false

/-- `source_manager_t::imported_path`, lib_common/source.cpp:38-41. -/
def importedPath (s : Source) (p : Str) : Str := basePath s.path ++ ch '/' :: p

/-- `source_manager_t::load`, lib_common/source.cpp:43-52: the result and the sources after the
call. -/
def loadSource (fs : Str → Option Str) (sources : List Source) (path : Str) : Bool × List Source :=
  if sources.any (fun s => pathCmp s.path path) then (true, sources)
  else ((Source.fromFile fs path).1, sources ++ [(Source.fromFile fs path).2])

/-- `source_manager_t::load_from_string`, lib_common/source.cpp:54-57. -/
def loadString (sources : List Source) (text : Str) : Bool × List Source :=
  ((Source.fromString text).1, sources ++ [(Source.fromString text).2])

/-- `source_manager_t::get_line`, lib_common/source.h:114-119. -/
def managerLine (sources : List Source) (l : Line) : Out Str :=
  if l.file.toInt < 0 then .error .assert
  else
    match sources[l.file.toNat]? with
    | none => .error .assert
    | some s =>
      match s.getLine l.line with
      | .error e => .error e
      | .ok (_, some t) => .ok t
      | .ok (_, none) => .ok []

end Ccml
