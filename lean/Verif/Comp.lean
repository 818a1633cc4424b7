import Verif.Build
import Verif.Listing
import Verif.Source
import Verif.Tree
/-!
The compiler driver (comp/driver.cpp): load the files named on the command line, compile them, and write
the syntax tree, a listing or the code to files.
-/
namespace Ccml

/-- What a run of the compiler driver leaves behind. -/
structure CompExit where
  /-- the status `main` returns or hands to `exit` -/
  status : Int
  /-- what was written to standard output (messages on standard error are not modelled) -/
  output : Str
  /-- the contents of the files afterwards -/
  files : Str → Option Str

/-- The file system with one file changed.  Different paths of the same file are not modelled. -/
def setFile (fs : Str → Option Str) (path : Str) (t : Str) : Str → Option Str :=
  fun p => if p = path then some t else fs p

/-- `fd_open`, comp/driver.cpp:23-27: whether the file could be opened, and the files behind it; opening
a file for writing empties it.  `can` are the paths that can be opened.  Writing more than the 1024 bytes of the
buffer, the final NUL included, is undefined. -/
def fdOpen (can : Str → Bool) (fs : Str → Option Str) (base ext : Str) : Out (Bool × (Str → Option Str)) :=
  if 1024 < base.length + ext.length + 1 then .error .ub
  else if can (base ++ ext) then .ok (true, setFile fs (base ++ ext) []) else .ok (false, fs)

/-- `usage`, comp/driver.cpp:29-36. -/
def usageText (path : Str) : Str :=
  str "usage: " ++ path ++ str " file.nano [-n -a -d -b]
  -n  disable codegen optimizations
  -a  emit ast
  -d  emit disassembly
  -b  emit binary
"

/-- The variables of `main`, comp/driver.cpp:42-57, and the files; of the file pointers only whether they
are null. -/
structure CompState where
  fs : Str → Option Str
  srcs : List Source
  ast : Bool
  dis : Bool
  bin : Bool
  opt : Bool

/-- The `switch` over the second character of an option, comp/driver.cpp:68-82. -/
def compOption (can : Str → Bool) (base : Str) (s : CompState) (c : Option Byte) : Out CompState :=
  if c = some (ch 'a') then
    match fdOpen can s.fs base (str ".ast") with
    | .error x => .error x
    | .ok (b, fs) => .ok { s with fs := fs, ast := b }
  else if c = some (ch 'd') then
    match fdOpen can s.fs base (str ".dis") with
    | .error x => .error x
    | .ok (b, fs) => .ok { s with fs := fs, dis := b }
  else if c = some (ch 'b') then
    match fdOpen can s.fs base (str ".bin") with
    | .error x => .error x
    | .ok (b, fs) => .ok { s with fs := fs, bin := b }
  else if c = some (ch 'n') then .ok { s with opt := false }
  else .ok s

/-- The loop over the arguments, comp/driver.cpp:59-83: `false` is `return -2`. -/
def compArgs (can : Str → Bool) (base : Str) : CompState → List Str → Out (Bool × CompState)
  | s, [] => .ok (true, s)
  | s, arg :: args =>
    if arg[0]? ≠ some (ch '-') then
      match loadSource s.fs s.srcs arg with
      | (true, srcs) => compArgs can base { s with srcs := srcs } args
      | (false, srcs) => .ok (false, { s with srcs := srcs })
    else
      match compOption can base s arg[1]? with
      | .error x => .error x
      | .ok s => compArgs can base s args

/-- Writing to a file that was opened. -/
def writeIf (b : Bool) (fs : Str → Option Str) (path : Str) (t : Out Str) : Out (Str → Option Str) :=
  if b then
    match t with
    | .error x => .error x
    | .ok t => .ok (setFile fs path t)
  else .ok fs

/-- `main` behind the loop, comp/driver.cpp:85-117.  `tree` are the nodes in memory when `build` calls
`ast_t::gc` (lib_compiler/nano.cpp:71): the models of the parser and of the passes do not have them.  `k` bounds
their depth, `n` the number of source files, `L` are the addresses of the declarations.  Writing does not fail. -/
def compBuild (fl : FloatOps) (L : Layout) (tree : Tree.Ast) (k n : Nat) (base : Str) (s : CompState) :
    Out CompExit :=
  match build s.fs fl L s.opt [] n s.srcs with
  | .error (.fault f) => .error f
  | .error (.err _) => .ok ⟨1, [], s.fs⟩
  | .ok none => .ok ⟨1, [], s.fs⟩
  | .ok (some prog) =>
    match Tree.gc k tree with
    | .error x => .error x
    | .ok tree =>
      match writeIf s.ast s.fs (base ++ str ".ast") (Tree.dump fl k tree) with
      | .error x => .error x
      | .ok fs =>
        match writeIf s.dis fs (base ++ str ".dis") (listing prog) with
        | .error x => .error x
        | .ok fs =>
          match writeIf s.bin fs (base ++ str ".bin") (.ok prog.code) with
          | .error x => .error x
          | .ok fs => .ok ⟨0, [], fs⟩

/-- `main`, comp/driver.cpp:38-118, called as `name` with the arguments `args`. -/
def compMain (can : Str → Bool) (fs : Str → Option Str) (fl : FloatOps) (L : Layout) (tree : Tree.Ast) (k n : Nat)
    (name : Str) (args : List Str) : Out CompExit :=
  match args with
  | [] => .ok ⟨-1, usageText name, fs⟩
  | base :: _ =>
    match compArgs can base ⟨fs, [], false, false, false, true⟩ args with
    | .error x => .error x
    | .ok (false, s) => .ok ⟨-2, [], s.fs⟩
    | .ok (true, s) => compBuild fl L tree k n base s

end Ccml
