import Verif.Build
import Verif.ParserOver
/-!
The compiler object `nano_t` (lib_compiler/nano.h, lib_compiler/nano.cpp) over more than one build.
-/
namespace Ccml

/-- `nano_t`, lib_compiler/nano.h:19-68, with the stacks of its parser (lib_compiler/parser.h:24-28), the children
of its tree (lib_compiler/ast.h:77-93, 630-660) and the program it writes to.  Left out, because a build sets them
before it reads them: `sources_`, `source_`, the error manager and the code generator, which have no state of their
own; and `lexer_`, of which only the last element is used, the one the build adds.  The tree is the one the parser
makes: the `decl` pointers and the function `@init` that a complete build leaves in it are not represented. -/
structure Nano where
  optimize : Bool
  ops : List Token
  exps : List PExpr
  children : Prog Unit
  program : Program

/-- The constructor, lib_compiler/nano.cpp:16-26, on the program of the host. -/
def Nano.new (prog : Program) : Nano := ⟨true, [], [], [], prog⟩

/-- `syscall_register`, lib_compiler/nano.cpp:88-102; a negative number of arguments means any number. -/
def Nano.register (o : Nano) (name : Str) (args : Option Nat) : Nano :=
  { o with children := o.children ++ [.syscall name args] }

/-- Registering functions one after the other. -/
def Nano.registerAll : List (Str × Option Nat) → Nano → Nano
  | [], o => o
  | s :: ss, o => registerAll ss (o.register s.1 s.2)

/-- `program_t::reset`, lib_common/program.cpp:217-224. -/
def Program.reset (p : Program) : Program :=
  { p with syscalls := [], functions := [], code := [], lines := [], strings := [], globals := [] }

/-- `nano_t::reset`, lib_compiler/nano.cpp:81-86, with `parser_t::reset` (lib_compiler/parser.cpp:794-796), which
clears `op_stack_` but not `exp_stack_`, and `ast_t::reset` (lib_compiler/ast.cpp:172-178), which deletes all nodes.
The pointers on `exp_stack_` then point to deleted nodes; the trees stand for them. -/
def Nano.reset (o : Nano) : Nano :=
  { o with ops := [], children := [], program := o.program.reset }

/-- The loop over the sources, lib_compiler/nano.cpp:42-58, with both stacks of the parser; see `buildSources`. -/
def nanoSources (fs : Str → Option Str) (fl : FloatOps) :
    Nat → Nat → List Source → List Token → List PExpr → Prog Unit → Comp (Prog Unit)
  | 0, _, _, _, _, _ => .error (.fault .diverge)
  | n + 1, i, srcs, ops, exps, acc =>
    match srcs[i]? with
    | none => .ok acc
    | some src =>
      match src.data with
      | none => .error (.fault .ub)
      | some text =>
        match lex fl i text with
        | .error e => .error e.toStop
        | .ok toks =>
          match parseItems fs src (parseFuel toks) ⟨toks, ⟨0, 0⟩, ops, exps, srcs⟩ with
          | .error e => .error e
          | .ok (items, s) => nanoSources fs fl n (i + 1) s.srcs s.ops s.exps (acc ++ items)

/-- `run_pre_codegen` and `codegen_t::run` on any program, lib_compiler/pre_codegen.cpp:214-228,
lib_compiler/codegen.cpp:629-639. -/
def codegenOn (prog : Program) (p : Prog Ref) : Out Program := do
  let prog ← pregen p prog
  genProgram p ⟨prog, [], []⟩

/-- `nano_t::build`, lib_compiler/nano.cpp:28-79: what it leaves in the program; `none` is the `false` for an empty
source manager. -/
def Nano.build (fs : Str → Option Str) (fl : FloatOps) (L : Layout) (fuel : Nat) (srcs : List Source) (o : Nano) :
    Comp (Option Program) :=
  match srcs with
  | [] => .ok none
  | _ :: _ =>
    match nanoSources fs fl fuel 0 srcs o.ops o.exps o.children with
    | .error x => .error x
    | .ok p =>
      match runSema L p with
      | .error x => .error x
      | .ok p =>
        match runOptimize o.optimize p with
        | .error x => .error x
        | .ok p =>
          match codegenOn o.program p with
          | .error f => .error (.fault f)
          | .ok prog => .ok (some prog)

end Ccml
