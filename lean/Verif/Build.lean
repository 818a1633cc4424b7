import Verif.Codegen
/-!
`nano_t::build` (lib_compiler/nano.cpp).
-/
namespace Ccml

/-- The passes behind the parser, lib_compiler/nano.cpp:60-72.  `L` are the addresses of the nodes,
`opt` is `nano_t::optimize`. -/
def compile (L : Layout) (opt : Bool) (p : Prog Unit) : Comp Program :=
  match runSema L p with
  | .error x => .error x
  | .ok p =>
    match runOptimize opt p with
    | .error x => .error x
    | .ok p => liftC (codegen p)

/-- The loop over the sources, lib_compiler/nano.cpp:42-58.  Imports append to the list while it is
being walked; `fuel` bounds the number of sources (files that import ever new paths make the real
loop endless).  `acc` are the children of the program so far, `left` is `exp_stack_`. -/
def buildSources (fs : Str → Option Str) (fl : FloatOps) :
    Nat → Nat → List Source → List PExpr → Prog Unit → Comp (Prog Unit × List Source)
  | 0, _, _, _, _ => .error (.fault .diverge)
  | n + 1, i, srcs, left, acc =>
    match srcs[i]? with
    | none => .ok (acc, srcs)
    | some src =>
      match src.data with
      | none => .error (.fault .ub)
      | some text =>
        match lex fl i text with
        | .error e => .error e.toStop
        | .ok toks =>
          match parse fs src srcs left toks with
          | .error e => .error e
          | .ok (items, s) => buildSources fs fl n (i + 1) s.srcs s.exps (acc ++ items)

/-- The children `syscall_register` puts into the program, lib_compiler/nano.cpp:88-102; a negative
number of arguments means any number. -/
def registered (sys : List (Str × Option Nat)) : Prog Unit :=
  sys.map fun s => .syscall s.1 s.2

/-- `nano_t::build` on a fresh compiler object, lib_compiler/nano.cpp:28-79: `none` is the `false`
for an empty source manager. -/
def build (fs : Str → Option Str) (fl : FloatOps) (L : Layout) (opt : Bool)
    (sys : List (Str × Option Nat)) (fuel : Nat) (srcs : List Source) : Comp (Option Program) :=
  match srcs with
  | [] => .ok none
  | _ :: _ =>
    match buildSources fs fl fuel 0 srcs [] (registered sys) with
    | .error x => .error x
    | .ok (p, _) =>
      match compile L opt p with
      | .error x => .error x
      | .ok prog => .ok (some prog)

end Ccml
