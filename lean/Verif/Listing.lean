import Verif.Instr
import Verif.Program
import Verif.Value
/-!
The text of the disassembly listing (lib_compiler/disassembler.cpp), written by the compiler driver
for the option `-d`.
-/
namespace Ccml

/-- `gMnemonic[op]`, lib_compiler/disassembler.cpp:10-46: an index outside the table is undefined. -/
def mnemonic (o : Op) : Out Str :=
  match Op.mnemonics[o.code.toNat]? with
  | some s => .ok (str "INS_" ++ str s)
  | none => .error .ub

/-- The text `disasm` puts into `out`, lib_compiler/disassembler.cpp:76, 106-108, 119-123. -/
def insText : Ins → Out Str
  | .i0 o => mnemonic o
  | .i1 o a =>
    match mnemonic o with
    | .error f => .error f
    | .ok m => .ok (m ++ [ch ' '] ++ decimal a)
  | .i2 o a b =>
    match mnemonic o with
    | .error f => .error f
    | .ok m => .ok (m ++ [ch ' '] ++ decimal a ++ [ch ' '] ++ decimal b)

/-- The loop of `disassembler_t::dump`, lib_compiler/disassembler.cpp:139-163, from the offset `p`
on; `n` bounds the number of iterations.  `func` and `line` are the function and the line shown last.
The code compares pointers to functions.  Comparing the entries is the same: `function_find` returns
the first entry whose range contains the offset, so of two equal entries only the first is found. -/
def listFrom (prog : Program) : Nat → Nat → Option Function → I32 → Out Str
  | 0, p, _, _ => if p < prog.code.length then .error .diverge else .ok []
  | n + 1, p, func, line =>
    if p < prog.code.length then
      match disasm prog.code p with
      | .error f => .error f
      | .ok none => .error .assert
      | .ok (some (i, k)) =>
        match insText i with
        | .error f => .error f
        | .ok out =>
          match prog.findByPc (BitVec.ofNat 32 p) with
          | none => .error .assert
          | some f =>
            let head := if func = some f then []
              else (if p ≠ 0 then str "\n" else []) ++ str "# function: " ++ cstr f.name ++ str "\n"
            let loc := (prog.lines.get (BitVec.ofNat 32 p)).line
            let mark := if loc = line then [] else str "# line: " ++ decimal loc ++ str "\n"
            match listFrom prog n (p + k) (some f) loc with
            | .error f => .error f
            | .ok r => .ok (head ++ mark ++ out ++ str "\n" ++ r)
    else .ok []

/-- `disassembler_t::dump`, lib_compiler/disassembler.cpp:130-164.  Writing to the file cannot
fail here. -/
def listing (prog : Program) : Out Str := listFrom prog prog.code.length 0 none (-1)

end Ccml
