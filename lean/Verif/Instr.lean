import Verif.Basic
/-!
Instruction set, encoder (`codegen_pass_t::emit`, `program_builder_t`) and disassembler.
-/
namespace Ccml

/-- `instruction_e`, lib_common/instructions.h:6-163, in declaration order. -/
inductive Op
  | ADD | SUB | MUL | DIV | MOD | AND | OR | NOT | NEG | LT | GT | LEQ | GEQ | EQ
  | JMP | TJMP | FJMP | CALL | RET | SCALL | ICALL | POP
  | NEW_INT | NEW_STR | NEW_ARY | NEW_NONE | NEW_FLT | NEW_FUNC | NEW_SCALL
  | LOCALS | GLOBALS | GETV | SETV | DEREF | SETA | GETG | SETG | GETM | SETM | ARY_INIT
  deriving DecidableEq, Repr

namespace Op

/-- All opcodes in the order of the enum (lib_common/instructions.h:6-163). -/
def all : List Op :=
  [ADD, SUB, MUL, DIV, MOD, AND, OR, NOT, NEG, LT, GT, LEQ, GEQ, EQ,
   JMP, TJMP, FJMP, CALL, RET, SCALL, ICALL, POP,
   NEW_INT, NEW_STR, NEW_ARY, NEW_NONE, NEW_FLT, NEW_FUNC, NEW_SCALL,
   LOCALS, GLOBALS, GETV, SETV, DEREF, SETA, GETG, SETG, GETM, SETM, ARY_INIT]

/-- `uint8_t(ins)`: numeric value of the enumerator (lib_common/instructions.h:6-163). -/
def code : Op → Byte
  | ADD => 0 | SUB => 1 | MUL => 2 | DIV => 3 | MOD => 4 | AND => 5 | OR => 6
  | NOT => 7 | NEG => 8 | LT => 9 | GT => 10 | LEQ => 11 | GEQ => 12 | EQ => 13
  | JMP => 14 | TJMP => 15 | FJMP => 16 | CALL => 17 | RET => 18 | SCALL => 19
  | ICALL => 20 | POP => 21 | NEW_INT => 22 | NEW_STR => 23 | NEW_ARY => 24
  | NEW_NONE => 25 | NEW_FLT => 26 | NEW_FUNC => 27 | NEW_SCALL => 28
  | LOCALS => 29 | GLOBALS => 30 | GETV => 31 | SETV => 32 | DEREF => 33 | SETA => 34
  | GETG => 35 | SETG => 36 | GETM => 37 | SETM => 38 | ARY_INIT => 39

/-- Reading an opcode byte back as an enumerator, as the `switch` statements over opcodes
do (lib_vm/thread.cpp:738-783); `none` is the `default` label. -/
def ofByte (b : Byte) : Option Op := all.find? (fun o => o.code == b)

/-- `ins_has_operand`, lib_common/instructions.cpp:5-30. -/
def hasOperand : Op → Bool
  | JMP | FJMP | TJMP | CALL | RET | SCALL | POP | NEW_INT | NEW_STR | NEW_FLT
  | LOCALS | GLOBALS | GETV | SETV | GETG | SETG | GETM | SETM | ARY_INIT => true
  | _ => false

/-- `ins_will_branch`, lib_common/instructions.cpp:32-43. -/
def willBranch : Op → Bool
  | JMP | FJMP | TJMP | CALL | RET => true
  | _ => false

/-- `ins_is_binary_op`, lib_common/instructions.cpp:45-63. -/
def isBinaryOp : Op → Bool
  | ADD | SUB | MUL | DIV | MOD | AND | OR | EQ | LT | GT | LEQ | GEQ => true
  | _ => false

/-- `ins_is_unary_op`, lib_common/instructions.cpp:65-73. -/
def isUnaryOp : Op → Bool
  | NOT | NEG => true
  | _ => false

/-- Opcodes accepted by the operand-less `emit`, lib_compiler/codegen.cpp:547-566. -/
def emits0 : Op → Bool
  | ADD | SUB | MUL | DIV | MOD | AND | OR | NOT | LT | GT | LEQ | GEQ | EQ | NEG
  | SETA | DEREF | NEW_NONE => true
  | _ => false

/-- Opcodes accepted by the one-operand `emit`, lib_compiler/codegen.cpp:575-599. -/
def emits1 : Op → Bool
  | JMP | FJMP | TJMP | RET | POP | NEW_ARY | NEW_INT | NEW_STR | NEW_FLT | NEW_FUNC
  | NEW_SCALL | LOCALS | GLOBALS | GETV | SETV | GETG | SETG | ICALL | GETM | SETM
  | ARY_INIT => true
  | _ => false

/-- Opcodes accepted by the two-operand `emit`, lib_compiler/codegen.cpp:608-614. -/
def emits2 : Op → Bool
  | SCALL | CALL => true
  | _ => false

/-- `gMnemonic` without the `INS_` prefix, lib_compiler/disassembler.cpp:10-32. -/
def mnemonics : List String :=
  ["ADD", "SUB", "MUL", "DIV", "MOD", "AND", "OR", "NOT", "NEG",
   "LT", "GT", "LEQ", "GEQ", "EQ",
   "JMP", "TJMP", "FJMP", "CALL", "RET", "SCALL", "ICALL", "POP",
   "NEW_INT", "NEW_STR", "NEW_ARY", "NEW_NONE", "NEW_FLT",
   "NEW_FUNC", "NEW_SYSCALL", "LOCALS", "GLOBALS",
   "GETV", "SETV", "DEREF", "SETA", "GETG", "SETG", "GETM", "SETM", "ARY_INIT"]

/-- First `switch` of `disasm`, lib_compiler/disassembler.cpp:58-78. -/
def disasm0 : Op → Bool
  | ADD | SUB | MUL | DIV | MOD | AND | OR | NOT | NEG | LT | GT | LEQ | GEQ | EQ
  | SETA | DEREF | NEW_NONE => true
  | _ => false

/-- Second `switch` of `disasm`, lib_compiler/disassembler.cpp:84-110. -/
def disasm1 : Op → Bool
  | JMP | TJMP | FJMP | RET | POP | NEW_ARY | NEW_INT | NEW_STR | NEW_FLT | NEW_FUNC
  | NEW_SCALL | GETV | SETV | LOCALS | GLOBALS | GETG | SETG | ICALL | GETM | SETM
  | ARY_INIT => true
  | _ => false

/-- Third `switch` of `disasm`, lib_compiler/disassembler.cpp:116-125. -/
def disasm2 : Op → Bool
  | SCALL | CALL => true
  | _ => false

end Op

/-- `program_builder_t::write32`, lib_compiler/program_builder.h:27-32: little endian. -/
def le32 (v : I32) : List Byte :=
  [(v >>> 0).setWidth 8, (v >>> 8).setWidth 8, (v >>> 16).setWidth 8, (v >>> 24).setWidth 8]

/-- Reading an `int32_t` through a pointer cast on a little-endian machine
(lib_vm/thread.cpp:78, lib_compiler/disassembler.cpp:81).  Alignment is not modelled. -/
def of32 (b0 b1 b2 b3 : Byte) : I32 :=
  b0.setWidth 32 ||| (b1.setWidth 32 <<< 8) ||| (b2.setWidth 32 <<< 16) ||| (b3.setWidth 32 <<< 24)

/-- `*(int32_t *)(code + p)`: `none` when any of the four bytes lies outside the buffer. -/
def read32 (code : List Byte) (p : Nat) : Option I32 :=
  match code.drop p with
  | b0 :: b1 :: b2 :: b3 :: _ => some (of32 b0 b1 b2 b3)
  | _ => none

/-- `codegen_pass_t::emit(ins)`, lib_compiler/codegen.cpp:544-570.  The line table update
of the function is modelled separately (`Builder.setLine`). -/
def emit0 (o : Op) : Out (List Byte) :=
  if o.emits0 then .ok [o.code] else .error .assert

/-- `codegen_pass_t::emit(ins, o1)`, lib_compiler/codegen.cpp:572-603. -/
def emit1 (o : Op) (a : I32) : Out (List Byte) :=
  if o.emits1 then .ok (o.code :: le32 a) else .error .assert

/-- `codegen_pass_t::emit(ins, o1, o2)`, lib_compiler/codegen.cpp:605-618. -/
def emit2 (o : Op) (a b : I32) : Out (List Byte) :=
  if o.emits2 then .ok (o.code :: le32 a ++ le32 b) else .error .assert

/-- An instruction together with its operands. -/
inductive Ins
  | i0 (o : Op)
  | i1 (o : Op) (a : I32)
  | i2 (o : Op) (a b : I32)
  deriving DecidableEq, Repr

/-- The `emit` overload chosen by the number of operands (lib_compiler/codegen.cpp:544-618). -/
def emitIns : Ins → Out (List Byte)
  | .i0 o => emit0 o
  | .i1 o a => emit1 o a
  | .i2 o a b => emit2 o a b

/-- `disassembler_t::disasm`, lib_compiler/disassembler.cpp:49-128, at offset `p` of `code`.
Result: the instruction printed and the number of bytes consumed; `none` models the
`return 0` for an unknown opcode.  Text formatting is replaced by the instruction itself;
the mnemonic text is `Op.mnemonics`.  Reads outside the buffer are `Fault.ub`. -/
def disasm (code : List Byte) (p : Nat) : Out (Option (Ins × Nat)) :=
  match code.drop p with
  | [] => .error .ub
  | b :: _ =>
    let op := Op.ofByte b
    match op.filter Op.disasm0 with
    | some o => .ok (some (.i0 o, 1))
    | none =>
      match read32 code (p + 1) with
      | none => .error .ub
      | some v1 =>
        match op.filter Op.disasm1 with
        | some o => .ok (some (.i1 o v1, 5))
        | none =>
          match read32 code (p + 5) with
          | none => .error .ub
          | some v2 =>
            match op.filter Op.disasm2 with
            | some o => .ok (some (.i2 o v1 v2, 9))
            | none => .ok none

/-- The loop of `disassembler_t::dump`, lib_compiler/disassembler.cpp:139-163: the
instructions listed, each with its offset.  `n` bounds the number of iterations (every
iteration consumes at least one byte, so the buffer length suffices).  Function headers,
line headers and the text are added in `listFrom` (Listing.lean). -/
def dumpFrom (code : List Byte) : Nat → Nat → Out (List (Nat × Ins))
  | 0, p => if p < code.length then .error .diverge else .ok []
  | n + 1, p =>
    if p < code.length then
      match disasm code p with
      | .error f => .error f
      | .ok none => .error .assert
      | .ok (some (i, k)) =>
        match dumpFrom code n (p + k) with
        | .error f => .error f
        | .ok r => .ok ((p, i) :: r)
    else .ok []

/-- `disassembler_t::dump` over the whole program, lib_compiler/disassembler.cpp:130-164. -/
def dump (code : List Byte) : Out (List (Nat × Ins)) := dumpFrom code code.length 0

/-- `program_builder_t::apply_fixup`, lib_compiler/program_builder.h:44-47: store four bytes
little endian at `idx`; a store outside the vector is undefined. -/
def applyFixup (code : List Byte) (idx : Nat) (v : I32) : Out (List Byte) :=
  if idx + 4 ≤ code.length then
    .ok (code.take idx ++ le32 v ++ code.drop (idx + 4))
  else .error .ub

/-- `get_fixup`, lib_compiler/codegen.cpp:497-499 with `head`, program_builder.h:38-42: position of the operand just written. -/
def getFixup (code : List Byte) : Out Nat :=
  if 4 ≤ code.length then .ok (code.length - 4) else .error .assert

end Ccml
