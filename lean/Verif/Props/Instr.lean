import Verif.InstrLemmas
/-!
Properties of the instruction encoding: C03, C04, C05, C51.
-/
namespace Ccml.Props
open Ccml

/-! ### Specification -/

/-- Concatenated code of a list of emitted instructions. -/
inductive CodeOf : List Ins → List Byte → Prop
  | nil : CodeOf [] []
  | cons {i bs is rest} : emitIns i = .ok bs → CodeOf is rest → CodeOf (i :: is) (bs ++ rest)

/-- Number of bytes an instruction must occupy: opcode plus four bytes per operand. -/
def width : Ins → Nat
  | .i0 _ => 1
  | .i1 _ _ => 5
  | .i2 _ _ _ => 9

/-- The instructions with the offsets at which they must stand, starting at `p`. -/
def laidOut (p : Nat) : List Ins → List (Nat × Ins)
  | [] => []
  | i :: is => (p, i) :: laidOut (p + width i) is

/-! ### C03 -/

/-- C03: an emitted instruction occupies one byte plus four bytes per operand. -/
theorem C03_emit_width (i : Ins) (bs : List Byte) (h : emitIns i = .ok bs) :
    bs.length = width i := by
  cases i <;> simp only [emitIns, emit0, emit1, emit2] at h <;> split at h <;> simp at h <;>
    subst h <;> simp [width]

/-- C03: every opcode is emitted with exactly one number of operands. -/
theorem C03_every_opcode_emitted (o : Op) (a b : I32) :
    ((∃ bs, emit0 o = .ok bs) ∧ emit1 o a = .error .assert ∧ emit2 o a b = .error .assert) ∨
    (emit0 o = .error .assert ∧ (∃ bs, emit1 o a = .ok bs) ∧ emit2 o a b = .error .assert) ∨
    (emit0 o = .error .assert ∧ emit1 o a = .error .assert ∧ (∃ bs, emit2 o a b = .ok bs)) := by
  cases o <;> simp [emit0, emit1, emit2, Op.emits0, Op.emits1, Op.emits2]

/-- C03: the disassembler reads back the instruction written, whatever surrounds it, and
advances by exactly the bytes written. -/
theorem C03_disasm_reads_emitted (i : Ins) (bs pre post : List Byte) (h : emitIns i = .ok bs) :
    disasm (pre ++ bs ++ post) pre.length = .ok (some (i, bs.length)) := by
  exact disasm_drop (post := post) h (by simp [List.append_assoc])

example : emitIns (.i2 .CALL 2 (-7)) = .ok [17, 2, 0, 0, 0, 0xf9, 0xff, 0xff, 0xff] := by decide
example : disasm [25, 17, 2, 0, 0, 0, 0xf9, 0xff, 0xff, 0xff, 0] 1 =
    .ok (some (.i2 .CALL 2 (-7), 9)) := by decide

/-- C03: different instructions have different encodings, even as prefixes of longer code. -/
theorem C03_encoding_unambiguous (i j : Ins) (bs cs post post' : List Byte)
    (hi : emitIns i = .ok bs) (hj : emitIns j = .ok cs) (h : bs ++ post = cs ++ post') :
    i = j ∧ bs = cs ∧ post = post' := by
  have h1 := disasm_drop (code := bs ++ post) (p := 0) hi rfl
  have h2 := disasm_drop (code := bs ++ post) (p := 0) hj h
  rw [h1] at h2
  simp only [Except.ok.injEq, Option.some.injEq, Prod.mk.injEq] at h2
  obtain ⟨e, _⟩ := h2
  subst e
  rw [hi] at hj
  injection hj with e
  subst e
  exact ⟨rfl, rfl, List.append_cancel_left h⟩

/-! ### C04 -/

theorem dumpFrom_code (is : List Ins) (rest : List Byte) (hc : CodeOf is rest) :
    ∀ (pre : List Byte) (n : Nat), rest.length ≤ n →
      dumpFrom (pre ++ rest) n pre.length = .ok (laidOut pre.length is) := by
  induction hc with
  | nil => intro pre n _; cases n <;> simp [dumpFrom, laidOut]
  | @cons i bs is rest he _ ih =>
    intro pre n hn
    have hp := emitIns_pos he
    rw [List.length_append] at hn
    obtain ⟨m, rfl⟩ : ∃ m, n = m + 1 := ⟨n - 1, by omega⟩
    have hd := disasm_drop (code := pre ++ (bs ++ rest)) (p := pre.length)
      (post := rest) he (by simp)
    have := ih (pre ++ bs) m (by omega)
    rw [List.append_assoc, List.length_append] at this
    have hlt : pre.length < (pre ++ (bs ++ rest)).length := by simp; omega
    simp only [dumpFrom, hlt, if_true, hd, this, laidOut]
    rw [C03_emit_width i bs he]

/-- C04: the disassembly listing of a concatenation of emitted instructions is exactly these
instructions, in order, each at the offset where it was written. -/
theorem C04_dump_lists_code (is : List Ins) (code : List Byte) (h : CodeOf is code) :
    dump code = .ok (laidOut 0 is) := by
  have := dumpFrom_code is code h [] code.length (Nat.le_refl _)
  simpa [dump] using this

example : dump [22, 5, 0, 0, 0, 25, 19, 1, 0, 0, 0, 3, 0, 0, 0] =
    .ok [(0, .i1 .NEW_INT 5), (5, .i0 .NEW_NONE), (6, .i2 .SCALL 1 3)] := by decide

/-- C04: the instruction sequence is determined by the code bytes. -/
theorem C04_code_determines_instructions (is js : List Ins) (code : List Byte)
    (h : CodeOf is code) (h' : CodeOf js code) : is = js := by
  have e := C04_dump_lists_code is code h
  rw [C04_dump_lists_code js code h'] at e
  injection e with e
  have key : ∀ (p : Nat) (l : List Ins), (laidOut p l).map Prod.snd = l := by
    intro p l
    induction l generalizing p with
    | nil => rfl
    | cons a t ih => simp [laidOut, ih]
  have := congrArg (List.map Prod.snd) e
  rw [key, key] at this
  exact this.symm

/-! ### C05 -/

/-- C05: patching stores the value where it is read back, and leaves the length and every
other byte unchanged. -/
theorem C05_fixup_frame (code : List Byte) (idx : Nat) (v : I32) (h : idx + 4 ≤ code.length) :
    ∃ code', applyFixup code idx v = .ok code' ∧ code'.length = code.length ∧
      read32 code' idx = some v ∧
      ∀ k, k < idx ∨ idx + 4 ≤ k → code'[k]? = code[k]? := by
  refine ⟨code.take idx ++ le32 v ++ code.drop (idx + 4), by simp [applyFixup, h], ?_, ?_, ?_⟩
  · simp; omega
  · have hl : (code.take idx).length = idx := by simp; omega
    have := read32_le32 (code.take idx) v (code.drop (idx + 4))
    rw [hl] at this
    rw [List.append_assoc]; exact this
  · intro k hk
    have hl : (code.take idx).length = idx := by simp; omega
    rcases hk with hk | hk
    · rw [List.append_assoc, List.getElem?_append_left (by omega), List.getElem?_take]
      simp [hk]
    · rw [List.append_assoc, List.getElem?_append_right (by omega),
        List.getElem?_append_right (by simp; omega), List.getElem?_drop]
      congr 1
      simp only [le32_length, hl]
      omega

/-- C05: a store that does not fit in the code is the only way patching goes wrong. -/
theorem C05_fixup_out_of_range (code : List Byte) (idx : Nat) (v : I32)
    (h : code.length < idx + 4) : applyFixup code idx v = .error .ub := by
  simp [applyFixup]; omega

/-- C05: the position remembered right after emitting an instruction with operands is the
position of its last operand, and patching it changes that operand and nothing else. -/
theorem C05_fixup_patches_operand (pre post : List Byte) (o : Op) (a v : I32) (bs : List Byte)
    (h : emit1 o a = .ok bs) :
    ∃ at_ bs', getFixup (pre ++ bs) = .ok at_ ∧ emit1 o v = .ok bs' ∧
      applyFixup (pre ++ bs ++ post) at_ v = .ok (pre ++ bs' ++ post) := by
  simp only [emit1] at h
  split at h <;> simp at h
  subst h
  rename_i ho
  refine ⟨pre.length + 1, o.code :: le32 v, ?_, by simp [emit1, ho], ?_⟩
  · simp [getFixup]
  · simp only [applyFixup]
    rw [if_pos (by simp; omega)]
    have e : pre ++ o.code :: le32 a ++ post = (pre ++ [o.code]) ++ (le32 a ++ post) := by simp
    have hl : (pre ++ [o.code]).length = pre.length + 1 := by simp
    rw [e, ← hl, List.take_left, ← List.drop_drop, List.drop_left]
    simp [le32]

/-- C05: the same for the call instructions, whose last operand is the target. -/
theorem C05_fixup_patches_target (pre post : List Byte) (o : Op) (n a v : I32) (bs : List Byte)
    (h : emit2 o n a = .ok bs) :
    ∃ at_ bs', getFixup (pre ++ bs) = .ok at_ ∧ emit2 o n v = .ok bs' ∧
      applyFixup (pre ++ bs ++ post) at_ v = .ok (pre ++ bs' ++ post) := by
  simp only [emit2] at h
  split at h <;> simp at h
  subst h
  rename_i ho
  refine ⟨pre.length + 5, o.code :: (le32 n ++ le32 v), ?_, by simp [emit2, ho], ?_⟩
  · simp [getFixup]
  · simp only [applyFixup]
    rw [if_pos (by simp; omega)]
    have e : pre ++ o.code :: (le32 n ++ le32 a) ++ post =
        (pre ++ o.code :: le32 n) ++ (le32 a ++ post) := by simp
    have hl : (pre ++ o.code :: le32 n).length = pre.length + 5 := by simp
    rw [e, ← hl, List.take_left, ← List.drop_drop, List.drop_left]
    simp [le32]

example : emit1 .JMP 0 = .ok [14, 0, 0, 0, 0] := by decide
example : applyFixup [25, 14, 0, 0, 0, 0, 25] 2 300 = .ok [25, 14, 44, 1, 0, 0, 25] := by decide

/-! ### C51 -/

/-- Specification: the encoding of the opcode carries at least one operand. -/
def carriesOperand (o : Op) : Prop := ∃ a b bs, (emit1 o a = .ok bs ∨ emit2 o a b = .ok bs)

/-- C51 (partial): away from four opcodes the query agrees with the encoding.  Missing: the
query answers `false` for ICALL, NEW_ARY, NEW_FUNC and NEW_SCALL, see
`C51_has_operand_wrong`. -/
theorem C51_has_operand_partial (o : Op)
    (h : o ≠ .ICALL ∧ o ≠ .NEW_ARY ∧ o ≠ .NEW_FUNC ∧ o ≠ .NEW_SCALL) :
    o.hasOperand = true ↔ carriesOperand o := by
  revert h
  cases o <;> simp [carriesOperand, Op.hasOperand, emit1, emit2, Op.emits1, Op.emits2]

example : Op.GETG ≠ .ICALL ∧ Op.GETG ≠ .NEW_ARY ∧ Op.GETG ≠ .NEW_FUNC ∧ Op.GETG ≠ .NEW_SCALL := by
  decide

/-- C51: the violation. -/
theorem C51_has_operand_wrong (o : Op)
    (h : o = .ICALL ∨ o = .NEW_ARY ∨ o = .NEW_FUNC ∨ o = .NEW_SCALL) :
    o.hasOperand = false ∧ carriesOperand o := by
  rcases h with h | h | h | h <;> subst h <;>
    simp [carriesOperand, Op.hasOperand, emit1, emit2, Op.emits1, Op.emits2]

/-- C51: every opcode is listed under its own number, so each has its own mnemonic, and no
opcode shares a byte with another. -/
theorem C51_mnemonics_indexed (o : Op) :
    ∃ s, Op.mnemonics[o.code.toNat]? = some s ∧
      ∀ o', Op.mnemonics[o'.code.toNat]? = some s → o' = o := by
  cases o <;> refine ⟨_, rfl, ?_⟩ <;> intro o' <;> cases o' <;> decide

/-- C51: the arithmetic classification partitions the operand-less operator opcodes by the
number of values they combine. -/
theorem C51_operator_classes (o : Op) :
    (o.isBinaryOp = true → o.isUnaryOp = false ∧ ¬ carriesOperand o) ∧
    (o.isUnaryOp = true → ¬ carriesOperand o) := by
  cases o <;> simp [carriesOperand, Op.isBinaryOp, Op.isUnaryOp, emit1, emit2, Op.emits1, Op.emits2]

end Ccml.Props
