import Verif.Instr
/-! Helper lemmas on the instruction encoding. -/
namespace Ccml

theorem of32_le32 (v : I32) :
    of32 ((v >>> 0).setWidth 8) ((v >>> 8).setWidth 8) ((v >>> 16).setWidth 8)
      ((v >>> 24).setWidth 8) = v := by
  unfold of32
  apply BitVec.eq_of_getLsbD_eq
  intro i hi
  simp only [BitVec.getLsbD_or, BitVec.getLsbD_setWidth, BitVec.getLsbD_shiftLeft,
    BitVec.getLsbD_ushiftRight]
  have hb : ∀ k, (decide (i - k < 32)) = true := by intro k; simp; omega
  simp only [hi, hb, decide_true, Bool.true_and, Nat.zero_add]
  by_cases h1 : i < 8
  · simp [h1, hi, show i < 16 by omega, show i < 24 by omega]
  · by_cases h2 : i < 16
    · simp [h1, h2, hi, show 8 + (i-8) = i by omega, show i - 8 < 8 by omega,
        show i < 24 by omega]
    · by_cases h3 : i < 24
      · simp [h1, h2, h3, hi, show ¬ i - 8 < 8 by omega, show i - 16 < 8 by omega,
          show 16 + (i-16) = i by omega]
      · simp [h1, h2, h3, hi, show ¬ i - 8 < 8 by omega, show ¬ i - 16 < 8 by omega,
          show i - 24 < 8 by omega, show 24 + (i-24) = i by omega]

@[simp] theorem le32_length (v : I32) : (le32 v).length = 4 := rfl

theorem ofByte_code (o : Op) : Op.ofByte o.code = some o := by cases o <;> rfl

theorem code_inj {a b : Op} (h : a.code = b.code) : a = b := by
  have := ofByte_code a
  rw [h, ofByte_code b] at this
  exact (Option.some.inj this).symm

theorem read32_le32 (pre : List Byte) (v : I32) (post : List Byte) :
    read32 (pre ++ (le32 v ++ post)) pre.length = some v := by
  unfold read32
  simp only [List.drop_append_of_le_length (Nat.le_refl _), List.drop_length, List.nil_append, le32,
    List.cons_append]
  rw [of32_le32]

theorem read32_at {code : List Byte} {p : Nat} {v : I32} {post : List Byte}
    (h : code.drop p = le32 v ++ post) : read32 code p = some v := by
  unfold read32
  rw [h]
  simp only [le32, List.cons_append, List.nil_append]
  rw [of32_le32]

theorem disasm_drop {code : List Byte} {p : Nat} {i : Ins} {bs post : List Byte}
    (h : emitIns i = .ok bs) (hd : code.drop p = bs ++ post) :
    disasm code p = .ok (some (i, bs.length)) := by
  have hd1 : ∀ {b} {rest : List Byte}, code.drop p = b :: rest → code.drop (p + 1) = rest := by
    intro b rest e
    rw [← List.drop_drop, e]; rfl
  cases i with
  | i0 o =>
    simp only [emitIns, emit0] at h
    split at h <;> simp at h
    subst h
    rename_i hc
    have hq : o.disasm0 = true := by revert hc; cases o <;> decide
    simp [disasm, hd, ofByte_code, Option.filter, hq]
  | i1 o a =>
    simp only [emitIns, emit1] at h
    split at h <;> simp at h
    subst h
    rename_i hc
    have hq : o.disasm0 = false := by revert hc; cases o <;> decide
    have hq1 : o.disasm1 = true := by revert hc; cases o <;> decide
    have hr : read32 code (p + 1) = some a := read32_at (hd1 hd)
    rw [List.cons_append] at hd
    simp [disasm, hd, ofByte_code, Option.filter, hq, hq1, hr]
  | i2 o a b =>
    simp only [emitIns, emit2] at h
    split at h <;> simp at h
    subst h
    rename_i hc
    have hq : o.disasm0 = false := by revert hc; cases o <;> decide
    have hq1 : o.disasm1 = false := by revert hc; cases o <;> decide
    have hq2 : o.disasm2 = true := by revert hc; cases o <;> decide
    have h1 : code.drop (p + 1) = le32 a ++ (le32 b ++ post) := by
      have := hd1 hd; simpa using this
    have hr : read32 code (p + 1) = some a := read32_at h1
    have h5 : code.drop (p + 5) = le32 b ++ post := by
      have : code.drop (p + 1 + 4) = (le32 a ++ (le32 b ++ post)).drop 4 := by
        rw [← h1, List.drop_drop]
      simpa [le32] using this
    have hr2 : read32 code (p + 5) = some b := read32_at h5
    rw [List.cons_append] at hd
    simp [disasm, hd, ofByte_code, Option.filter, hq, hq1, hq2, hr, hr2]

theorem emitIns_pos {i : Ins} {bs : List Byte} (h : emitIns i = .ok bs) : 1 ≤ bs.length := by
  cases i <;> simp only [emitIns, emit0, emit1, emit2] at h <;> split at h <;> simp at h <;>
    subst h <;> simp

end Ccml
