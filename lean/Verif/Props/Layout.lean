import Verif.Bounds
import Verif.Whole
import Verif.SampleProg
import Verif.Props.Instr
/-!
C26: the operands of generated code.  C52: generated code belongs to functions.
-/
set_option linter.unusedSimpArgs false
namespace Ccml.Props

/-! ### Specification -/

/-- The number of global variables that are not constant. -/
def globalCount (q : Prog Ref) : Nat :=
  (q.filter fun x => match x with | .var _ false _ => true | _ => false).length

/-- A 32-bit index into a table of `n` entries. -/
def InTable (k : I32) (n : Nat) : Prop := 0 ≤ k.toInt ∧ k.toInt < n

/-- What the operands of an instruction have to be; `lay` are the instructions of the function with
their positions, `n` is the number of global variables. -/
def OperandOk (prog : Program) (n : Nat) (lay : List (Nat × Ins)) : Ins → Prop
  | .i1 .JMP t => ∃ x ∈ lay, t.toInt = x.1
  | .i1 .TJMP t => ∃ x ∈ lay, t.toInt = x.1
  | .i1 .FJMP t => ∃ x ∈ lay, t.toInt = x.1
  | .i2 .CALL k a => ∃ F ∈ prog.functions, F.codeStart = a ∧ k.toInt = F.args.length
  | .i1 .NEW_FUNC a => ∃ F ∈ prog.functions, F.codeStart = a
  | .i1 .NEW_STR k => InTable k prog.strings.length
  | .i1 .GETM k => InTable k prog.strings.length
  | .i1 .SETM k => InTable k prog.strings.length
  | .i2 .SCALL _ k => InTable k prog.syscalls.length
  | .i1 .NEW_SCALL k => InTable k prog.syscalls.length
  | .i1 .GETG k => InTable k n
  | .i1 .SETG k => InTable k n
  | _ => True

/-! ### Proofs -/

section
variable {L : Layout} {opt : Bool} {p : Prog Unit} {q : Prog Ref} {prog : Program}

theorem globalCount_eq (q : Prog Ref) : globalCount q = q.countP Item.isSlot := by
  unfold globalCount
  rw [List.countP_eq_length_filter]
  congr 2
  funext x
  cases x with
  | var t c e => cases c <;> rfl
  | _ => rfl

theorem codeOf_asm (fa : Str → I32) : ∀ (a : Asm), EmitOk a →
    CodeOf (a.map fun x => x.1.resolve fa) (bytesOf fa a)
  | [], _ => .nil
  | x :: a, h => .cons (emit_resolve fa h.1) (codeOf_asm fa a h.2)

theorem mem_laidOut (fa : Str → I32) : ∀ (a : Asm) (pc k : Nat), k ∈ starts pc a →
    ∃ x ∈ laidOut pc (a.map fun x => x.1.resolve fa), x.1 = k
  | [], pc, k, h => by cases h
  | x :: a, pc, k, h => by
    simp only [starts, List.mem_cons] at h
    simp only [List.map_cons, laidOut, List.mem_cons]
    rcases h with rfl | h
    · exact ⟨_, .inl rfl, rfl⟩
    · have hw : width (x.1.resolve fa) = x.1.width := by
        obtain ⟨x, _⟩ := x
        cases x with
        | ins i => cases i <;> rfl
        | _ => rfl
      rw [hw]
      obtain ⟨y, hy, hk⟩ := mem_laidOut fa a _ k h
      exact ⟨y, .inr hy, hk⟩

theorem laidOut_mem : ∀ {is : List Ins} {pc : Nat} {x : Nat × Ins}, x ∈ laidOut pc is → x.2 ∈ is
  | [], _, _, h => by cases h
  | i :: is, pc, x, h => by
    simp only [laidOut, List.mem_cons] at h ⊢
    rcases h with rfl | h
    · exact .inl rfl
    · exact .inr (laidOut_mem h)

theorem emitOk_seg : ∀ {l : List Seg}, EmitOk (segsAsm l) → ∀ s ∈ l, EmitOk s.asm
  | [], _, s, hs => by cases hs
  | x :: l, h, s, hs => by
    rw [show segsAsm (x :: l) = x.asm ++ segsAsm l from rfl, emitOk_append] at h
    rcases List.mem_cons.1 hs with rfl | hs
    · exact h.1
    · exact emitOk_seg h.2 s hs

theorem strs_seg : ∀ {l : List Seg} {pc si : Nat}, Chain pc si l → ∀ s ∈ l,
    s.si + s.strs.length ≤ si + (segsStrs l).length
  | [], _, _, _, s, hs => by cases hs
  | x :: l, pc, si, ⟨a, b, c, d⟩, s, hs => by
    rw [show segsStrs (x :: l) = x.strs ++ segsStrs l from rfl, List.length_append]
    rcases List.mem_cons.1 hs with rfl | hs
    · omega
    · have := strs_seg d s hs
      omega

theorem segsOf_good {sys : List Syscall} {q0 : Prog Ref} : ∀ {xs : List (Item Ref)} {pc si segs},
    segsOf q0 sys pc si xs = .ok segs → ∀ s ∈ segs,
      AllGood q0 sys s.si (s.si + s.strs.length) (starts s.pc s.asm) s.asm
  | [], pc, si, segs, h, s, hs => by simp only [segsOf] at h; cases h; cases hs
  | .func f :: xs, pc, si, segs, h, s, hs => by
    simp only [segsOf] at h
    obtain ⟨a, ha, h⟩ := bind_ok.1 h
    obtain ⟨r, hr, h⟩ := bind_ok.1 h
    cases h
    rcases List.mem_cons.1 hs with rfl | hs
    · exact asmFunc_good ha
    · exact segsOf_good hr s hs
  | .var .. :: xs, pc, si, segs, h, s, hs => by
    simp only [segsOf] at h
    exact segsOf_good h s hs
  | .syscall .. :: xs, pc, si, segs, h, s, hs => by
    simp only [segsOf] at h
    exact segsOf_good h s hs

theorem start_lt : ∀ {a : Asm} {pc k : Nat}, k ∈ starts pc a → k < pc + widthOf a
  | [], _, _, h => by cases h
  | x :: a, pc, k, h => by
    simp only [starts, List.mem_cons] at h
    have hw : 0 < x.1.width := by
      obtain ⟨x, _⟩ := x
      cases x with
      | ins i => cases i <;> simp [AIns.width, Ins.width]
      | _ => simp [AIns.width]
    rcases h with rfl | h
    · simp only [widthOf]; omega
    · have := start_lt h
      simp only [widthOf]; omega

theorem i32_inTable {j n : Nat} (h : j < n) (hn : n ≤ 2147483648) : InTable (i32 j) n := by
  unfold InTable
  rw [toInt_i32 (by omega)]
  omega

/-- C26: the code of every function of a compiled program is a sequence of instructions.  Its jumps
go to the first bytes of instructions of the same function, its calls to the first byte of a
function with that number of arguments, and its table indices are in range. -/
theorem C26_operands (hc : Compiles L opt p q prog) (hi : ∀ x ∈ p, x.declName ≠ initName)
    (hl : Fits q prog) (F : Function) (hF : F ∈ prog.functions) :
    ∃ (a : Nat) (bs : List Byte) (is : List Ins), F.codeStart.toInt = a ∧
      F.codeEnd.toInt = (a + bs.length : Nat) ∧
      (∃ post, prog.code.drop a = bs ++ post) ∧ CodeOf is bs ∧
      ∀ x ∈ laidOut a is, OperandOk prog (globalCount q) (laidOut a is) x.2 := by
  have hn := hc.func hi
  have hc' := hc
  obtain ⟨q0, h1, h2, h3⟩ := hc
  obtain ⟨segs, es, G⟩ := codegen_generated hn h3
  obtain ⟨s, hs, -, hstart, hstop⟩ := G.entry hF
  have hsm := G.small s hs
  have hstop' : s.stop = s.pc + widthOf s.asm := rfl
  refine ⟨s.pc, bytesOf (addrMap segs) s.asm, s.asm.map fun x => x.1.resolve (addrMap segs), ?_, ?_, ?_, ?_, ?_⟩
  · rw [hstart, toInt_i32 (by omega)]
  · rw [hstop, toInt_i32 hsm, bytesOf_length, hstop']
  · have hcode := Chain.codeAt (e := { (Env.std prog toyFl Mem.abs) with prog := prog }) (pre := [])
      (fa := addrMap segs) G.chain (by rw [List.nil_append]; exact G.code) rfl s hs
    obtain ⟨pre, post, h4, h5⟩ := hcode
    refine ⟨post, ?_⟩
    have h4 : prog.code = _ := h4
    rw [h4, ← h5]
    simp
  · exact codeOf_asm _ _ (emitOk_seg G.ok s hs)
  · intro x hx
    have hm := laidOut_mem hx
    obtain ⟨y, hy, hyx⟩ := List.mem_map.1 hm
    have good : AllGood q prog.syscalls s.si (s.si + s.strs.length) (starts s.pc s.asm) s.asm := by
      obtain ⟨l, a, i, k1, k2, k3, k4⟩ := G.funcs
      rw [k4, List.mem_append] at hs
      rcases hs with hs | hs
      · exact segsOf_good k1 s hs
      · rw [List.mem_singleton] at hs
        subst hs
        subst k3
        exact asmInit_good k2
    have hstr : s.si + s.strs.length ≤ prog.strings.length := by
      have := strs_seg G.chain s hs
      rw [G.strings]
      omega
    have hstrl : prog.strings.length < 2147483648 := by
      have h4 := G.chain.strs_le
      have h5 := G.codeLength.2
      rw [G.code, bytesOf_length] at h5
      rw [G.strings]
      omega
    have target : ∀ f : FuncDecl Ref, Item.func f ∈ q → ∃ F ∈ prog.functions,
        F.codeStart = addrMap segs f.name.str ∧ F.args.length = f.args.length := by
      intro f hf
      obtain ⟨j, hj⟩ := List.mem_iff_getElem?.1 hf
      obtain ⟨F', k1, k2, k3, k4, -⟩ := hc'.entry hi hj
      obtain ⟨s', k5, k6, k7, -⟩ := G.entry k2
      refine ⟨F', k2, ?_, k4⟩
      rw [k7, ← k3, k6, mapGet_reverse G.names k5]
    have := good y hy
    rw [← hyx]
    revert this
    generalize y.1 = z
    intro hg
    match z, hg with
    | .ins (.i0 o), _ => cases o <;> trivial
    | .ins (.i1 o v), ⟨g1, g2, g3, g4, g5⟩ =>
      have jmp : o.isJump = true → ∃ x ∈ laidOut s.pc (s.asm.map fun x => x.1.resolve (addrMap segs)),
          v.toInt = x.1 := by
        intro ho
        obtain ⟨k, hk, rfl⟩ := g1 ho
        obtain ⟨y, hy, hyk⟩ := mem_laidOut (addrMap segs) _ _ _ hk
        have := start_lt hk
        exact ⟨y, hy, by rw [toInt_i32 (by omega), hyk]⟩
      have txt : o.isText = true → InTable v prog.strings.length := by
        intro ho
        obtain ⟨k, hk, hk', rfl⟩ := g2 ho
        exact i32_inTable (by omega) (by omega)
      have glob : o.isGlobal = true → InTable v (globalCount q) := by
        intro ho
        obtain ⟨k, hk, rfl⟩ := g4 ho
        have := hl.slots
        rw [globalCount_eq]
        exact i32_inTable hk (by omega)
      have sc : o = .NEW_SCALL → InTable v prog.syscalls.length := by
        intro ho
        obtain ⟨k, hk, rfl⟩ := g3 ho
        have := hl.table
        exact i32_inTable hk (by omega)
      simp only [AIns.resolve]
      cases o <;> first
        | trivial
        | exact jmp rfl
        | exact txt rfl
        | exact glob rfl
        | exact sc rfl
        | exact absurd rfl g5
    | .ins (.i2 o a b), ⟨ho, k, hk, hb⟩ =>
      subst ho
      subst hb
      have := hl.table
      exact i32_inTable hk (by omega)
    | .call n f, ⟨g, hg, hgn, hgl⟩ =>
      obtain ⟨F', k1, k2, k3⟩ := target g hg
      subst hgn
      subst hgl
      obtain ⟨j, hj⟩ := List.mem_iff_getElem?.1 hg
      have := hl.locals j g hj
      exact ⟨F', k1, k2, by rw [toInt_i32 (by omega), k3]⟩
    | .fn f, ⟨g, hg, hgn⟩ =>
      obtain ⟨F', k1, k2, k3⟩ := target g hg
      subst hgn
      exact ⟨F', k1, k2⟩

example : ∃ (a : Nat) (bs : List Byte) (is : List Ins), (sampleEntry 3).codeStart.toInt = a ∧
      (sampleEntry 3).codeEnd.toInt = (a + bs.length : Nat) ∧
      (∃ post, sampleProg.code.drop a = bs ++ post) ∧ CodeOf is bs ∧
      ∀ x ∈ laidOut a is, OperandOk sampleProg (globalCount sampleQ) (laidOut a is) x.2 :=
  C26_operands sample_compiles sample_names sample_fits _
    (by
      have h := sample_entry (i := 3) (by decide +kernel)
      unfold Program.findByName at h
      exact List.mem_of_find?_eq_some h)

theorem chain_cover : ∀ {l : List Seg} {pc si x : Nat}, Chain pc si l → pc ≤ x →
    x < pc + widthOf (segsAsm l) → ∃ s ∈ l, s.pc ≤ x ∧ x < s.stop
  | [], pc, si, x, _, h1, h2 => by simp [segsAsm, widthOf] at h2; omega
  | y :: l, pc, si, x, ⟨a, b, c, d⟩, h1, h2 => by
    rw [show segsAsm (y :: l) = y.asm ++ segsAsm l from rfl, widthOf_append] at h2
    by_cases hx : x < pc + widthOf y.asm
    · exact ⟨y, List.mem_cons_self, by omega, by unfold Seg.stop; omega⟩
    · obtain ⟨s, hs, h3⟩ := chain_cover d (x := x) (by omega) (by omega)
      exact ⟨s, List.mem_cons_of_mem _ hs, h3⟩

/-- C52: every address of the code of a compiled program belongs to exactly one function, the one
that the lookup finds. -/
theorem C52_generated (hc : Compiles L opt p q prog) (hi : ∀ x ∈ p, x.declName ≠ initName)
    (x : Nat) (hx : x < prog.code.length) :
    ∃ F ∈ prog.functions, F.codeStart.toInt ≤ x ∧ x < F.codeEnd.toInt ∧
      prog.findByPc (BitVec.ofNat 32 x) = some F ∧
      ∀ F' ∈ prog.functions, F'.codeStart.toInt ≤ x → x < F'.codeEnd.toInt → F' = F := by
  have hn := hc.func hi
  obtain ⟨q0, h1, h2, h3⟩ := hc
  obtain ⟨segs, es, G⟩ := codegen_generated hn h3
  obtain ⟨s, hs, ha, hb⟩ := chain_cover (x := x) G.chain (by omega)
    (by rw [G.code, bytesOf_length] at hx; omega)
  have : s.name ∈ prog.functions.map Function.name := by
    rw [G.fnames]; exact List.mem_map_of_mem hs
  obtain ⟨F, hF, hFn⟩ := List.mem_map.1 this
  have range : ∀ F' ∈ prog.functions, ∃ s' ∈ segs, F'.name = s'.name ∧ F'.codeStart.toInt = s'.pc ∧
      F'.codeEnd.toInt = s'.stop := by
    intro F' hF'
    obtain ⟨s', k1, k2, k3, k4⟩ := G.entry hF'
    have := G.small s' k1
    have h6 : s'.pc ≤ s'.stop := by unfold Seg.stop; omega
    exact ⟨s', k1, k2, by rw [k3, toInt_i32 (by omega)], by rw [k4, toInt_i32 this]⟩
  obtain ⟨s', k1, k2, k3, k4⟩ := range F hF
  have := name_unique G.names k1 hs (by rw [← k2, hFn])
  subst this
  refine ⟨F, hF, by omega, by omega, G.findByPc hs hF hFn ha hb, ?_⟩
  intro F' hF' h4 h5
  obtain ⟨s2, j1, j2, j3, j4⟩ := range F' hF'
  have := G.chain.unique s' hs s2 j1 ha hb (by omega) (by omega)
  subst this
  exact fname_unique (by rw [G.fnames]; exact G.names) hF' hF (by rw [j2, hFn])

example : sampleProg.code.length = 235 := by decide +kernel
example : ∃ F ∈ sampleProg.functions, F.codeStart.toInt ≤ (100 : Nat) ∧ (100 : Nat) < F.codeEnd.toInt ∧
      sampleProg.findByPc (BitVec.ofNat 32 100) = some F ∧
      ∀ F' ∈ sampleProg.functions, F'.codeStart.toInt ≤ (100 : Nat) → (100 : Nat) < F'.codeEnd.toInt → F' = F :=
  C52_generated sample_compiles sample_names 100 (by decide +kernel)

end
end Ccml.Props
