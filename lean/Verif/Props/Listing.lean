import Verif.Listing
import Verif.Props.Lines
import Verif.Props.Ops
/-!
Properties of the disassembly listing: C68.
-/
namespace Ccml.Props
open Ccml

/-! ### Specification -/

/-- What each instruction is called in a listing. -/
def opName : Op → Str
  | .ADD => str "INS_ADD" | .SUB => str "INS_SUB" | .MUL => str "INS_MUL" | .DIV => str "INS_DIV"
  | .MOD => str "INS_MOD" | .AND => str "INS_AND" | .OR => str "INS_OR" | .NOT => str "INS_NOT"
  | .NEG => str "INS_NEG" | .LT => str "INS_LT" | .GT => str "INS_GT" | .LEQ => str "INS_LEQ"
  | .GEQ => str "INS_GEQ" | .EQ => str "INS_EQ" | .JMP => str "INS_JMP" | .TJMP => str "INS_TJMP"
  | .FJMP => str "INS_FJMP" | .CALL => str "INS_CALL" | .RET => str "INS_RET"
  | .SCALL => str "INS_SCALL" | .ICALL => str "INS_ICALL" | .POP => str "INS_POP"
  | .NEW_INT => str "INS_NEW_INT" | .NEW_STR => str "INS_NEW_STR" | .NEW_ARY => str "INS_NEW_ARY"
  | .NEW_NONE => str "INS_NEW_NONE" | .NEW_FLT => str "INS_NEW_FLT"
  | .NEW_FUNC => str "INS_NEW_FUNC" | .NEW_SCALL => str "INS_NEW_SYSCALL"
  | .LOCALS => str "INS_LOCALS" | .GLOBALS => str "INS_GLOBALS" | .GETV => str "INS_GETV"
  | .SETV => str "INS_SETV" | .DEREF => str "INS_DEREF" | .SETA => str "INS_SETA"
  | .GETG => str "INS_GETG" | .SETG => str "INS_SETG" | .GETM => str "INS_GETM"
  | .SETM => str "INS_SETM" | .ARY_INIT => str "INS_ARY_INIT"

/-- The line of an instruction: its name and its operands in decimal. -/
def insLine : Ins → Str
  | .i0 o => opName o
  | .i1 o a => opName o ++ str " " ++ decimal a
  | .i2 o a b => opName o ++ str " " ++ decimal a ++ str " " ++ decimal b

/-- The lines of instructions, each with the source line it belongs to.  The source line is shown
when it differs from the one before, `last`. -/
def rowsText : I32 → List (I32 × Ins) → Str
  | _, [] => []
  | last, (l, i) :: rest =>
    (if l = last then [] else str "# line: " ++ decimal l ++ str "\n") ++ insLine i ++ str "\n" ++
      rowsText l rest

/-- The source line shown last. -/
def lastLine : I32 → List (I32 × Ins) → I32
  | last, [] => last
  | _, (l, _) :: rest => lastLine l rest

/-- The functions, each under a header, separated by empty lines. -/
def blocksText : Bool → I32 → List (Function × List (I32 × Ins)) → Str
  | _, _, [] => []
  | first, last, (F, rows) :: rest =>
    (if first then [] else str "\n") ++ str "# function: " ++ cstr F.name ++ str "\n" ++
      rowsText last rows ++ blocksText false (lastLine last rows) rest

/-- `rows` are the instructions of the function `F`, with the lines recorded for them. -/
structure BodyOf (prog : Program) (F : Function) (rows : List (I32 × Ins)) : Prop where
  nonempty : rows ≠ []
  code : ∃ (a : Nat) (bs post : List Byte), F.codeStart.toInt = a ∧ F.codeEnd.toInt = (a + bs.length : Nat) ∧
    prog.code.drop a = bs ++ post ∧ CodeOf (rows.map Prod.snd) bs ∧
    rows.map Prod.fst = (laidOut a (rows.map Prod.snd)).map fun x => (prog.lines.get (i32 x.1)).line

/-! ### Text of instructions -/

theorem mnemonic_ok (o : Op) : mnemonic o = .ok (opName o) := by cases o <;> decide

theorem insText_ok (i : Ins) : insText i = .ok (insLine i) := by
  cases i <;> simp [insText, mnemonic_ok, insLine] <;> rfl

/-! ### The loop -/

variable {prog : Program}

theorem listFrom_end {n p : Nat} {func : Option Function} {line : I32} (h : prog.code.length ≤ p) :
    listFrom prog n p func line = .ok [] := by
  cases n <;> simp [listFrom, Nat.not_lt.2 h]

theorem listFrom_rows {F : Function} : ∀ (is : List Ins) (bs : List Byte), CodeOf is bs →
    ∀ (pre post : List Byte) (n : Nat) (line : I32) (r : Str), prog.code = pre ++ bs ++ post →
    (∀ x ∈ laidOut pre.length is, prog.findByPc (i32 x.1) = some F) →
    listFrom prog n (pre.length + bs.length) (some F) (lastLine line
      ((laidOut pre.length is).map fun x => ((prog.lines.get (i32 x.1)).line, x.2))) = .ok r →
    listFrom prog (n + is.length) pre.length (some F) line = .ok (rowsText line
      ((laidOut pre.length is).map fun x => ((prog.lines.get (i32 x.1)).line, x.2)) ++ r) := by
  intro is bs hc
  induction hc with
  | nil => intro pre post n line r _ _ h; simpa [laidOut, rowsText, lastLine] using h
  | @cons i b is rest he hc ih =>
    intro pre post n line r hcode hf h
    have hd := disasm_drop (code := prog.code) (p := pre.length) (post := rest ++ post) he
      (by rw [hcode]; simp)
    have hw := C03_emit_width i b he
    have hp := emitIns_pos he
    simp only [laidOut, List.map_cons, lastLine, rowsText, List.length_cons] at h ⊢
    have hlt : pre.length < prog.code.length := by rw [hcode]; simp; omega
    have hF : prog.findByPc (BitVec.ofNat 32 pre.length) = some F := hf (pre.length, i) (by simp [laidOut])
    have := ih (pre ++ b) post n ((prog.lines.get (i32 pre.length)).line) r (by rw [hcode]; simp)
      (fun x hx => hf x (by
        rw [List.length_append, hw] at hx; simp [laidOut, hx]))
      (by
        rw [List.length_append] at h ⊢
        rw [hw, ← Nat.add_assoc] at h
        rw [hw]; exact h)
    rw [List.length_append, hw] at this
    rw [show n + (is.length + 1) = (n + is.length) + 1 from rfl, listFrom, if_pos hlt, hd]
    dsimp only
    rw [insText_ok, hF]
    dsimp only
    rw [show BitVec.ofNat 32 pre.length = i32 pre.length from rfl, hw, this]
    simp

theorem listFrom_head {F : Function} {n p : Nat} {func : Option Function} {line : I32} {r : Str}
    (hlt : p < prog.code.length) (hF : prog.findByPc (i32 p) = some F) (hne : func ≠ some F)
    (h : listFrom prog (n + 1) p (some F) line = .ok r) : listFrom prog (n + 1) p func line =
      .ok ((if p ≠ 0 then str "\n" else []) ++ str "# function: " ++ cstr F.name ++ str "\n" ++ r) := by
  have hF : prog.findByPc (BitVec.ofNat 32 p) = some F := hF
  simp only [listFrom, if_pos hlt, hF, if_true, if_neg hne] at h ⊢
  cases hd : disasm prog.code p with
  | error f => rw [hd] at h; cases h
  | ok x =>
    rw [hd] at h
    cases x with
    | none => cases h
    | some x =>
      dsimp only at h ⊢
      rw [insText_ok] at h ⊢
      dsimp only at h ⊢
      cases hr : listFrom prog n (p + x.2) (some F) (prog.lines.get (BitVec.ofNat 32 p)).line with
      | error f => rw [hr] at h; cases h
      | ok r' =>
        rw [hr] at h
        cases h
        simp

/-- The instructions of a segment with their lines. -/
def segRows (prog : Program) (fa : Str → I32) (s : Seg) : List (I32 × Ins) :=
  (laidOut s.pc (s.asm.map fun x => x.1.resolve fa)).map fun x => ((prog.lines.get (i32 x.1)).line, x.2)

theorem laidOut_in {fa : Str → I32} {s : Seg} {x : Nat × Ins}
    (h : x ∈ laidOut s.pc (s.asm.map fun x => x.1.resolve fa)) : s.pc ≤ x.1 ∧ x.1 < s.stop := by
  obtain ⟨h1, h2, -⟩ := laidOut_tok h
  exact ⟨h1, h2⟩

theorem length_le_width : ∀ a : Asm, a.length ≤ widthOf a
  | [] => Nat.le_refl _
  | x :: a => by
    have := length_le_width a
    have := Toks.width_pos x.1
    simp only [List.length_cons, widthOf]; omega

theorem listFrom_segs (fa : Str → I32) : ∀ (l : List (Seg × Function)) (pre : List Byte) (si n : Nat)
    (func : Option Function) (line : I32), Chain pre.length si (l.map Prod.fst) →
    prog.code = pre ++ bytesOf fa (segsAsm (l.map Prod.fst)) → EmitOk (segsAsm (l.map Prod.fst)) →
    (∀ x ∈ l, ∀ k, x.1.pc ≤ k → k < x.1.stop → prog.findByPc (i32 k) = some x.2) →
    (l.map Prod.snd).Nodup → (∀ f, func = some f → f ∉ l.map Prod.snd) →
    widthOf (segsAsm (l.map Prod.fst)) ≤ n →
    listFrom prog n pre.length func line =
      .ok (blocksText (pre.length = 0) line (l.map fun x => (x.2, segRows prog fa x.1)))
  | [], pre, si, n, func, line, _, hc, _, _, _, _, _ => by
    rw [listFrom_end (by rw [hc]; simp [segsAsm, bytesOf])]
    rfl
  | (s, F) :: l, pre, si, n, func, line, hch, hc, hok, hf, hnd, hne, hn => by
    simp only [List.map_cons] at *
    obtain ⟨a, b, c, d⟩ := hch
    rw [show segsAsm (s :: l.map Prod.fst) = s.asm ++ segsAsm (l.map Prod.fst) from rfl] at hc hok hn
    rw [emitOk_append] at hok
    rw [widthOf_append] at hn
    rw [bytesOf_append, ← List.append_assoc] at hc
    rw [List.nodup_cons] at hnd
    have hlen := length_le_width s.asm
    have hbl := bytesOf_length fa s.asm
    have hpos : 0 < s.asm.length := by
      rcases hs : s.asm with _ | ⟨x, t⟩
      · rw [hs] at c; have := c.2; simp [widthOf] at this
      · simp
    have h1 := listFrom_segs fa l (pre ++ bytesOf fa s.asm) (si + s.strs.length) (n - s.asm.length) (some F)
      (lastLine line (segRows prog fa s))
      (by rw [List.length_append, hbl]; exact d) hc hok.2 (fun x hx => hf x (by simp [hx]))
      hnd.2 (fun f h => by cases h; exact hnd.1) (by omega)
    have h2 := listFrom_rows (prog := prog) (F := F) _ _ (codeOf_asm fa s.asm hok.1) pre
      (bytesOf fa (segsAsm (l.map Prod.fst))) (n - s.asm.length) line _ hc
      (fun x hx => by
        rw [← a] at hx
        have := laidOut_in hx
        exact hf (s, F) (by simp) x.1 this.1 this.2)
      (by
        rw [List.length_append] at h1
        rw [← a] at h1 ⊢
        exact h1)
    rw [List.length_map, Nat.sub_add_cancel (by omega)] at h2
    have hlt : pre.length < prog.code.length := by
      rw [hc, List.length_append, List.length_append]; omega
    obtain ⟨m, rfl⟩ : ∃ m, n = m + 1 := ⟨n - 1, by omega⟩
    rw [listFrom_head hlt (hf (s, F) (by simp) pre.length (by dsimp only; omega)
      (by dsimp only [Seg.stop]; omega))
      (fun h => hne F h (by simp)) h2]
    have e1 : decide (s.pc + (bytesOf fa s.asm).length = 0) = false := by
      rw [hbl]; have := c.2; simp; omega
    rw [e1]
    simp only [blocksText, segRows]
    by_cases h0 : pre.length = 0 <;> simp [h0, a]

/-! ### The listing of a compiled program -/

theorem zip_names : ∀ {segs : List Seg} {fs : List Function}, fs.map Function.name = segs.map Seg.name →
    (segs.zip fs).map Prod.fst = segs ∧ (segs.zip fs).map Prod.snd = fs ∧
    ∀ x ∈ segs.zip fs, x.1 ∈ segs ∧ x.2 ∈ fs ∧ x.2.name = x.1.name
  | [], [], _ => by simp
  | s :: segs, f :: fs, h => by
    simp only [List.map_cons, List.cons.injEq] at h
    obtain ⟨h1, h2, h3⟩ := zip_names h.2
    simp only [List.zip_cons_cons, List.map_cons, h1, h2, true_and]
    intro x hx
    rcases List.mem_cons.1 hx with rfl | hx
    · exact ⟨by simp, by simp, h.1⟩
    · obtain ⟨k1, k2, k3⟩ := h3 x hx
      exact ⟨by simp [k1], by simp [k2], k3⟩
  | [], f :: fs, h => by cases h
  | s :: segs, [], h => by cases h

theorem nodup_of_map {α β : Type} {f : α → β} : ∀ {l : List α}, (l.map f).Nodup → l.Nodup
  | [], _ => List.nodup_nil
  | a :: l, h => by
    rw [List.map_cons, List.nodup_cons] at h
    rw [List.nodup_cons]
    exact ⟨fun ha => h.1 (List.mem_map_of_mem ha), nodup_of_map h.2⟩

theorem segRows_ins (prog : Program) (fa : Str → I32) (s : Seg) :
    (segRows prog fa s).map Prod.snd = s.asm.map fun x => x.1.resolve fa := by
  have key : ∀ (p : Nat) (l : List Ins), (laidOut p l).map Prod.snd = l := by
    intro p l
    induction l generalizing p with
    | nil => rfl
    | cons a t ih => simp [laidOut, ih]
  unfold segRows
  rw [List.map_map]
  exact key _ _

theorem codeOf_append {a b : List Ins} {x y : List Byte} (h : CodeOf a x) (k : CodeOf b y) :
    CodeOf (a ++ b) (x ++ y) := by
  induction h with
  | nil => exact k
  | cons he _ ih => rw [List.append_assoc, List.cons_append]; exact .cons he ih

variable {L : Layout} {opt : Bool} {p : Prog Unit} {q : Prog Ref}

/-- C68: listing a compiled program never fails an assertion.  It shows every function of the program once,
in order, under a header; below it all its instructions in order, by name and operands, and the source
line recorded for an instruction wherever it changes.  Together they are the whole code. -/
theorem C68_listing (hc : Compiles L opt p q prog) (hi : ∀ x ∈ p, x.declName ≠ initName) :
    ∃ blocks : List (Function × List (I32 × Ins)), listing prog = .ok (blocksText true (-1) blocks) ∧
      blocks.map Prod.fst = prog.functions ∧ (∀ b ∈ blocks, BodyOf prog b.1 b.2) ∧
      CodeOf (blocks.flatMap fun b => b.2.map Prod.snd) prog.code := by
  have hn := hc.func hi
  obtain ⟨q0, h1, h2, h3⟩ := hc
  obtain ⟨segs, es, G⟩ := codegen_generated hn h3
  obtain ⟨z1, z2, z3⟩ := zip_names G.fnames
  refine ⟨(segs.zip prog.functions).map fun x => (x.2, segRows prog (addrMap segs) x.1), ?_, ?_, ?_, ?_⟩
  · have := listFrom_segs (prog := prog) (addrMap segs) (segs.zip prog.functions) [] 0 prog.code.length none (-1)
      (by rw [z1]; exact G.chain) (by rw [z1]; exact G.code) (by rw [z1]; exact G.ok)
      (fun x hx k k1 k2 => by
        obtain ⟨h1, h2, h3⟩ := z3 x hx
        exact G.findByPc h1 h2 h3 k1 k2)
      (by
        rw [z2]
        have := G.names
        rw [← G.fnames] at this
        exact nodup_of_map this)
      (fun f h => by cases h) (by rw [z1, G.code, bytesOf_length]; exact Nat.le_refl _)
    exact this
  · rw [List.map_map]
    exact z2
  · intro b hb
    obtain ⟨x, hx, rfl⟩ := List.mem_map.1 hb
    obtain ⟨h1, h2, h3⟩ := z3 x hx
    obtain ⟨s, hs, k1, k2, k3⟩ := G.entry h2
    have hxs : x.1 = s := by
      have : ∀ {l : List Seg}, (l.map Seg.name).Nodup → ∀ a ∈ l, ∀ b ∈ l, a.name = b.name → a = b := by
        intro l
        induction l with
        | nil => intro _ a ha; cases ha
        | cons y l ih =>
          intro hnd a ha b hb hab
          rw [List.map_cons, List.nodup_cons] at hnd
          rcases List.mem_cons.1 ha with ha | ha <;> rcases List.mem_cons.1 hb with hb | hb
          · rw [ha, hb]
          · exact absurd (by rw [← ha, hab]; exact List.mem_map_of_mem hb) hnd.1
          · exact absurd (by rw [← hb, ← hab]; exact List.mem_map_of_mem ha) hnd.1
          · exact ih hnd.2 a ha b hb hab
      exact this G.names _ h1 _ hs (by rw [← h3, k1])
    subst hxs
    have hsm := G.small x.1 hs
    have hstop' : x.1.stop = x.1.pc + widthOf x.1.asm := rfl
    have hcode := Chain.codeAt (e := { (Env.std prog toyFl Mem.abs) with prog := prog }) (pre := [])
      (fa := addrMap segs) G.chain (by rw [List.nil_append]; exact G.code) rfl x.1 hs
    obtain ⟨pre, post, h4, h5⟩ := hcode
    have h4 : prog.code = _ := h4
    refine ⟨?_, x.1.pc, bytesOf (addrMap segs) x.1.asm, post, ?_, ?_, ?_, ?_, ?_⟩
    · intro h
      have h0 := congrArg (List.map Prod.snd) h
      rw [segRows_ins] at h0
      have hp := G.chain.pos x.1 hs
      rcases ha : x.1.asm with _ | ⟨y, t⟩
      · rw [ha] at hp; simp [widthOf] at hp
      · rw [ha] at h0; simp at h0
    · rw [k2, toInt_i32 (by omega)]
    · rw [k3, toInt_i32 hsm, bytesOf_length, hstop']
    · rw [h4, ← h5]; simp
    · rw [segRows_ins]; exact codeOf_asm _ _ (emitOk_seg G.ok x.1 hs)
    · rw [segRows_ins]; unfold segRows; rw [List.map_map]; rfl
  · rw [G.code]
    have : ∀ (l : List (Seg × Function)), EmitOk (segsAsm (l.map Prod.fst)) →
        CodeOf ((l.map fun x => (x.2, segRows prog (addrMap segs) x.1)).flatMap fun b => b.2.map Prod.snd)
          (bytesOf (addrMap segs) (segsAsm (l.map Prod.fst))) := by
      intro l
      induction l with
      | nil => intro _; exact .nil
      | cons x l ih =>
        intro h
        rw [List.map_cons, show segsAsm (x.1 :: l.map Prod.fst) = x.1.asm ++ segsAsm (l.map Prod.fst) from rfl,
          emitOk_append] at h
        rw [List.map_cons, List.map_cons, List.flatMap_cons,
          show segsAsm (x.1 :: l.map Prod.fst) = x.1.asm ++ segsAsm (l.map Prod.fst) from rfl, bytesOf_append,
          segRows_ins]
        exact codeOf_append (codeOf_asm _ _ h.1) (ih h.2)
    have := this (segs.zip prog.functions) (by rw [z1]; exact G.ok)
    rw [z1] at this
    exact this

/-! ### Reading the code back -/

/-- The lines of a text. -/
def linesOf : Str → List Str
  | [] => [[]]
  | c :: s =>
    if c = ch '\n' then [] :: linesOf s
    else match linesOf s with
      | [] => [[c]]
      | l :: ls => (c :: l) :: ls

/-- The lines that are neither empty nor comments. -/
def codeLines (t : Str) : List Str :=
  (linesOf t).filter fun l => decide (l ≠ [] ∧ l.head? ≠ some (ch '#'))

theorem linesOf_append : ∀ (a b : Str), ch '\n' ∉ a → linesOf (a ++ ch '\n' :: b) = a :: linesOf b
  | [], b, _ => by simp [linesOf]
  | c :: a, b, h => by
    simp only [List.mem_cons, not_or] at h
    rw [List.cons_append, linesOf, if_neg (fun e => h.1 e.symm), linesOf_append a b h.2]

theorem codeLines_comment {a b : Str} (h : ch '\n' ∉ a) : codeLines (ch '#' :: a ++ ch '\n' :: b) = codeLines b := by
  unfold codeLines
  rw [linesOf_append _ _ (by simp only [List.mem_cons, not_or]; exact ⟨by decide, h⟩)]
  simp

theorem codeLines_empty {b : Str} : codeLines (ch '\n' :: b) = codeLines b := by
  unfold codeLines
  rw [show ch '\n' :: b = [] ++ ch '\n' :: b from rfl, linesOf_append _ _ (by simp)]
  simp

theorem codeLines_code {a b : Str} (h : ch '\n' ∉ a) (h1 : a ≠ []) (h2 : a.head? ≠ some (ch '#')) :
    codeLines (a ++ ch '\n' :: b) = a :: codeLines b := by
  unfold codeLines
  rw [linesOf_append _ _ h]
  simp [h1, h2]

theorem decimal_chars (v : I32) : ∀ b ∈ decimal v, IsDigit b ∨ b = ch '-' := by
  obtain ⟨⟨ds, h1, h2, h3, h4, h5⟩, -⟩ := C32_integer_text v
  intro b hb
  rw [h1] at hb
  rcases List.mem_append.1 hb with hb | hb
  · split at hb
    · right; simpa using hb
    · cases hb
  · exact .inl (h3 b hb)

theorem decimal_no (c : Byte) (hc : ¬IsDigit c) (hm : c ≠ ch '-') (v : I32) : c ∉ decimal v := by
  intro h
  rcases decimal_chars v c h with h | h
  · exact hc h
  · exact hm h

theorem decimal_inj {a b : I32} (h : decimal a = decimal b) : a = b := by
  obtain ⟨⟨ds, h1, h2, h3, h4, h5⟩, -⟩ := C32_integer_text a
  obtain ⟨⟨es, k1, k2, k3, k4, k5⟩, -⟩ := C32_integer_text b
  rw [h1, k1] at h
  apply BitVec.eq_of_toInt_eq
  have hdash : ¬IsDigit (ch '-') := by unfold IsDigit; decide
  split at h <;> split at h
  · have := List.append_cancel_left h
    subst this; omega
  · exfalso
    cases es with
    | nil => exact k4 rfl
    | cons e es =>
      simp only [List.cons_append, List.nil_append, List.cons.injEq] at h
      exact hdash (h.1 ▸ k3 e (by simp))
  · exfalso
    cases ds with
    | nil => exact h4 rfl
    | cons e es =>
      simp only [List.cons_append, List.nil_append, List.cons.injEq] at h
      exact hdash (h.1 ▸ h3 e (by simp))
  · have := List.append_cancel_left h
    subst this; omega

theorem opName_chars (o : Op) : ch '\n' ∉ opName o ∧ ch ' ' ∉ opName o ∧ opName o ≠ [] ∧
    (opName o).head? ≠ some (ch '#') := by
  cases o <;> decide

theorem opName_inj {a b : Op} (h : opName a = opName b) : a = b := by
  have key : ∀ o : Op, Op.all.find? (fun x => opName x == opName o) = some o := by
    intro o; cases o <;> decide
  have := key a
  rw [h, key b] at this
  exact (Option.some.inj this).symm

/-- Two texts without blanks, each followed by a blank or the end, are equal if the whole is. -/
theorem word_inj {c : Byte} : ∀ {a b x y : Str}, c ∉ a → c ∉ b → (x = [] ∨ x.head? = some c) →
    (y = [] ∨ y.head? = some c) → a ++ x = b ++ y → a = b ∧ x = y
  | [], [], x, y, _, _, _, _, h => ⟨rfl, h⟩
  | [], e :: b, x, y, _, hb, hx, _, h => by
    exfalso
    simp only [List.mem_cons, not_or] at hb
    rcases hx with rfl | hx
    · cases h
    · rw [List.nil_append] at h; subst h; simp at hx; exact hb.1 hx.symm
  | e :: a, [], x, y, ha, _, _, hy, h => by
    exfalso
    simp only [List.mem_cons, not_or] at ha
    rcases hy with rfl | hy
    · cases h
    · rw [List.nil_append] at h; subst h; simp at hy; exact ha.1 hy.symm
  | e :: a, f :: b, x, y, ha, hb, hx, hy, h => by
    simp only [List.mem_cons, not_or] at ha hb
    simp only [List.cons_append, List.cons.injEq] at h
    obtain ⟨h1, h2⟩ := word_inj ha.2 hb.2 hx hy h.2
    exact ⟨by rw [h.1, h1], h2⟩

theorem insLine_chars (i : Ins) : ch '\n' ∉ insLine i ∧ insLine i ≠ [] ∧ (insLine i).head? ≠ some (ch '#') := by
  have hnl : ∀ v, ch '\n' ∉ decimal v := decimal_no _ (by unfold IsDigit; decide) (by decide)
  have hsp : ch '\n' ∉ str " " := by decide
  have key : ∀ (o : Op) (r : Str), ch '\n' ∉ r → ch '\n' ∉ opName o ++ r ∧ opName o ++ r ≠ [] ∧
      (opName o ++ r).head? ≠ some (ch '#') := by
    intro o r hr
    obtain ⟨h1, -, h2, h3⟩ := opName_chars o
    refine ⟨by simp [h1, hr], by simp [h2], ?_⟩
    cases hw : opName o with
    | nil => exact absurd hw h2
    | cons c w => rw [hw] at h3; exact h3
  cases i with
  | i0 o => simpa [insLine] using key o [] (by simp)
  | i1 o a => simpa [insLine] using key o (str " " ++ decimal a) (by simp [hnl, hsp])
  | i2 o a b =>
    simpa [insLine] using key o (str " " ++ decimal a ++ str " " ++ decimal b) (by simp [hnl, hsp])

theorem insLine_inj {i j : Ins} (h : insLine i = insLine j) : i = j := by
  have hs : ∀ v, ch ' ' ∉ decimal v := decimal_no _ (by unfold IsDigit; decide) (by decide)
  have key : ∀ (o o' : Op) (r r' : Str), (r = [] ∨ r.head? = some (ch ' ')) →
      (r' = [] ∨ r'.head? = some (ch ' ')) → opName o ++ r = opName o' ++ r' → o = o' ∧ r = r' := by
    intro o o' r r' hr hr' h
    obtain ⟨h1, h2⟩ := word_inj (opName_chars o).2.1 (opName_chars o').2.1 hr hr' h
    exact ⟨opName_inj h1, h2⟩
  have hb : ∀ t : Str, str " " ++ t = [] ∨ (str " " ++ t).head? = some (ch ' ') := fun t => .inr rfl
  have hb' : str " " ++ decimal 0 ≠ [] := by decide
  have cons : ∀ t : Str, str " " ++ t ≠ [] := by
    intro t h
    have : (str " " ++ t).length = 0 := by rw [h]; rfl
    rw [List.length_append] at this
    have : (str " ").length = 1 := by decide
    omega
  rcases i with o | ⟨o, a⟩ | ⟨o, a, b⟩ <;> rcases j with o' | ⟨o', a'⟩ | ⟨o', a', b'⟩ <;>
    simp only [insLine, List.append_assoc] at h
  · obtain ⟨h1, -⟩ := key o o' [] [] (.inl rfl) (.inl rfl) (by simpa using h)
    rw [h1]
  · exact absurd (key o o' [] _ (.inl rfl) (hb _) (by simpa using h)).2.symm (cons _)
  · exact absurd (key o o' [] _ (.inl rfl) (hb _) (by simpa using h)).2.symm (cons _)
  · exact absurd (key o o' _ [] (hb _) (.inl rfl) (by simpa using h)).2 (cons _)
  · obtain ⟨h1, h2⟩ := key o o' _ _ (hb _) (hb _) h
    rw [h1, decimal_inj (List.append_cancel_left h2)]
  · obtain ⟨h1, h2⟩ := key o o' _ _ (hb _) (hb _) h
    obtain ⟨-, h3⟩ := word_inj (x := []) (hs a) (hs a') (.inl rfl) (hb _)
      (by simpa using List.append_cancel_left h2)
    exact absurd h3.symm (cons _)
  · exact absurd (key o o' _ [] (hb _) (.inl rfl) (by simpa using h)).2 (cons _)
  · obtain ⟨h1, h2⟩ := key o o' _ _ (hb _) (hb _) h
    obtain ⟨-, h3⟩ := word_inj (y := []) (hs a) (hs a') (hb _) (.inl rfl)
      (by simpa using List.append_cancel_left h2)
    exact absurd h3 (cons _)
  · obtain ⟨h1, h2⟩ := key o o' _ _ (hb _) (hb _) h
    obtain ⟨h3, h4⟩ := word_inj (hs a) (hs a') (hb _) (hb _) (List.append_cancel_left h2)
    rw [h1, decimal_inj h3, decimal_inj (List.append_cancel_left h4)]

theorem codeLines_rows (t : Str) : ∀ (rows : List (I32 × Ins)) (last : I32),
    codeLines (rowsText last rows ++ t) = (rows.map fun x => insLine x.2) ++ codeLines t
  | [], last => rfl
  | (l, i) :: rows, last => by
    obtain ⟨h1, h2, h3⟩ := insLine_chars i
    have hd : ch '\n' ∉ str " line: " ++ decimal l := by
      have := decimal_no (ch '\n') (by unfold IsDigit; decide) (by decide) l
      simp [this]; decide
    have e : codeLines (insLine i ++ ch '\n' :: (rowsText l rows ++ t)) =
        insLine i :: ((rows.map fun x => insLine x.2) ++ codeLines t) := by
      rw [codeLines_code h1 h2 h3, codeLines_rows t rows l]
    rw [List.map_cons, List.cons_append, ← e]
    by_cases hl : l = last
    · simp only [rowsText, if_pos hl, List.nil_append, List.append_assoc]
      rfl
    · refine Eq.trans ?_ (codeLines_comment hd)
      simp only [rowsText, if_neg hl, List.append_assoc]
      rfl

theorem codeLines_blocks : ∀ (blocks : List (Function × List (I32 × Ins))) (first : Bool) (last : I32),
    (∀ b ∈ blocks, ch '\n' ∉ cstr b.1.name) →
    codeLines (blocksText first last blocks) = (blocks.flatMap fun b => b.2.map Prod.snd).map insLine
  | [], first, last, _ => by simp only [blocksText]; decide
  | (F, rows) :: blocks, first, last, h => by
    have ih := codeLines_blocks blocks false (lastLine last rows) (fun b hb => h b (by simp [hb]))
    have hn : ch '\n' ∉ str " function: " ++ cstr F.name := by
      have := h (F, rows) (by simp)
      simp only [List.mem_append, not_or]
      exact ⟨by decide, this⟩
    have e : codeLines (ch '#' :: (str " function: " ++ cstr F.name) ++ ch '\n' :: (rowsText last rows ++
        blocksText false (lastLine last rows) blocks)) =
        (((F, rows) :: blocks).flatMap fun b => b.2.map Prod.snd).map insLine := by
      rw [codeLines_comment hn, codeLines_rows, ih]
      simp
    rw [← e]
    cases first with
    | true => simp only [blocksText, if_true, List.nil_append, List.append_assoc]; rfl
    | false =>
      refine Eq.trans ?_ codeLines_empty
      simp only [blocksText, List.append_assoc]; rfl

theorem codeOf_det {is : List Ins} {a b : List Byte} (h : CodeOf is a) (k : CodeOf is b) : a = b := by
  induction h generalizing b with
  | nil => cases k; rfl
  | cons he _ ih =>
    cases k with
    | cons he' k => rw [he] at he'; cases he'; rw [ih k]

/-- C68: the lines of a listing that are neither empty nor comments are the instructions of the program, one
each, in order. -/
theorem C68_code_lines (hc : Compiles L opt p q prog) (hi : ∀ x ∈ p, x.declName ≠ initName)
    (hn : ∀ F ∈ prog.functions, ch '\n' ∉ F.name) :
    ∃ t is, listing prog = .ok t ∧ CodeOf is prog.code ∧ codeLines t = is.map insLine := by
  obtain ⟨blocks, h1, h2, h3, h4⟩ := C68_listing hc hi
  refine ⟨_, _, h1, h4, codeLines_blocks blocks true (-1) fun b hb h => ?_⟩
  exact hn b.1 (h2 ▸ List.mem_map_of_mem hb) (List.takeWhile_subset _ h)

/-- C68: two programs with the same listing have the same code. -/
theorem C68_listing_determines_code {L' : Layout} {opt' : Bool} {p' : Prog Unit} {q' : Prog Ref} {prog' : Program}
    (hc : Compiles L opt p q prog) (hi : ∀ x ∈ p, x.declName ≠ initName)
    (hn : ∀ F ∈ prog.functions, ch '\n' ∉ F.name)
    (hc' : Compiles L' opt' p' q' prog') (hi' : ∀ x ∈ p', x.declName ≠ initName)
    (hn' : ∀ F ∈ prog'.functions, ch '\n' ∉ F.name) (h : listing prog = listing prog') :
    prog.code = prog'.code := by
  obtain ⟨t, is, h1, h2, h3⟩ := C68_code_lines hc hi hn
  obtain ⟨t', is', k1, k2, k3⟩ := C68_code_lines hc' hi' hn'
  rw [h1, k1] at h
  cases h
  rw [h3] at k3
  have : ∀ (a b : List Ins), a.map insLine = b.map insLine → a = b := by
    intro a
    induction a with
    | nil => intro b h; cases b with
      | nil => rfl
      | cons _ _ => cases h
    | cons x a ih => intro b h; cases b with
      | nil => cases h
      | cons y b =>
        simp only [List.map_cons, List.cons.injEq] at h
        rw [insLine_inj h.1, ih b h.2]
  rw [this _ _ k3] at h2
  exact codeOf_det h2 k2

/-! ### Built programs -/

theorem spells_line {fl : FloatOps} {w : Str} {l : SrcLine} {t : Token} (h : Spells fl w l t) : ch '\n' ∉ t.str := by
  cases h with
  | keyword h => simp [Token.plain]
  | symbol h => simp [Token.plain]
  | name h1 h2 h3 =>
    have key : ∀ c : Byte, NameChar c → ch '\n' ≠ c := by
      rintro c hc rfl
      revert hc
      decide
    intro hb
    rcases List.mem_cons.1 hb with hb | hb
    · exact key _ (.inl h1) hb
    · exact key _ (h2 _ hb) rfl
  | string h => exact fun hb => (h _ hb).2.1 rfl
  | int h => simp [Token.number]
  | float h => simp [Token.number]

theorem reads_line {fl : FloatOps} {file n : Nat} {s : Str} {ts : List Token} (h : Reads fl file n s ts) :
    ∀ t ∈ ts, ch '\n' ∉ t.str := by
  induction h with
  | eof | nul => intro t ht; cases List.mem_singleton.1 ht; simp [Token.plain]
  | blank _ _ ih => exact ih
  | eol _ ih | comment _ _ _ ih =>
    intro t ht
    rcases List.mem_cons.1 ht with rfl | ht
    · simp [Token.plain]
    · exact ih t ht
  | token hs _ ih =>
    intro t ht
    rcases List.mem_cons.1 ht with rfl | ht
    · exact spells_line hs
    · exact ih t ht

theorem lex_line {fl : FloatOps} {file : Nat} {text : Str} {ts : List Token} (h : lex fl file text = .ok ts) :
    ∀ t ∈ ts, ch '\n' ∉ t.str := reads_line (lexLoop_reads fl file h)

theorem declName_line {fs : Str → Option Str} {fl : FloatOps} {n : Nat} {srcs srcs' : List Source}
    {sys : List (Str × Option Nat)} (hb : buildSources fs fl n 0 srcs [] (registered sys) = .ok (p, srcs'))
    (hsys : ∀ s ∈ sys, ch '\n' ∉ s.1) : ∀ x ∈ p, ch '\n' ∉ x.declName := by
  obtain ⟨parts, hparts, hr⟩ := build_rounds hb
  have hmade := rounds_text hr (T := fun t => ch '\n' ∉ t.str)
    (fun t ⟨_, _, _, _, _, _, _, h, ht⟩ => lex_line h t ht)
    (by simp only [Made.Es]) (by simp only [Made.Es])
  intro x hx
  rw [hparts, List.mem_append] at hx
  rcases hx with hx | hx
  · obtain ⟨s, hs, rfl⟩ := List.mem_map.1 hx
    exact hsys s hs
  · obtain ⟨part, hp, hx⟩ := List.mem_flatten.1 hx
    have := hmade part hp x hx
    cases x with
    | var t c init => exact this.1
    | func f => exact this.1
    | syscall a b => exact this.elim

/-- C68: the same for whatever is built from texts: the listing is written, and its lines that are neither
empty nor comments are the instructions of the program. -/
theorem C68_built {fs : Str → Option Str} {fl : FloatOps} {n : Nat} {srcs srcs' : List Source}
    {sys : List (Str × Option Nat)} (hb : buildSources fs fl n 0 srcs [] (registered sys) = .ok (p, srcs'))
    (hsys : ∀ s ∈ sys, s.1 ≠ initName ∧ ch '\n' ∉ s.1) (hc : Compiles L opt p q prog) :
    ∃ t is, listing prog = .ok t ∧ CodeOf is prog.code ∧ codeLines t = is.map insLine := by
  have hi := C60_names (fun s hs => (hsys s hs).1) hb
  have hd := declName_line hb (fun s hs => (hsys s hs).2)
  refine C68_code_lines hc hi fun F hF => ?_
  have hn := hc.func hi
  have hnames := hc.names.1
  obtain ⟨q0, h1, h2, h3⟩ := hc
  obtain ⟨segs, es, G⟩ := codegen_generated hn h3
  obtain ⟨s, hs, hname, -⟩ := G.entry hF
  have hseg : s.name ∈ segs.map Seg.name := List.mem_map_of_mem hs
  rw [← G.esNames] at hseg
  obtain ⟨l, hl, rfl⟩ := G.table
  rw [List.map_append, entriesOf_names hl, List.mem_append] at hseg
  rcases hseg with h | h
  · have : s.name ∈ p.map Item.declName := by
      rw [← hnames]
      exact (funcNames_sub q).subset h
    obtain ⟨x, hx, hxn⟩ := List.mem_map.1 this
    rw [hname, ← hxn]
    exact hd x hx
  · obtain h : s.name = initName := by simpa using h
    rw [hname, h]
    decide +kernel

/-! ### A program -/

/-- `C68_listing` for a program with a constant, a global variable and a function. -/
example : listing (memProg twoText) = .ok (str
    "# function: f\n# line: 4\nINS_GETV -1\n# line: 1\nINS_NEW_INT 5\n# line: 4\nINS_ADD\nINS_RET 1\n\n# function: @init\n# line: -1\nINS_GLOBALS 1\n# line: 1\nINS_NEW_INT 5\n# line: 2\nINS_SETG 0\n# line: -1\nINS_NEW_INT 0\nINS_RET 0\n") := by
  decide +kernel

/-- The hypotheses of `C68_built`. -/
example : ∃ t is, listing (memProg twoText) = .ok t ∧ CodeOf is (memProg twoText).code ∧
    codeLines t = is.map insLine := by
  obtain ⟨q, hq⟩ := mem_compiles (text := twoText) (by decide +kernel)
  exact C68_built two_read (by simp) hq

end Ccml.Props
