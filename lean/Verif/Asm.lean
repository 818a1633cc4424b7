import Verif.Codegen
import Verif.InstrLemmas
/-!
Code generation without a builder (proof infrastructure): the instructions of a tree as a list, with
the names of functions in place of their addresses.  `gen…_emits` say that the code generator emits
exactly this list.
-/
namespace Ccml

/-- An instruction whose function address may not be known yet. -/
inductive AIns
  | ins (i : Ins)
  | call (n : I32) (f : Str)
  | fn (f : Str)
  deriving DecidableEq, Repr

/-- Putting in the addresses. -/
def AIns.resolve (fa : Str → I32) : AIns → Ins
  | .ins i => i
  | .call n f => .i2 .CALL n (fa f)
  | .fn f => .i1 .NEW_FUNC (fa f)

/-- The bytes of an instruction. -/
def Ins.bytes : Ins → List Byte
  | .i0 o => [o.code]
  | .i1 o a => o.code :: le32 a
  | .i2 o a b => o.code :: (le32 a ++ le32 b)

/-- Their number. -/
def Ins.width : Ins → Nat
  | .i0 _ => 1
  | .i1 _ _ => 5
  | .i2 _ _ _ => 9

/-- The number of bytes does not depend on addresses. -/
def AIns.width : AIns → Nat
  | .ins i => i.width
  | .call _ _ => 9
  | .fn _ => 5

/-- Instructions with the token that gives the source line. -/
abbrev Asm := List (AIns × Option Token)

/-- The bytes of a list of instructions. -/
def bytesOf (fa : Str → I32) : Asm → List Byte
  | [] => []
  | x :: l => (x.1.resolve fa).bytes ++ bytesOf fa l

/-- Their number. -/
def widthOf : Asm → Nat
  | [] => 0
  | x :: l => x.1.width + widthOf l

/-- Where function addresses must be put in. -/
def fixupsAt (pos : Nat) : Asm → List (Str × Nat)
  | [] => []
  | (.ins i, _) :: l => fixupsAt (pos + i.width) l
  | (.call _ f, _) :: l => (f, pos + 5) :: fixupsAt (pos + 9) l
  | (.fn f, _) :: l => (f, pos + 1) :: fixupsAt (pos + 5) l

/-- The line table entries. -/
def linesAt (lines : LineTable) (pos : Nat) : Asm → LineTable
  | [] => lines
  | x :: l => linesAt (setLine lines pos x.2) (pos + x.1.width) l

/-- Every instruction is one the emitter accepts. -/
def EmitOk : Asm → Prop
  | [] => True
  | x :: l => (∃ bs, emitIns (x.1.resolve fun _ => 0) = .ok bs) ∧ EmitOk l

/-- One instruction. -/
def one (i : Ins) (t : Option Token) : Asm := [(.ins i, t)]

theorem Ins.bytes_length (i : Ins) : i.bytes.length = i.width := by
  cases i <;> simp [Ins.bytes, Ins.width]

theorem AIns.resolve_width (fa : Str → I32) (x : AIns) : (x.resolve fa).width = x.width := by
  cases x <;> rfl

theorem bytesOf_length (fa : Str → I32) (l : Asm) : (bytesOf fa l).length = widthOf l := by
  induction l with
  | nil => rfl
  | cons x l ih => simp [bytesOf, widthOf, Ins.bytes_length, AIns.resolve_width, ih]

theorem bytesOf_append (fa : Str → I32) (a b : Asm) :
    bytesOf fa (a ++ b) = bytesOf fa a ++ bytesOf fa b := by
  induction a with
  | nil => rfl
  | cons x a ih => simp [bytesOf, ih]

theorem widthOf_append (a b : Asm) : widthOf (a ++ b) = widthOf a + widthOf b := by
  induction a with
  | nil => simp [widthOf]
  | cons x a ih => simp only [List.cons_append, widthOf, ih]; omega

theorem fixupsAt_append (pos : Nat) (a b : Asm) :
    fixupsAt pos (a ++ b) = fixupsAt pos a ++ fixupsAt (pos + widthOf a) b := by
  induction a generalizing pos with
  | nil => rfl
  | cons x a ih =>
    obtain ⟨x, t⟩ := x
    cases x <;> simp only [List.cons_append, fixupsAt, ih, widthOf, AIns.width, Nat.add_assoc]

theorem linesAt_append (ls : LineTable) (pos : Nat) (a b : Asm) :
    linesAt ls pos (a ++ b) = linesAt (linesAt ls pos a) (pos + widthOf a) b := by
  induction a generalizing pos ls with
  | nil => rfl
  | cons x a ih => simp only [List.cons_append, linesAt, ih, widthOf, Nat.add_assoc]

theorem emitOk_append (a b : Asm) : EmitOk (a ++ b) ↔ EmitOk a ∧ EmitOk b := by
  induction a with
  | nil => simp [EmitOk]
  | cons x a ih => simp only [List.cons_append, EmitOk, ih, and_assoc]

theorem emitIns_bytes {i : Ins} {bs : List Byte} (h : emitIns i = .ok bs) : bs = i.bytes := by
  cases i <;> simp only [emitIns, emit0, emit1, emit2] at h <;> split at h <;> simp at h <;>
    subst h <;> rfl

/-- Whether an instruction can be emitted does not depend on its operands. -/
theorem emit_resolve (fa : Str → I32) {x : AIns}
    (h : ∃ bs, emitIns (x.resolve fun _ => 0) = .ok bs) :
    emitIns (x.resolve fa) = .ok (x.resolve fa).bytes := by
  obtain ⟨bs, h⟩ := h
  cases x with
  | ins i =>
    have := emitIns_bytes h
    simp only [AIns.resolve] at h ⊢
    rw [h, this]; rfl
  | call n f => rfl
  | fn f => rfl

/-! ### Expressions -/

mutual

/-- The strings an expression adds to the table. -/
def strsE : Expr Ref → List Str
  | .str s _ => [s]
  | .member _ m _ => [m.str]
  | .arr _ es => strsEs es
  | .deref _ l i => strsE i ++ strsE l
  | .call _ c as => strsEs as ++ strsE c
  | .bin _ l r => strsE l ++ strsE r
  | .un _ a => strsE a
  | _ => []

/-- A list of expressions. -/
def strsEs : List (Expr Ref) → List Str
  | [] => []
  | e :: es => strsE e ++ strsEs es

end

/-- Reading a variable. -/
def asmGet (cx : GenCtx) (r : Ref) (t : Option Token) : Out Asm := do
  let (g, _, o) ← varPlace cx r
  .ok (one (.i1 g o) t)

/-- Writing a variable. -/
def asmSet (cx : GenCtx) (r : Ref) (t : Option Token) : Out Asm := do
  let (_, s, o) ← varPlace cx r
  .ok (one (.i1 s o) t)

/-- A name. -/
def asmIdent (cx : GenCtx) (sys : List Syscall) (t : Token) (r : Ref) : Out Asm :=
  match r with
  | .item i =>
    match cx.prog[i]? with
    | some (.func f) => .ok [(.fn f.name.str, some t)]
    | some (.syscall n _) =>
      match sysIndex sys n with
      | some j => .ok (one (.i1 .NEW_SCALL (i32 j)) (some t))
      | none => .error .assert
    | _ => asmGet cx r (some t)
  | _ => asmGet cx r (some t)

/-- What follows the arguments of a call. -/
def asmInvoke (cx : GenCtx) (sys : List Syscall) (t : Token) (c : Expr Ref) (n : Nat)
    (callee : Out Asm) : Out Asm :=
  let indirect : Out Asm := do
    let a ← callee
    .ok (a ++ one (.i1 .ICALL (i32 n)) (some t))
  match c with
  | .ident name (.item i) =>
    match cx.prog[i]? with
    | some (.func f) =>
      if f.args.length = n then .ok [(.call (i32 n) f.name.str, some t)] else .error .assert
    | some (.syscall s a) =>
      if a = none ∨ a = some n then
        match sysIndex sys s with
        | some j => .ok (one (.i2 .SCALL (i32 n) (i32 j)) (some name))
        | none => .error .assert
      else .error .assert
    | _ => indirect
  | _ => indirect

mutual

/-- Expressions; `si` is the number of strings before. -/
def asmE (cx : GenCtx) (sys : List Syscall) : Nat → Expr Ref → Out Asm
  | _, .ident t r => asmIdent cx sys t r
  | _, .int v t _ => .ok (one (.i1 .NEW_INT v) t)
  | _, .float v t => .ok (one (.i1 .NEW_FLT v) t)
  | si, .str _ t => .ok (one (.i1 .NEW_STR (i32 si)) t)
  | _, .none t => .ok (one (.i0 .NEW_NONE) t)
  | si, .member t m r => do
    let g ← asmGet cx r (some t)
    .ok (g ++ one (.i1 .GETM (i32 si)) (some m))
  | si, .arr t es => do
    let a ← asmEs cx sys si es
    if es.length = 0 then .error .assert
    else .ok (a ++ one (.i1 .ARY_INIT (i32 es.length)) (some t))
  | si, .deref t l i => do
    let a ← asmE cx sys si i
    let b ← asmE cx sys (si + (strsE i).length) l
    .ok (a ++ b ++ one (.i0 .DEREF) (some t))
  | si, .call t c as => do
    let a ← asmEs cx sys si as
    let b ← asmInvoke cx sys t c as.length (asmE cx sys (si + (strsEs as).length) c)
    .ok (a ++ b)
  | si, .bin op l r => do
    let a ← asmE cx sys si l
    let b ← asmE cx sys (si + (strsE l).length) r
    let o ← tokIns op.type
    .ok (a ++ b ++ one (.i0 o) (some op))
  | si, .un op a => do
    let a ← asmE cx sys si a
    match op.type with
    | .SUB => .ok (a ++ one (.i0 .NEG) (some op))
    | .NOT => .ok (a ++ one (.i0 .NOT) (some op))
    | _ => .ok a

/-- A list of expressions. -/
def asmEs (cx : GenCtx) (sys : List Syscall) : Nat → List (Expr Ref) → Out Asm
  | _, [] => .ok []
  | si, e :: es => do
    let a ← asmE cx sys si e
    let b ← asmEs cx sys (si + (strsE e).length) es
    .ok (a ++ b)

end

/-! ### Statements -/

mutual

/-- The strings of a statement in the order they are added. -/
def strsS : Stmt Ref → List Str
  | .var _ _ none => []
  | .var _ _ (some e) => strsE e
  | .assign _ _ e => strsE e
  | .assignArr _ _ i e => strsE e ++ strsE i
  | .assignMem _ m _ e => strsE e ++ [m.str]
  | .call _ c as => strsEs as ++ strsE c
  | .ifS _ c thn h els => strsE c ++ strsB thn ++ (if h then strsB els else [])
  | .whileS _ c body => strsB body ++ strsE c
  | .forS _ _ _ a b body => strsE a ++ strsB body ++ strsE b
  | .ret _ none => []
  | .ret _ (some e) => strsE e

/-- The strings of a block. -/
def strsB : List (Stmt Ref) → List Str
  | [] => []
  | s :: ss => strsS s ++ strsB ss

end

mutual

/-- Statements at position `pc`. -/
def asmS (cx : GenCtx) (sys : List Syscall) : Nat → Nat → Stmt Ref → Out Asm
  | _, _, .var _ _ none => .ok []
  | _, si, .var t r (some e) => do
    let a ← asmE cx sys si e
    .ok (a ++ one (.i1 .SETV (i32 (cx.off r))) (some t))
  | _, si, .assign t r e => do
    let a ← asmE cx sys si e
    let s ← asmSet cx r (some t)
    .ok (a ++ s)
  | _, si, .assignArr t r i e => do
    let a ← asmE cx sys si e
    let b ← asmE cx sys (si + (strsE e).length) i
    let g ← asmGet cx r (some t)
    .ok (a ++ b ++ g ++ one (.i0 .SETA) (some t))
  | _, si, .assignMem t m r e => do
    let a ← asmE cx sys si e
    let g ← asmGet cx r (some t)
    .ok (a ++ g ++ one (.i1 .SETM (i32 (si + (strsE e).length))) (some m))
  | _, si, .call t c as => do
    let a ← asmEs cx sys si as
    let b ← asmInvoke cx sys t c as.length (asmE cx sys (si + (strsEs as).length) c)
    .ok (a ++ b ++ one (.i1 .POP 1) (some t))
  | pc, si, .ifS t c thn hasElse els => do
    let a ← asmE cx sys si c
    let b ← asmB cx sys (pc + widthOf a + 5) (si + (strsE c).length) thn
    match hasElse with
    | false => .ok (a ++ one (.i1 .FJMP (i32 (pc + widthOf a + 5 + widthOf b))) (some t) ++ b)
    | true => do
      let d ← asmB cx sys (pc + widthOf a + 5 + widthOf b + 5)
        (si + (strsE c).length + (strsB thn).length) els
      .ok (a ++ one (.i1 .FJMP (i32 (pc + widthOf a + 5 + widthOf b + 5))) (some t) ++ b ++
        one (.i1 .JMP (i32 (pc + widthOf a + 5 + widthOf b + 5 + widthOf d))) none ++ d)
  | pc, si, .whileS t c body => do
    let b ← asmB cx sys (pc + 5) si body
    let a ← asmE cx sys (si + (strsB body).length) c
    .ok (one (.i1 .JMP (i32 (pc + 5 + widthOf b))) (some t) ++ b ++ a ++
      one (.i1 .TJMP (i32 (pc + 5))) (some t))
  | pc, si, .forS t n r start stop body => do
    let a ← asmE cx sys si start
    let s0 ← asmSet cx r (some n)
    let b ← asmB cx sys (pc + widthOf a + 10) (si + (strsE start).length) body
    let g ← asmGet cx r (some t)
    let s1 ← asmSet cx r (some t)
    let z ← asmE cx sys (si + (strsE start).length + (strsB body).length) stop
    .ok (a ++ s0 ++ one (.i1 .JMP (i32 (pc + widthOf a + 10 + widthOf b + 16))) (some t) ++ b ++
      g ++ one (.i1 .NEW_INT 1) (some t) ++ one (.i0 .ADD) (some t) ++ s1 ++
      g ++ z ++ one (.i0 .LT) (some t) ++ one (.i1 .TJMP (i32 (pc + widthOf a + 10))) (some t))
  | _, _, .ret t none =>
    .ok (one (.i0 .NEW_NONE) (some t) ++ one (.i1 .RET cx.space) (some t))
  | _, si, .ret t (some e) => do
    let a ← asmE cx sys si e
    .ok (a ++ one (.i1 .RET cx.space) (some t))

/-- The statements of a block. -/
def asmB (cx : GenCtx) (sys : List Syscall) : Nat → Nat → List (Stmt Ref) → Out Asm
  | _, _, [] => .ok []
  | pc, si, s :: ss => do
    let a ← asmS cx sys pc si s
    let b ← asmB cx sys (pc + widthOf a) (si + (strsS s).length) ss
    .ok (a ++ b)

end

end Ccml
