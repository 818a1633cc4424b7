import Verif.OptFacts
import Verif.Props.Exec
/-!
C21–C23: the optimiser does not change what a program does.
-/
set_option linter.unusedSimpArgs false
namespace Ccml.Props
open Sem (State Res Vars Flow CallF evalE evalEs evalS evalB callFn initVars startUp Ctx)

variable {cx : Ctx} {callF : CallF} {zi : Ref → Bool} {n : Nat}

/-! ### C21: constant folding -/

/-- An operator tree over integer literals. -/
def constTree : Expr Ref → Prop
  | .int .. => True
  | .bin op l r =>
    op.type ∈ [Tok.ADD, .SUB, .MUL, .DIV, .MOD, .AND, .OR, .EQ, .LT, .GT, .LEQ, .GEQ] ∧
      constTree l ∧ constTree r
  | .un op a => (op.type = .SUB ∨ op.type = .NOT) ∧ constTree a
  | _ => False

/-- The divisions in a tree. -/
def divisions : Expr Ref → List Token
  | .bin op l r => (if op.type = .DIV ∨ op.type = .MOD then [op] else []) ++ divisions l ++ divisions r
  | .un _ a => divisions a
  | _ => []

theorem view_int (a : I32) (m : Store) : (Val.int a).view m = .ok (.int a) := rfl

theorem toInt_zero_iff (b : I32) : b.toInt = 0 ↔ b = 0 := by
  constructor
  · intro h
    have := BitVec.ofInt_toInt (x := b)
    rw [h] at this
    rw [← this]; rfl
  · rintro rfl; rfl

theorem exact_res (z : Int) (w : State) : (Sem.exact z).res w =
    match ret32 z with
    | .ok v => .ok (.int v) w
    | .error _ => .fault .ub := by
  unfold Sem.exact ret32 fits32
  by_cases h : -2147483648 ≤ z ∧ z ≤ 2147483647
  · rw [if_pos h, if_pos (by simpa using h)]; rfl
  · rw [if_neg h, if_neg (by simpa using h)]; rfl

theorem ret32_cases (z : Int) : (∃ v, ret32 z = .ok v) ∨ ret32 z = .error .ub := by
  unfold ret32
  split
  · exact .inl ⟨_, rfl⟩
  · exact .inr rfl

/-- The operators that take two operands. -/
def binOps : List Tok := [.ADD, .SUB, .MUL, .DIV, .MOD, .AND, .OR, .EQ, .LT, .GT, .LEQ, .GEQ]

/-- Folding one binary operator against running it. -/
theorem constBin_runs (fl : FloatOps) (op : Token) (a b : I32) (w : State) :
    (∃ v, constBin op a b = .ok v ∧ op.type ∈ binOps ∧
      Sem.binaryV fl op.type (.int a) (.int b) w = .ok (.int v) w) ∨
    ((op.type = .DIV ∨ op.type = .MOD) ∧ constBin op a b = .error (.err ⟨str "constant divide by zero", op.line⟩) ∧
      Sem.binaryV fl op.type (.int a) (.int b) w = .err .bad_divide_by_zero w) ∨
    (op.type ∈ binOps ∧ constBin op a b = .error (.fault .ub) ∧
      Sem.binaryV fl op.type (.int a) (.int b) w = .fault .ub) ∨
    (op.type ∉ binOps ∧ constBin op a b = .error (.fault .assert)) := by
  have hv : Sem.binaryV fl op.type (.int a) (.int b) w = (Sem.binary fl op.type (.int a) (.int b)).res w := rfl
  rw [hv]
  obtain ⟨ty, st, ln, vl⟩ := op
  dsimp only
  unfold constBin
  cases ty
  case ADD =>
    rcases ret32_cases (a.toInt + b.toInt) with ⟨v, h⟩ | h <;>
      simp [Sem.binary, Sem.arith, exact_res, h, liftC, binOps]
  case SUB =>
    rcases ret32_cases (a.toInt - b.toInt) with ⟨v, h⟩ | h <;>
      simp [Sem.binary, Sem.arith, exact_res, h, liftC, binOps]
  case MUL =>
    rcases ret32_cases (a.toInt * b.toInt) with ⟨v, h⟩ | h <;>
      simp [Sem.binary, Sem.arith, exact_res, h, liftC, binOps]
  case DIV =>
    by_cases hb : b = 0
    · subst hb
      refine .inr (.inl ⟨.inl rfl, ?_, ?_⟩)
      · simp [onError]; decide
      · simp [Sem.binary, Sem.arith, Sem.Ans.res]
    · have hb' : ¬ b.toInt = 0 := fun h => hb ((toInt_zero_iff b).1 h)
      have hb2 : ¬ b = 0#32 := hb
      rcases ret32_cases (a.toInt.tdiv b.toInt) with ⟨v, h⟩ | h <;>
        simp [Sem.binary, Sem.arith, exact_res, h, liftC, binOps, hb2, hb']
  case MOD =>
    by_cases hb : b = 0
    · subst hb
      refine .inr (.inl ⟨.inr rfl, ?_, ?_⟩)
      · simp [onError]; decide
      · simp [Sem.binary, Sem.arith, Sem.Ans.res]
    · have hb' : ¬ b.toInt = 0 := fun h => hb ((toInt_zero_iff b).1 h)
      have hb2 : ¬ b = 0#32 := hb
      by_cases h : -2147483648 ≤ a.toInt.tdiv b.toInt ∧ a.toInt.tdiv b.toInt ≤ 2147483647
      · refine .inl ⟨BitVec.ofInt 32 (a.toInt.tmod b.toInt), ?_, by simp [binOps], ?_⟩
        · simp [hb2, fits32, h]
        · simp [Sem.binary, hb', h, Sem.Ans.res]
      · refine .inr (.inr (.inl ⟨by simp [binOps], ?_, ?_⟩))
        · simp only [hb, false_and, if_false, fits32, h, decide_false, Bool.false_eq_true]; rfl
        · simp [Sem.binary, hb', h, Sem.Ans.res]
  case AND => simp [Sem.binary, Sem.bool, Sem.truth, Sem.Ans.res, boolI32, binOps]
  case OR => simp [Sem.binary, Sem.bool, Sem.truth, Sem.Ans.res, boolI32, binOps]
  case EQ =>
    simp [Sem.binary, Sem.equal, Sem.arith, Sem.bool, Sem.truth, Sem.Ans.res, boolI32, binOps,
      BitVec.toInt_inj]
  case LT => simp [Sem.binary, Sem.compare, Sem.arith, Sem.bool, Sem.Ans.res, boolI32, binOps]
  case GT => simp [Sem.binary, Sem.compare, Sem.arith, Sem.bool, Sem.Ans.res, boolI32, binOps]
  case LEQ => simp [Sem.binary, Sem.compare, Sem.arith, Sem.bool, Sem.Ans.res, boolI32, binOps]
  case GEQ => simp [Sem.binary, Sem.compare, Sem.arith, Sem.bool, Sem.Ans.res, boolI32, binOps]
  all_goals exact .inr (.inr (.inr ⟨by simp [binOps], by simp [cFault]⟩))

/-- Folding a unary operator against running it. -/
theorem constUn_runs (fl : FloatOps) (op : Token) (a : I32) (w : State) :
    (∃ v, constUn op a = .ok v ∧ (op.type = .SUB ∨ op.type = .NOT) ∧
      Sem.unaryV fl op.type (.int a) w = .ok (.int v) w) ∨
    ((op.type = .SUB ∨ op.type = .NOT) ∧ constUn op a = .error (.fault .ub) ∧
      Sem.unaryV fl op.type (.int a) w = .fault .ub) ∨
    (¬ (op.type = .SUB ∨ op.type = .NOT) ∧ constUn op a = .error (.fault .assert)) := by
  have hv : Sem.unaryV fl op.type (.int a) w = (Sem.unary fl op.type (.int a)).res w := rfl
  rw [hv]
  obtain ⟨ty, st, ln, vl⟩ := op
  dsimp only
  unfold constUn
  cases ty
  case SUB =>
    rcases ret32_cases (-a.toInt) with ⟨v, h⟩ | h <;> simp [Sem.unary, exact_res, h, liftC]
  case NOT => simp [Sem.unary, Sem.bool, Sem.truth, Sem.Ans.res, boolI32]
  all_goals exact .inr (.inr ⟨by simp, rfl⟩)

/-- C21: an expression for which the optimiser knows a value evaluates to it, in every state and
without effects. -/
theorem C21_known (ρ : Vars) : ∀ (e : Expr Ref) {v : I32}, knownE e = .ok (some v) → ∀ w,
    evalE cx callF ρ e w = .ok (.int v) w
  | .int v _ _, _, h, w => by
    rw [knownE] at h
    cases h
    rw [evalE]
  | .bin op l r, v, h, w => by
    rw [knownE] at h
    split at h
    · cases h
    · rename_i a ha
      split at h
      · cases h
      · rename_i b hb
        split at h
        · rename_i a b
          have h1 := C21_known ρ l ha w
          have h2 := C21_known ρ r hb w
          rw [evalE, h1]
          simp only [Res.bind]
          rw [h2]
          simp only [Res.bind]
          rcases constBin_runs cx.fl op a b w with ⟨x, k1, k2, k3⟩ | ⟨_, k1, _⟩ | ⟨_, k1, _⟩ | ⟨_, k1⟩
          · rw [k1] at h
            cases h
            rw [if_neg (by intro h; rw [h] at k2; simp [binOps] at k2), k3]
          all_goals (rw [k1] at h; cases h)
        · cases h
  | .un op a, v, h, w => by
    rw [knownE] at h
    split at h
    · cases h
    · cases h
    · rename_i a' ha
      have h1 := C21_known ρ a ha w
      rw [evalE, h1]
      simp only [Res.bind]
      rcases constUn_runs cx.fl op a' w with ⟨x, k1, k2, k3⟩ | ⟨_, k1, _⟩ | ⟨_, k1⟩
      · rw [k1] at h
        cases h
        rw [if_pos k2, k3]
      all_goals (rw [k1] at h; cases h)
  | .arr _ es, _, h, _ => by
    rw [knownE] at h; split at h <;> cases h
  | .deref _ l i, _, h, _ => by
    rw [knownE] at h; split at h; cases h; split at h <;> cases h
  | .call _ c as, _, h, _ => by
    rw [knownE] at h; split at h; cases h; split at h <;> cases h
  | .ident .., _, h, _ => by simp [knownE] at h
  | .float .., _, h, _ => by simp [knownE] at h
  | .str .., _, h, _ => by simp [knownE] at h
  | .none _, _, h, _ => by simp [knownE] at h
  | .member .., _, h, _ => by simp [knownE] at h

/-- C21: on an operator tree over integer literals the optimiser and the run agree completely: the
same value; the error "constant divide by zero" at one of its divisions exactly when the run fails with
a division by zero; undefined overflow exactly when the run overflows. -/
theorem C21_tree (ρ : Vars) (w : State) : ∀ (e : Expr Ref), constTree e →
    (∃ v, evalE cx callF ρ e w = .ok (.int v) w ∧ knownE e = .ok (some v)) ∨
    (∃ t ∈ divisions e, evalE cx callF ρ e w = .err .bad_divide_by_zero w ∧
      knownE e = .error (.err ⟨str "constant divide by zero", t.line⟩)) ∨
    (evalE cx callF ρ e w = .fault .ub ∧ knownE e = .error (.fault .ub))
  | .int v _ _, _ => .inl ⟨v, by rw [evalE], by rw [knownE]⟩
  | .bin op l r, h => by
    obtain ⟨h0, hl, hr⟩ := h
    rw [evalE, knownE]
    rcases C21_tree ρ w l hl with ⟨a, h1, h2⟩ | ⟨t, h0, h1, h2⟩ | ⟨h1, h2⟩
    · rw [h1, h2]
      simp only [Res.bind]
      rcases C21_tree ρ w r hr with ⟨b, h3, h4⟩ | ⟨t, h0, h3, h4⟩ | ⟨h3, h4⟩
      · rw [h3, h4]
        simp only [Res.bind]
        rw [if_neg (by intro h; rw [h] at h0; simp at h0)]
        rcases constBin_runs cx.fl op a b w with ⟨x, k1, k2, k3⟩ | ⟨k0, k1, k2⟩ | ⟨_, k1, k2⟩ | ⟨k0, k1⟩
        · rw [k1, k3]; exact .inl ⟨x, rfl, rfl⟩
        · rw [k1, k2]; exact .inr (.inl ⟨op, by simp [divisions, k0], rfl, rfl⟩)
        · rw [k1, k2]; exact .inr (.inr ⟨rfl, rfl⟩)
        · exact absurd h0 k0
      · rw [h3, h4]; exact .inr (.inl ⟨t, by simp [divisions, h0], rfl, rfl⟩)
      · rw [h3, h4]; exact .inr (.inr ⟨rfl, rfl⟩)
    · rw [h1, h2]; exact .inr (.inl ⟨t, by simp [divisions, h0], rfl, rfl⟩)
    · rw [h1, h2]; exact .inr (.inr ⟨rfl, rfl⟩)
  | .un op a, h => by
    obtain ⟨h0, hl⟩ := h
    rw [evalE, knownE]
    rcases C21_tree ρ w a hl with ⟨a, h1, h2⟩ | ⟨t, h0, h1, h2⟩ | ⟨h1, h2⟩
    · rw [h1, h2]
      simp only [Res.bind]
      rw [if_pos h0]
      rcases constUn_runs cx.fl op a w with ⟨x, k1, k2, k3⟩ | ⟨_, k1, k2⟩ | ⟨k0, k1⟩
      · rw [k1, k3]; exact .inl ⟨x, rfl, rfl⟩
      · rw [k1, k2]; exact .inr (.inr ⟨rfl, rfl⟩)
      · exact absurd h0 k0
    · rw [h1, h2]; exact .inr (.inl ⟨t, by simpa [divisions] using h0, rfl, rfl⟩)
    · rw [h1, h2]; exact .inr (.inr ⟨rfl, rfl⟩)

theorem foldTop_eval (ρ : Vars) {e e' : Expr Ref} (h : foldTop e = .ok e') (w : State) :
    evalE cx callF ρ e' w = evalE cx callF ρ e w := by
  unfold foldTop at h
  split at h
  · cases h
  · rename_i v hv
    split at h
    · cases h
      rw [C21_known ρ _ hv, evalE]
    · cases h
      rfl

mutual
/-- C21: a statement after constant folding does what it did before. -/
theorem C21_stmt : ∀ {s s' : Stmt Ref}, foldS s = .ok s' → ∀ ρ w,
    evalS cx callF zi n s' ρ w = evalS cx callF zi n s ρ w
  | .var t d init, s', h, ρ, w => by
    rw [foldS] at h; split at h
    · cases h
    · cases h; rfl
  | .assign t d e, s', h, ρ, w => by
    rw [foldS] at h; split at h
    · cases h
    · rename_i he
      cases h
      rw [evalS, evalS, foldTop_eval ρ he]
  | .assignArr t d i e, s', h, ρ, w => by
    rw [foldS] at h; split at h
    · cases h
    · split at h
      · cases h
      · cases h; rfl
  | .assignMem t d i e, s', h, ρ, w => by
    rw [foldS] at h; split at h
    · cases h
    · cases h; rfl
  | .call t c as, s', h, ρ, w => by
    rw [foldS] at h; split at h
    · cases h
    · split at h
      · cases h
      · cases h; rfl
  | .ifS t c thn he els, s', h, ρ, w => by
    rw [foldS] at h; split at h
    · cases h
    · rename_i h1
      split at h
      · cases h
      · rename_i h2
        split at h
        · cases h
        · rename_i h3
          cases h
          rw [evalS, evalS, foldTop_eval ρ h1]
          congr 1; funext a w
          congr 1; funext x
          rw [C21_block h2, C21_block h3]
  | .whileS t c body, s', h, ρ, w => by
    rw [foldS] at h; split at h
    · cases h
    · rename_i h1
      split at h
      · cases h
      · rename_i h2
        cases h
        rw [evalS, evalS]
        congr 1
        · funext ρ w
          rw [foldTop_eval ρ h1]
        · funext ρ w
          rw [C21_block h2]
  | .forS t nm d a b body, s', h, ρ, w => by
    rw [foldS] at h; split at h
    · cases h
    · split at h
      · cases h
      · split at h
        · cases h
        · rename_i h2
          cases h
          rw [evalS, evalS]
          congr 1; funext v w
          congr 1; funext ρ w
          congr 1
          funext ρ w
          rw [C21_block h2]
  | .ret t none, s', h, ρ, w => by
    rw [foldS] at h; cases h; rfl
  | .ret t (some e), s', h, ρ, w => by
    rw [foldS] at h; split at h
    · cases h
    · rename_i he
      cases h
      rw [evalS, evalS, foldTop_eval ρ he]
/-- C21: the same for a block. -/
theorem C21_block : ∀ {b b' : List (Stmt Ref)}, foldB b = .ok b' → ∀ ρ w,
    evalB cx callF zi n b' ρ w = evalB cx callF zi n b ρ w
  | [], b', h, ρ, w => by
    rw [foldB] at h; cases h; rfl
  | s :: ss, b', h, ρ, w => by
    rw [foldB] at h; split at h
    · cases h
    · rename_i h1
      split at h
      · cases h
      · rename_i h2
        cases h
        rw [evalB, evalB, C21_stmt h1]
        congr 1; funext a w
        congr 1; funext ρ w
        exact C21_block h2 ρ w
end

/-! ### C22: statements behind a `return` -/

/-- C22: a body without the statements behind its first `return` does what it did before. -/
theorem C22_block : ∀ (b : List (Stmt Ref)) ρ w,
    evalB cx callF zi n (cutAfterRet b) ρ w = evalB cx callF zi n b ρ w
  | [], ρ, w => rfl
  | s :: ss, ρ, w => by
    unfold cutAfterRet
    split
    · rename_i hs
      rw [evalB, evalB]
      cases s <;> simp [Stmt.isRet] at hs
      rename_i t e
      cases e with
      | none => rw [evalS]; rfl
      | some e =>
        rw [evalS]
        cases evalE cx callF ρ e w <;> rfl
    · rw [evalB, evalB]
      congr 1; funext a w
      congr 1; funext ρ w
      exact C22_block ss ρ w

/-! ### C23: constant conditions -/

mutual
/-- The named constants whose literal an expression uses. -/
def usesE : Expr Ref → List Nat
  | .int _ _ (some c) => [c]
  | .arr _ es => usesEs es
  | .deref _ l i => usesE l ++ usesE i
  | .call _ c as => usesE c ++ usesEs as
  | .bin _ l r => usesE l ++ usesE r
  | .un _ a => usesE a
  | _ => []
/-- The same for a list. -/
def usesEs : List (Expr Ref) → List Nat
  | [] => []
  | e :: es => usesE e ++ usesEs es
end

/-- An expression that may be missing. -/
def usesO : Option (Expr Ref) → List Nat
  | none => []
  | some e => usesE e

mutual
/-- Statements. -/
def usesS : Stmt Ref → List Nat
  | .var _ _ init => usesO init
  | .assign _ _ e => usesE e
  | .assignArr _ _ i e => usesE i ++ usesE e
  | .assignMem _ _ _ e => usesE e
  | .call _ c as => usesE c ++ usesEs as
  | .ifS _ c thn _ els => usesE c ++ usesB thn ++ usesB els
  | .whileS _ c body => usesE c ++ usesB body
  | .forS _ _ _ a b body => usesE a ++ usesE b ++ usesB body
  | .ret _ e => usesO e
/-- Blocks. -/
def usesB : List (Stmt Ref) → List Nat
  | [] => []
  | s :: ss => usesS s ++ usesB ss
end

/-- Everything a program contains. -/
def usesP : Prog Ref → List Nat
  | [] => []
  | .var _ _ init :: xs => usesO init ++ usesP xs
  | .func f :: xs => usesB f.body ++ usesP xs
  | .syscall .. :: xs => usesP xs

/-- The constant when a condition is one that is 0. -/
def zeroCond : Expr Ref → List Nat
  | .int v _ (some c) => if v = 0 then [c] else []
  | _ => []

mutual
/-- The constants with value 0 that are the condition of an `if`. -/
def zeroIfsS : Stmt Ref → List Nat
  | .ifS _ c thn _ els => zeroCond c ++ zeroIfsB thn ++ zeroIfsB els
  | .whileS _ _ body => zeroIfsB body
  | .forS _ _ _ _ _ body => zeroIfsB body
  | _ => []
/-- Blocks. -/
def zeroIfsB : List (Stmt Ref) → List Nat
  | [] => []
  | s :: ss => zeroIfsS s ++ zeroIfsB ss
end

/-- Everything a program contains. -/
def zeroIfsP : Prog Ref → List Nat
  | [] => []
  | .func f :: xs => zeroIfsB f.body ++ zeroIfsP xs
  | _ :: xs => zeroIfsP xs

mutual
theorem patchE_id {M : List Nat} : ∀ {e : Expr Ref}, (∀ c ∈ usesE e, c ∉ M) → patchE M e = e
  | .int v t none, _ => by simp [patchE, litVal]
  | .int v t (some c), h => by
    have := h c (by simp [usesE])
    simp [patchE, litVal, this]
  | .arr t es, h => by rw [patchE, patchEs_id (by simpa [usesE] using h)]
  | .deref t l i, h => by
    simp only [usesE, List.mem_append] at h
    rw [patchE, patchE_id fun c hc => h c (.inl hc), patchE_id fun c hc => h c (.inr hc)]
  | .call t c as, h => by
    simp only [usesE, List.mem_append] at h
    rw [patchE, patchE_id fun c hc => h c (.inl hc), patchEs_id fun c hc => h c (.inr hc)]
  | .bin t l i, h => by
    simp only [usesE, List.mem_append] at h
    rw [patchE, patchE_id fun c hc => h c (.inl hc), patchE_id fun c hc => h c (.inr hc)]
  | .un t a, h => by rw [patchE, patchE_id (by simpa [usesE] using h)]
  | .ident .., _ => by simp [patchE]
  | .float .., _ => by simp [patchE]
  | .str .., _ => by simp [patchE]
  | .none _, _ => by simp [patchE]
  | .member .., _ => by simp [patchE]
theorem patchEs_id {M : List Nat} : ∀ {es : List (Expr Ref)}, (∀ c ∈ usesEs es, c ∉ M) → patchEs M es = es
  | [], _ => by rw [patchEs]
  | e :: es, h => by
    simp only [usesEs, List.mem_append] at h
    rw [patchEs, patchE_id fun c hc => h c (.inl hc), patchEs_id fun c hc => h c (.inr hc)]
end

theorem patchO_id {M : List Nat} {e : Option (Expr Ref)} (h : ∀ c ∈ usesO e, c ∉ M) :
    e.map (patchE M) = e := by
  cases e with
  | none => rfl
  | some e => simp only [Option.map_some]; rw [patchE_id h]

theorem zeroCond_uses {e : Expr Ref} {c : Nat} (h : c ∈ zeroCond e) : c ∈ usesE e := by
  unfold zeroCond at h
  split at h
  · split at h
    · simpa [usesE] using h
    · simp at h
  · simp at h

mutual
theorem zeroIfsS_uses {c : Nat} : ∀ {s : Stmt Ref}, c ∈ zeroIfsS s → c ∈ usesS s
  | .ifS t e thn he els, h => by
    simp only [zeroIfsS, List.mem_append] at h
    simp only [usesS, List.mem_append]
    rcases h with (h | h) | h
    · exact .inl (.inl (zeroCond_uses h))
    · exact .inl (.inr (zeroIfsB_uses h))
    · exact .inr (zeroIfsB_uses h)
  | .whileS t e body, h => by
    simp only [zeroIfsS, usesS, List.mem_append] at h ⊢
    exact .inr (zeroIfsB_uses h)
  | .forS t n d a b body, h => by
    simp only [zeroIfsS, usesS, List.mem_append] at h ⊢
    exact .inr (zeroIfsB_uses h)
  | .var .., h => by simp [zeroIfsS] at h
  | .assign .., h => by simp [zeroIfsS] at h
  | .assignArr .., h => by simp [zeroIfsS] at h
  | .assignMem .., h => by simp [zeroIfsS] at h
  | .call .., h => by simp [zeroIfsS] at h
  | .ret .., h => by simp [zeroIfsS] at h
theorem zeroIfsB_uses {c : Nat} : ∀ {b : List (Stmt Ref)}, c ∈ zeroIfsB b → c ∈ usesB b
  | [], h => by simp [zeroIfsB] at h
  | s :: ss, h => by
    simp only [zeroIfsB, usesB, List.mem_append] at h ⊢
    exact h.imp zeroIfsS_uses zeroIfsB_uses
end

/-- The condition on a part of the program: of its constants only those in `M` that are used once are
overwritten, and those are conditions. -/
def Solo (M uses zeros : List Nat) : Prop := ∀ c ∈ uses, c ∈ M → c ∈ zeros ∧ uses.count c = 1

theorem solo_left {M u1 u2 z1 z2 : List Nat} (h2 : ∀ c ∈ z2, c ∈ u2)
    (h : Solo M (u1 ++ u2) (z1 ++ z2)) : Solo M u1 z1 := by
  intro c hc hM
  obtain ⟨k1, k2⟩ := h c (by simp [hc]) hM
  have p1 := List.count_pos_iff.2 hc
  simp only [List.count_append] at k2
  have p2 : c ∉ u2 := fun h => by have := List.count_pos_iff.2 h; omega
  have p3 : u2.count c = 0 := List.count_eq_zero.2 p2
  simp only [List.mem_append] at k1
  exact ⟨k1.resolve_right fun h => p2 (h2 c h), by omega⟩

theorem solo_right {M u1 u2 z1 z2 : List Nat} (h1 : ∀ c ∈ z1, c ∈ u1)
    (h : Solo M (u1 ++ u2) (z1 ++ z2)) : Solo M u2 z2 := by
  intro c hc hM
  obtain ⟨k1, k2⟩ := h c (by simp [hc]) hM
  have p1 := List.count_pos_iff.2 hc
  simp only [List.count_append] at k2
  have p2 : c ∉ u1 := fun h => by have := List.count_pos_iff.2 h; omega
  have p3 : u1.count c = 0 := List.count_eq_zero.2 p2
  simp only [List.mem_append] at k1
  exact ⟨k1.resolve_left fun h => p2 (h1 c h), by omega⟩

theorem solo_nil {M u : List Nat} (h : Solo M u []) : ∀ c ∈ u, c ∉ M :=
  fun c hc hM => by simpa using (h c hc hM).1

mutual
/-- Only constants that are 0 and a condition are overwritten. -/
theorem pruneS_list : ∀ (s : Stmt Ref) (m : List Nat),
    (∀ c ∈ m, c ∈ (pruneS m s).2) ∧ ∀ c ∈ (pruneS m s).2, c ∈ m ∨ c ∈ zeroIfsS s
  | .var .., m => ⟨fun _ h => h, fun _ h => .inl h⟩
  | .assign .., m => ⟨fun _ h => h, fun _ h => .inl h⟩
  | .assignArr .., m => ⟨fun _ h => h, fun _ h => .inl h⟩
  | .assignMem .., m => ⟨fun _ h => h, fun _ h => .inl h⟩
  | .call .., m => ⟨fun _ h => h, fun _ h => .inl h⟩
  | .ret .., m => ⟨fun _ h => h, fun _ h => .inl h⟩
  | .ifS t e thn he els, m => by
    obtain ⟨a1, a2⟩ := pruneB_list thn m
    obtain ⟨b1, b2⟩ := pruneB_list els (pruneB m thn).2
    rw [pruneS]
    split
    rename_i thn' m1 e1
    rw [e1] at a1 a2 b1 b2
    dsimp only at a1 a2 b1 b2
    split
    rename_i els' m2 e2
    rw [e2] at b1 b2
    dsimp only at b1 b2
    have k1 : ∀ c ∈ m, c ∈ m2 := fun c h => b1 c (a1 c h)
    have k2 : ∀ c ∈ m2, c ∈ m ∨ c ∈ zeroIfsB thn ∨ c ∈ zeroIfsB els := by
      intro c h
      rcases b2 c h with h | h
      · rcases a2 c h with h | h
        · exact .inl h
        · exact .inr (.inl h)
      · exact .inr (.inr h)
    simp only [zeroIfsS, List.mem_append]
    split
    · rename_i v k cell
      split
      · exact ⟨k1, fun c h => by rcases k2 c h with h | h | h <;> simp [h]⟩
      · rename_i hz
        split
        · exact ⟨k1, fun c h => by rcases k2 c h with h | h | h <;> simp [h]⟩
        · rename_i nn
          refine ⟨fun c h => List.mem_cons_of_mem _ (k1 c h), fun c h => ?_⟩
          dsimp only at h
          rcases List.mem_cons.1 h with h | h
          · subst h
            have : v = 0 := by
              simp only [litVal] at hz
              split at hz
              · simp at hz
              · simpa using hz
            simp [zeroCond, this]
          · rcases k2 c h with h | h | h <;> simp [h]
    · exact ⟨k1, fun c h => by rcases k2 c h with h | h | h <;> simp [h]⟩
  | .whileS t e body, m => by
    obtain ⟨a1, a2⟩ := pruneB_list body m
    rw [pruneS]
    split
    rename_i b' m1 e1
    rw [e1] at a1 a2
    dsimp only at a1 a2
    simp only [zeroIfsS]
    split
    · split <;> exact ⟨a1, a2⟩
    · exact ⟨a1, a2⟩
  | .forS t n d a b body, m => by
    obtain ⟨a1, a2⟩ := pruneB_list body m
    rw [pruneS]
    split
    rename_i b' m1 e1
    rw [e1] at a1 a2
    exact ⟨a1, a2⟩
theorem pruneB_list : ∀ (b : List (Stmt Ref)) (m : List Nat),
    (∀ c ∈ m, c ∈ (pruneB m b).2) ∧ ∀ c ∈ (pruneB m b).2, c ∈ m ∨ c ∈ zeroIfsB b
  | [], m => ⟨fun _ h => h, fun _ h => .inl h⟩
  | s :: ss, m => by
    obtain ⟨a1, a2⟩ := pruneS_list s m
    obtain ⟨b1, b2⟩ := pruneB_list ss (pruneS m s).2
    rw [pruneB]
    split
    rename_i s' m1 e1
    rw [e1] at a1 a2 b1 b2
    dsimp only at a1 a2 b1 b2
    split
    rename_i ss' m2 e2
    rw [e2] at b1 b2
    dsimp only at b1 b2
    refine ⟨fun c h => b1 c (a1 c h), fun c h => ?_⟩
    simp only [zeroIfsB, List.mem_append]
    rcases b2 c h with h | h
    · rcases a2 c h with h | h
      · exact .inl h
      · exact .inr (.inl h)
    · exact .inr (.inr h)
end

theorem leave_self (ρ : Vars) : ρ.leave ρ = ρ := by
  funext r
  unfold Vars.leave
  cases h : ρ r <;> simp [Sem.Slot.live]

theorem evalB_nil (ρ : Vars) (w : State) : evalB cx callF zi n [] ρ w = .ok (.next ρ) w := by
  unfold evalB; rfl

/-- An `if` with a literal condition. -/
theorem evalS_lit (t : Token) (v : I32) (k : Option Token) (cell : Option Nat) (thn els : List (Stmt Ref)) (he : Bool)
    (ρ : Vars) (w : State) : evalS cx callF zi n (.ifS t (.int v k cell) thn he els) ρ w =
      if v ≠ 0 then (evalB cx callF zi n thn ρ w).bind fun fl w => .ok (fl.leave ρ) w
      else if he then (evalB cx callF zi n els ρ w).bind fun fl w => .ok (fl.leave ρ) w
      else .ok (.next ρ) w := by
  rw [evalS, evalE]
  show (if decide (v ≠ 0) = true then _ else _) = _
  by_cases h : v = 0
  · simp [h]
  · simp [h]

/-- A loop whose test fails at once. -/
theorem while_false (t : Token) (k : Option Token) (cell : Option Nat) (b1 b2 : List (Stmt Ref)) (ρ : Vars) (w : State) :
    evalS cx callF zi n (.whileS t (.int 0 k cell) b1) ρ w = evalS cx callF zi n (.whileS t (.int 0 k cell) b2) ρ w := by
  rw [evalS, evalS]
  cases n with
  | zero => rfl
  | succ n =>
    unfold Sem.loop
    rw [evalE]
    rfl

/-- What is used in the second part was not overwritten in the first. -/
theorem solo_step {M m m1 u1 u2 z1 z : List Nat} (hz : ∀ c ∈ z1, c ∈ u1) (hs : Solo M (u1 ++ u2) z)
    (hm : ∀ c ∈ u1 ++ u2, c ∉ m) (h1 : ∀ c ∈ m1, c ∈ m ∨ c ∈ z1) (hM : ∀ c ∈ m1, c ∈ M) :
    ∀ c ∈ u2, c ∉ m1 := by
  intro c hc h
  rcases h1 c h with h' | h'
  · exact hm c (by simp [hc]) h'
  · have k := (hs c (by simp [hc]) (hM c h)).2
    have p1 := List.count_pos_iff.2 hc
    have p2 := List.count_pos_iff.2 (hz c h')
    rw [List.count_append] at k
    omega

mutual
/-- The pruned statement, after overwriting the literals in `M`, does what the statement did. -/
theorem prune_stmt {M : List Nat} : ∀ (s : Stmt Ref) {m : List Nat}, (∀ c ∈ (pruneS m s).2, c ∈ M) →
    (∀ c ∈ usesS s, c ∉ m) → Solo M (usesS s) (zeroIfsS s) → ∀ ρ w,
    evalS cx callF zi n (patchS M (pruneS m s).1) ρ w = evalS cx callF zi n s ρ w
  | .var t d init, m, _, _, hs, ρ, w => by
    show evalS cx callF zi n (.var t d (init.map (patchE M))) ρ w = _
    rw [patchO_id (solo_nil hs)]
  | .assign t d e, m, _, _, hs, ρ, w => by
    show evalS cx callF zi n (.assign t d (patchE M e)) ρ w = _
    rw [patchE_id (solo_nil hs)]
  | .assignArr t d i e, m, _, _, hs, ρ, w => by
    have h := solo_nil hs
    simp only [usesS, List.mem_append] at h
    show evalS cx callF zi n (.assignArr t d (patchE M i) (patchE M e)) ρ w = _
    rw [patchE_id fun c hc => h c (.inl hc), patchE_id fun c hc => h c (.inr hc)]
  | .assignMem t d i e, m, _, _, hs, ρ, w => by
    show evalS cx callF zi n (.assignMem t d i (patchE M e)) ρ w = _
    rw [patchE_id (solo_nil hs)]
  | .call t c as, m, _, _, hs, ρ, w => by
    have h := solo_nil hs
    simp only [usesS, List.mem_append] at h
    show evalS cx callF zi n (.call t (patchE M c) (patchEs M as)) ρ w = _
    rw [patchE_id fun c hc => h c (.inl hc), patchEs_id fun c hc => h c (.inr hc)]
  | .ret t e, m, _, _, hs, ρ, w => by
    show evalS cx callF zi n (.ret t (e.map (patchE M))) ρ w = _
    rw [patchO_id (solo_nil hs)]
  | .ifS t e thn he els, m, hM, hm, hs, ρ, w => by
    simp only [usesS, zeroIfsS] at hm hs
    have a := pruneB_list thn m
    have b := pruneB_list els (pruneB m thn).2
    have s1 : Solo M (usesB thn) (zeroIfsB thn) :=
      solo_right (z1 := zeroCond e) (fun c => zeroCond_uses) (solo_left (fun c => zeroIfsB_uses) hs)
    have s2 : Solo M (usesB els) (zeroIfsB els) := by
      refine solo_right (z1 := zeroCond e ++ zeroIfsB thn) ?_ hs
      intro c hc
      simp only [List.mem_append] at hc ⊢
      exact hc.imp zeroCond_uses zeroIfsB_uses
    have s3 : Solo M (usesE e) (zeroCond e) := solo_left (fun c => zeroIfsB_uses) (solo_left (fun c => zeroIfsB_uses) hs)
    rw [pruneS] at hM ⊢
    have ih1 := prune_block (M := M) thn (m := m)
    have ih2 := prune_block (M := M) els (m := (pruneB m thn).2)
    cases e1 : pruneB m thn with
    | mk thn' m1 =>
    rw [e1] at hM a b ih1 ih2
    dsimp only at hM a b ih1 ih2 ⊢
    cases e2 : pruneB m1 els with
    | mk els' m2 =>
    rw [e2] at hM b ih2
    dsimp only at hM b ih2 ⊢
    have hM2 : ∀ c ∈ m2, c ∈ M := by
      intro c hc
      apply hM
      split
      · split
        · exact hc
        · split
          · exact hc
          · exact List.mem_cons_of_mem _ hc
      · exact hc
    have hM1 : ∀ c ∈ m1, c ∈ M := fun c hc => hM2 c (b.1 c hc)
    have e1m : ∀ c ∈ usesE e, c ∉ m2 := by
      intro c hc h
      have hcM := hM2 c h
      have p1 := List.count_pos_iff.2 hc
      have k := (hs c (by simp [hc]) hcM).2
      simp only [List.count_append] at k
      rcases b.2 c h with h | h
      · rcases a.2 c h with h | h
        · exact hm c (by simp [hc]) h
        · have := List.count_pos_iff.2 (zeroIfsB_uses h)
          omega
      · have := List.count_pos_iff.2 (zeroIfsB_uses h)
        omega
    have k1 : ∀ ρ w, evalB cx callF zi n (patchB M thn') ρ w = evalB cx callF zi n thn ρ w :=
      ih1 hM1 (fun c hc => hm c (by simp [hc])) s1
    have k2 : ∀ ρ w, evalB cx callF zi n (patchB M els') ρ w = evalB cx callF zi n els ρ w := by
      refine ih2 hM2 ?_ s2
      refine solo_step (z1 := zeroIfsB thn) (u1 := usesE e ++ usesB thn) (m := m) ?_ hs hm a.2 hM1
      intro c hc
      simp [zeroIfsB_uses hc]
    clear ih1 ih2 a b
    cases e with
    | int v k cell =>
      dsimp only at hM ⊢
      rw [evalS_lit]
      by_cases hv : litVal m2 v cell ≠ 0
      · rw [if_pos hv] at hM ⊢
        have hp : patchE M (.int v k cell) = (.int v k cell : Expr Ref) := by
          refine patchE_id fun c hc hcM => ?_
          have := (s3 c hc hcM).1
          cases cell with
          | none => simp [usesE] at hc
          | some c' =>
            have hcc : c = c' := by simpa [usesE] using hc
            subst hcc
            simp only [zeroCond] at this
            have hv0 : v = 0 := by
              by_cases h : v = 0
              · exact h
              · rw [if_neg h] at this
                simp at this
            have := e1m c hc
            simp [litVal, this, hv0] at hv
        have hv' : v ≠ 0 := by
          intro h
          subst h
          cases cell with
          | none => simp [litVal] at hv
          | some c =>
            have := e1m c (by simp [usesE])
            simp [litVal, this] at hv
        simp only [patchS]
        rw [hp, evalS_lit, if_pos hv', if_pos hv', k1]
      · rw [if_neg hv] at hM ⊢
        have hv0 : v = 0 := by
          have hv := Classical.not_not.1 hv
          cases cell with
          | none => exact hv
          | some c =>
            have := e1m c (by simp [usesE])
            simpa [litVal, this] using hv
        rw [if_neg (show ¬ (v ≠ 0) by simp [hv0])]
        have hels : (evalB cx callF zi n (patchB M (if he = true then els' else [])) ρ w).bind
              (fun fl w => .ok (fl.leave ρ) w) =
            if he = true then (evalB cx callF zi n els ρ w).bind fun fl w => .ok (fl.leave ρ) w
            else .ok (.next ρ) w := by
          cases he with
          | true => simp only [if_true]; rw [k2]
          | false =>
            simp only [Bool.false_eq_true, if_false, patchB]
            rw [evalB_nil]
            simp only [Res.bind, Flow.leave, leave_self]
        cases cell with
        | none =>
          dsimp only
          simp only [patchS, patchE, litVal]
          rw [evalS_lit, if_pos (by decide)]
          exact hels
        | some c =>
          dsimp only at hM ⊢
          have : c ∈ M := hM c (by simp)
          simp only [patchS, patchE, litVal]
          rw [evalS_lit, if_pos (by simp [this])]
          exact hels
    | _ =>
      dsimp only
      have hp := patchE_id (M := M) (solo_nil s3)
      simp only [patchS]
      rw [hp, evalS, evalS]
      congr 1; funext v w
      congr 1; funext x
      rw [k1, k2]
  | .whileS t e body, m, hM, hm, hs, ρ, w => by
    simp only [usesS, zeroIfsS] at hm hs
    have hs' : Solo M (usesE e ++ usesB body) ([] ++ zeroIfsB body) := hs
    have s1 : Solo M (usesB body) (zeroIfsB body) := solo_right (by simp) hs'
    have s3 : Solo M (usesE e) [] := solo_left (fun c => zeroIfsB_uses) hs'
    have a := pruneB_list body m
    rw [pruneS] at hM ⊢
    have ih1 := prune_block (M := M) body (m := m)
    cases e1 : pruneB m body with
    | mk body' m1 =>
    rw [e1] at hM a ih1
    dsimp only at hM a ih1 ⊢
    have hM1 : ∀ c ∈ m1, c ∈ M := by
      intro c hc
      apply hM
      split
      · split <;> exact hc
      · exact hc
    have k1 : ∀ ρ w, evalB cx callF zi n (patchB M body') ρ w = evalB cx callF zi n body ρ w :=
      ih1 hM1 (fun c hc => hm c (by simp [hc])) s1
    have hp := patchE_id (M := M) (solo_nil s3)
    clear ih1
    have same : evalS cx callF zi n (patchS M (.whileS t e body')) ρ w = evalS cx callF zi n (.whileS t e body) ρ w := by
      simp only [patchS]
      rw [hp, evalS, evalS]
      congr 1
      funext ρ w
      rw [k1]
    cases e with
    | int v k cell =>
      dsimp only at hM ⊢
      split
      · rename_i hz
        have hv0 : v = 0 := by
          cases cell with
          | none => exact hz
          | some c =>
            have : c ∉ m1 := fun h => solo_nil s3 c (by simp [usesE]) (hM1 c h)
            simpa [litVal, this] using hz
        subst hv0
        simp only [patchS]
        rw [hp]
        exact while_false ..
      · exact same
    | _ => exact same
  | .forS t nm d a b body, m, hM, hm, hs, ρ, w => by
    simp only [usesS, zeroIfsS] at hm hs
    have hs' : Solo M ((usesE a ++ usesE b) ++ usesB body) ([] ++ zeroIfsB body) := hs
    have s1 : Solo M (usesB body) (zeroIfsB body) := solo_right (by simp) hs'
    have s3 := solo_nil (solo_left (fun c => zeroIfsB_uses) hs')
    have ih1 := prune_block (M := M) body (m := m)
    rw [pruneS] at hM ⊢
    cases e1 : pruneB m body with
    | mk body' m1 =>
    rw [e1] at hM ih1
    dsimp only at hM ih1 ⊢
    have k1 : ∀ ρ w, evalB cx callF zi n (patchB M body') ρ w = evalB cx callF zi n body ρ w :=
      ih1 hM (fun c hc => hm c (by simp [hc])) s1
    simp only [patchS]
    rw [patchE_id fun c hc => s3 c (by simp [hc]), patchE_id fun c hc => s3 c (by simp [hc]), evalS, evalS]
    congr 1; funext v w
    congr 1; funext ρ w
    congr 1
    funext ρ w
    rw [k1]
theorem prune_block {M : List Nat} : ∀ (s : List (Stmt Ref)) {m : List Nat}, (∀ c ∈ (pruneB m s).2, c ∈ M) →
    (∀ c ∈ usesB s, c ∉ m) → Solo M (usesB s) (zeroIfsB s) → ∀ ρ w,
    evalB cx callF zi n (patchB M (pruneB m s).1) ρ w = evalB cx callF zi n s ρ w
  | [], m, _, _, hs, ρ, w => by rw [pruneB, patchB]
  | s :: ss, m, hM, hm, hs, ρ, w => by
    simp only [usesB, zeroIfsB] at hm hs
    have a := pruneS_list s m
    have b := pruneB_list ss (pruneS m s).2
    have ih1 := prune_stmt (M := M) s (m := m)
    have ih2 := prune_block (M := M) ss (m := (pruneS m s).2)
    rw [pruneB] at hM ⊢
    cases e1 : pruneS m s with
    | mk s' m1 =>
    rw [e1] at hM a b ih1 ih2
    dsimp only at hM a b ih1 ih2 ⊢
    cases e2 : pruneB m1 ss with
    | mk ss' m2 =>
    rw [e2] at hM b ih2
    dsimp only at hM b ih2 ⊢
    have hM1 : ∀ c ∈ m1, c ∈ M := fun c hc => hM c (b.1 c hc)
    have k1 : ∀ ρ w, evalS cx callF zi n (patchS M s') ρ w = evalS cx callF zi n s ρ w :=
      ih1 hM1 (fun c hc => hm c (by simp [hc])) (solo_left (fun c => zeroIfsB_uses) hs)
    have k2 : ∀ ρ w, evalB cx callF zi n (patchB M ss') ρ w = evalB cx callF zi n ss ρ w :=
      ih2 hM (solo_step (fun c => zeroIfsS_uses) hs hm a.2 hM1) (solo_right (fun c => zeroIfsS_uses) hs)
    rw [patchB, evalB, evalB, k1]
    congr 1; funext a w
    congr 1; funext ρ w
    exact k2 ρ w
end

/-! ### Whole programs -/

theorem same_refl (p : Prog Ref) (x : Item Ref) : SameItem cx p x x :=
  ⟨rfl, fun f g h1 h2 => by rw [h1] at h2; cases h2; intros; rfl,
    fun t t' o o' h1 h2 => by rw [h1] at h2; cases h2; exact .refl ..⟩

theorem postRet_same (p' : Prog Ref) : ∀ p : Prog Ref, Pairs (SameItem cx p') p (postRet p)
  | [] => .nil
  | .func f :: xs => .cons ⟨rfl, fun f' g h1 h2 => by
      cases h1; cases h2; intros; exact (C22_block _ _ _).symm, nofun⟩ (postRet_same p' xs)
  | .var .. :: xs => .cons (same_refl ..) (postRet_same p' xs)
  | .syscall .. :: xs => .cons (same_refl ..) (postRet_same p' xs)

theorem constFold_same (p' : Prog Ref) : ∀ {p q : Prog Ref}, constFold p = .ok q → Pairs (SameItem cx p') p q
  | [], q, h => by cases h; exact .nil
  | x :: xs, q, h => by
    rw [constFold] at h
    split at h
    · cases h
    · rename_i y hy
      split at h
      · cases h
      · rename_i ys hys
        cases h
        refine .cons ?_ (constFold_same p' hys)
        cases x with
        | var t c init =>
          simp only [foldItem] at hy
          split at hy
          · cases hy
          · cases hy; exact same_refl ..
        | syscall n a => cases hy; exact same_refl ..
        | func f =>
          simp only [foldItem] at hy
          split at hy
          · cases hy
          · rename_i b hb
            cases hy
            refine ⟨rfl, fun f' g h1 h2 => ?_, nofun⟩
            cases h1; cases h2; intros
            exact (C21_block hb _ _).symm

theorem pruneItems_list : ∀ (p : Prog Ref) (m : List Nat),
    (∀ c ∈ m, c ∈ (pruneItems m p).2) ∧ ∀ c ∈ (pruneItems m p).2, c ∈ m ∨ c ∈ zeroIfsP p
  | [], m => ⟨fun _ h => h, fun _ h => .inl h⟩
  | .var .. :: xs, m => pruneItems_list xs m
  | .syscall .. :: xs, m => pruneItems_list xs m
  | .func f :: xs, m => by
    obtain ⟨a1, a2⟩ := pruneB_list f.body m
    obtain ⟨b1, b2⟩ := pruneItems_list xs (pruneB m f.body).2
    refine ⟨fun c h => b1 c (a1 c h), fun c h => ?_⟩
    simp only [zeroIfsP, List.mem_append]
    rcases b2 c h with h | h
    · rcases a2 c h with h | h
      · exact .inl h
      · exact .inr (.inl h)
    · exact .inr (.inr h)

theorem zeroIfsP_uses {c : Nat} : ∀ {p : Prog Ref}, c ∈ zeroIfsP p → c ∈ usesP p
  | [], h => h
  | .var .. :: xs, h => by
    simp only [zeroIfsP, usesP, List.mem_append] at h ⊢
    exact .inr (zeroIfsP_uses h)
  | .syscall .. :: xs, h => by
    simp only [zeroIfsP, usesP] at h ⊢
    exact zeroIfsP_uses h
  | .func f :: xs, h => by
    simp only [zeroIfsP, usesP, List.mem_append] at h ⊢
    exact h.imp zeroIfsB_uses zeroIfsP_uses

theorem prune_same (p' : Prog Ref) {M : List Nat} : ∀ (p : Prog Ref) {m : List Nat},
    (∀ c ∈ (pruneItems m p).2, c ∈ M) → (∀ c ∈ usesP p, c ∉ m) → Solo M (usesP p) (zeroIfsP p) →
    Pairs (SameItem cx p') p ((pruneItems m p).1.map (patchItem M))
  | [], m, _, _, _ => .nil
  | .var t b init :: xs, m, hM, hm, hs => by
    have hs' : Solo M (usesO init ++ usesP xs) ([] ++ zeroIfsP xs) := hs
    have h1 := solo_nil (solo_left (fun c => zeroIfsP_uses) hs')
    have h2 := solo_right (by simp) hs'
    simp only [usesP, List.mem_append] at hm
    have ih := prune_same p' xs (m := m) hM (fun c hc => hm c (.inr hc)) h2
    show Pairs _ _ (Item.var t b (init.map (patchE M)) :: (pruneItems m xs).1.map (patchItem M))
    rw [patchO_id h1]
    exact .cons (same_refl ..) ih
  | .syscall n a :: xs, m, hM, hm, hs => .cons (same_refl ..) (prune_same p' xs (m := m) hM hm hs)
  | .func f :: xs, m, hM, hm, hs => by
    simp only [usesP, zeroIfsP] at hm hs
    have a := pruneB_list f.body m
    have b := pruneItems_list xs (pruneB m f.body).2
    have hM1 : ∀ c ∈ (pruneB m f.body).2, c ∈ M := fun c hc => hM c (b.1 c hc)
    have ih := prune_same p' xs (m := (pruneB m f.body).2) hM
      (solo_step (fun c => zeroIfsB_uses) hs hm a.2 hM1) (solo_right (fun c => zeroIfsB_uses) hs)
    refine .cons ⟨rfl, fun f' g h1 h2 => ?_, nofun⟩ ih
    cases h1; cases h2; intros
    exact (prune_block _ hM1 (fun c hc => hm c (by simp [hc])) (solo_left (fun c => zeroIfsP_uses) hs) _ _).symm

/-- No constant that is 0 and the condition of an `if` occurs a second time. -/
def Unshared (p : Prog Ref) : Prop := ∀ c ∈ zeroIfsP p, (usesP p).count c ≤ 1

instance (p : Prog Ref) : Decidable (Unshared p) := inferInstanceAs (Decidable (∀ c ∈ zeroIfsP p, _))

theorem ifRemove_same (p' : Prog Ref) {p : Prog Ref} (h : Unshared p) : Pairs (SameItem cx p') p (ifRemove p) := by
  refine prune_same p' p (m := []) (fun c hc => hc) (fun c _ => by simp) fun c hc hM => ?_
  rcases (pruneItems_list p []).2 c hM with k | k
  · simp at k
  · have := h c k
    have := List.count_pos_iff.2 hc
    exact ⟨k, by omega⟩

/-- C21: after constant folding every call does what it did before. -/
theorem C21_calls {p q : Prog Ref} (h : constFold p = .ok q) (zi : Nat → Ref → Bool) (n : Nat) :
    callFn (cx.withProg q) zi n = callFn (cx.withProg p) zi n := same_calls (constFold_same p h) zi n

/-- C21: and so does the start of the program. -/
theorem C21_start {p q : Prog Ref} (h : constFold p = .ok q) (zi : Nat → Ref → Bool) (n : Nat) (w : State) :
    startUp (cx.withProg q) zi n w = startUp (cx.withProg p) zi n w := same_startUp (constFold_same p h) zi n w

/-- C22: after the removal of the statements behind a `return` every call does what it did before. -/
theorem C22_calls (p : Prog Ref) (zi : Nat → Ref → Bool) (n : Nat) :
    callFn (cx.withProg (postRet p)) zi n = callFn (cx.withProg p) zi n := same_calls (postRet_same p p) zi n

/-- C22: and so does the start of the program. -/
theorem C22_start (p : Prog Ref) (zi : Nat → Ref → Bool) (n : Nat) (w : State) :
    startUp (cx.withProg (postRet p)) zi n w = startUp (cx.withProg p) zi n w :=
  same_startUp (postRet_same p p) zi n w

/-- C23, for programs that use no constant with value 0 as a condition and also elsewhere: after the
removal of constant branches every call does what it did before.  Missing: programs that do, for which
the claim is false (`C23_violated`). -/
theorem C23_calls_partial {p : Prog Ref} (h : Unshared p) (zi : Nat → Ref → Bool) (n : Nat) :
    callFn (cx.withProg (ifRemove p)) zi n = callFn (cx.withProg p) zi n := same_calls (ifRemove_same p h) zi n

/-- C23: and so does the start of the program. -/
theorem C23_start_partial {p : Prog Ref} (h : Unshared p) (zi : Nat → Ref → Bool) (n : Nat) (w : State) :
    startUp (cx.withProg (ifRemove p)) zi n w = startUp (cx.withProg p) zi n w :=
  same_startUp (ifRemove_same p h) zi n w

/-! ### All passes together -/

theorem cut_uses : ∀ b : List (Stmt Ref), (usesB (cutAfterRet b)).Sublist (usesB b) ∧
    ∀ c ∈ zeroIfsB (cutAfterRet b), c ∈ zeroIfsB b
  | [] => ⟨.refl _, fun _ h => h⟩
  | s :: ss => by
    obtain ⟨h1, h2⟩ := cut_uses ss
    unfold cutAfterRet
    split
    · simp only [usesB, zeroIfsB, List.append_nil]
      exact ⟨List.sublist_append_left _ _, fun c h => by simp [h]⟩
    · simp only [usesB, zeroIfsB, List.mem_append]
      exact ⟨(List.Sublist.refl _).append h1, fun c h => h.imp_right (h2 c)⟩

theorem postRet_uses : ∀ p : Prog Ref, (usesP (postRet p)).Sublist (usesP p) ∧
    ∀ c ∈ zeroIfsP (postRet p), c ∈ zeroIfsP p
  | [] => ⟨.refl _, fun _ h => h⟩
  | .func f :: xs => by
    obtain ⟨h1, h2⟩ := postRet_uses xs
    obtain ⟨k1, k2⟩ := cut_uses f.body
    show (usesB (cutAfterRet f.body) ++ usesP (postRet xs)).Sublist (usesB f.body ++ usesP xs) ∧
      ∀ c ∈ zeroIfsB (cutAfterRet f.body) ++ zeroIfsP (postRet xs), c ∈ zeroIfsB f.body ++ zeroIfsP xs
    refine ⟨k1.append h1, fun c h => ?_⟩
    simp only [List.mem_append] at h ⊢
    exact h.imp (k2 c) (h2 c)
  | .var t b init :: xs => by
    obtain ⟨h1, h2⟩ := postRet_uses xs
    exact ⟨(List.Sublist.refl (usesO init)).append h1, h2⟩
  | .syscall .. :: xs => postRet_uses xs

theorem foldTop_uses {e e' : Expr Ref} (h : foldTop e = .ok e') :
    (usesE e').Sublist (usesE e) ∧ ∀ c ∈ zeroCond e', c ∈ zeroCond e := by
  unfold foldTop at h
  split at h
  · cases h
  · split at h
    · cases h
      exact ⟨List.nil_sublist _, fun c h => by simp [zeroCond] at h⟩
    · cases h
      exact ⟨.refl _, fun _ h => h⟩

mutual
theorem foldS_uses : ∀ {s s' : Stmt Ref}, foldS s = .ok s' →
    (usesS s').Sublist (usesS s) ∧ ∀ c ∈ zeroIfsS s', c ∈ zeroIfsS s
  | .var t d init, s', h => by
    rw [foldS] at h; split at h
    · cases h
    · cases h; exact ⟨.refl _, fun _ h => h⟩
  | .assign t d e, s', h => by
    rw [foldS] at h; split at h
    · cases h
    · rename_i he
      cases h
      exact ⟨(foldTop_uses he).1, fun _ h => h⟩
  | .assignArr t d i e, s', h => by
    rw [foldS] at h; split at h
    · cases h
    · split at h
      · cases h
      · cases h; exact ⟨.refl _, fun _ h => h⟩
  | .assignMem t d i e, s', h => by
    rw [foldS] at h; split at h
    · cases h
    · cases h; exact ⟨.refl _, fun _ h => h⟩
  | .call t c as, s', h => by
    rw [foldS] at h; split at h
    · cases h
    · split at h
      · cases h
      · cases h; exact ⟨.refl _, fun _ h => h⟩
  | .ifS t c thn he els, s', h => by
    rw [foldS] at h; split at h
    · cases h
    · rename_i h1
      split at h
      · cases h
      · rename_i h2
        split at h
        · cases h
        · rename_i h3
          cases h
          obtain ⟨a1, a2⟩ := foldTop_uses h1
          obtain ⟨b1, b2⟩ := foldB_uses h2
          obtain ⟨c1, c2⟩ := foldB_uses h3
          refine ⟨(a1.append b1).append c1, fun c h => ?_⟩
          simp only [zeroIfsS, List.mem_append] at h ⊢
          exact h.imp (fun h => h.imp (a2 c) (b2 c)) (c2 c)
  | .whileS t c body, s', h => by
    rw [foldS] at h; split at h
    · cases h
    · rename_i h1
      split at h
      · cases h
      · rename_i h2
        cases h
        obtain ⟨b1, b2⟩ := foldB_uses h2
        exact ⟨(foldTop_uses h1).1.append b1, b2⟩
  | .forS t nm d a b body, s', h => by
    rw [foldS] at h; split at h
    · cases h
    · split at h
      · cases h
      · split at h
        · cases h
        · rename_i h2
          cases h
          obtain ⟨b1, b2⟩ := foldB_uses h2
          exact ⟨(List.Sublist.refl _).append b1, b2⟩
  | .ret t none, s', h => by
    rw [foldS] at h; cases h; exact ⟨.refl _, fun _ h => h⟩
  | .ret t (some e), s', h => by
    rw [foldS] at h; split at h
    · cases h
    · rename_i he
      cases h
      exact ⟨(foldTop_uses he).1, fun _ h => h⟩
theorem foldB_uses : ∀ {b b' : List (Stmt Ref)}, foldB b = .ok b' →
    (usesB b').Sublist (usesB b) ∧ ∀ c ∈ zeroIfsB b', c ∈ zeroIfsB b
  | [], b', h => by
    rw [foldB] at h; cases h; exact ⟨.refl _, fun _ h => h⟩
  | s :: ss, b', h => by
    rw [foldB] at h; split at h
    · cases h
    · rename_i h1
      split at h
      · cases h
      · rename_i h2
        cases h
        obtain ⟨a1, a2⟩ := foldS_uses h1
        obtain ⟨b1, b2⟩ := foldB_uses h2
        refine ⟨a1.append b1, fun c h => ?_⟩
        simp only [zeroIfsB, List.mem_append] at h ⊢
        exact h.imp (a2 c) (b2 c)
end

theorem constFold_uses : ∀ {p q : Prog Ref}, constFold p = .ok q →
    (usesP q).Sublist (usesP p) ∧ ∀ c ∈ zeroIfsP q, c ∈ zeroIfsP p
  | [], q, h => by cases h; exact ⟨.refl _, fun _ h => h⟩
  | x :: xs, q, h => by
    rw [constFold] at h
    split at h
    · cases h
    · rename_i y hy
      split at h
      · cases h
      · rename_i ys hys
        cases h
        obtain ⟨h1, h2⟩ := constFold_uses hys
        cases x with
        | var t c init =>
          simp only [foldItem] at hy
          split at hy
          · cases hy
          · cases hy; exact ⟨(List.Sublist.refl (usesO init)).append h1, h2⟩
        | syscall n a => cases hy; exact ⟨h1, h2⟩
        | func f =>
          simp only [foldItem] at hy
          split at hy
          · cases hy
          · rename_i b hb
            cases hy
            obtain ⟨k1, k2⟩ := foldB_uses hb
            refine ⟨k1.append h1, fun c h => ?_⟩
            simp only [zeroIfsP, List.mem_append] at h ⊢
            exact h.imp (k2 c) (h2 c)

theorem unshared_less {p q : Prog Ref} (h : Unshared p)
    (hq : (usesP q).Sublist (usesP p) ∧ ∀ c ∈ zeroIfsP q, c ∈ zeroIfsP p) : Unshared q :=
  fun c hc => Nat.le_trans (hq.1.count_le c) (h c (hq.2 c hc))

/-- C23: all passes of the optimiser together leave every call and the start of the program as they
were (under the condition of `C23_calls_partial` on the tree before the first pass). -/
theorem C23_optimise_partial {opt : Bool} {p q : Prog Ref} (h : runOptimize opt p = .ok q) (hu : Unshared p)
    (zi : Nat → Ref → Bool) (n : Nat) :
    callFn (cx.withProg q) zi n = callFn (cx.withProg p) zi n ∧
      ∀ w, startUp (cx.withProg q) zi n w = startUp (cx.withProg p) zi n w := by
  unfold runOptimize at h
  split at h
  · split at h
    · cases h
    · rename_i p1 h1
      cases h
      have hu1 : Unshared p1 := unshared_less (unshared_less hu (postRet_uses p)) (constFold_uses h1)
      refine ⟨?_, fun w => ?_⟩
      · rw [C23_calls_partial hu1, C21_calls h1, C22_calls]
      · rw [C23_start_partial hu1, C21_start h1, C22_start]
  · cases h
    exact ⟨rfl, fun _ => rfl⟩

/-- C23 together with C27: what the machine returns for a call in optimised code is what the evaluation
of the tree gives as it was before the optimiser. -/
theorem C23_machine_partial {L : Layout} {opt : Bool} {p : Prog Unit} {q0 q : Prog Ref} {prog : Program}
    {e : Env Val Store} (h1 : runSema L p = .ok q0) (h2 : runOptimize opt q0 = .ok q)
    (h3 : codegen q = .ok prog) (hu : Unshared q0) (hi : ∀ x ∈ p, x.declName ≠ initName)
    (R : Running e (cx.withProg q) prog) {i : Nat} {f : FuncDecl Ref} {F : Function}
    (hf : q[i]? = some (.func f)) (hF : prog.findByName f.name.str = some F) (v : VmState Val Store)
    (args : List Val) (ha : args.length = f.args.length) (ho : Sem.handOver v.mem args = none)
    {n : Nat} {r : Val} {w : State}
    (hr : callFn (cx.withProg q0) (ownSlots q) n i args (callState v) = .ok r w) :
    ∃ m t, t.finished = true ∧
      ∀ fuel, m ≤ fuel → v.callOnce e fuel F args = .ok (.value r, leftBy w t) := by
  refine C27_value (L := L) (opt := opt) ⟨q0, h1, h2, h3⟩ hi rfl R hf hF v args ha ho (n := n) ?_
  rw [(C23_optimise_partial h2 hu _ _).1]
  exact hr

/-- With everything the optimiser does:

    const z = 0
    const y = 1
    function main(k)
      if (z)
        return 7
      else
        k = k + 1
      end
      if (y)
        k = k * (2 + 3)
      end
      while (1 > 2)
        k = 0
      end
      return k
      k = 9
    end -/
def optTree : Prog Unit :=
  [.var (nm "z") true (some (lit 0)), .var (nm "y") true (some (lit 1)),
   .func { name := nm "main", args := [nm "k"], stop := tk .END "end", body := [
     .ifS (tk .IF "if") (ix "z") [.ret (tk .RETURN "return") (some (lit 7))] true
       [.assign (nm "k") () (.bin (tk .ADD "+") (ix "k") (lit 1))],
     .ifS (tk .IF "if") (ix "y")
       [.assign (nm "k") () (.bin (tk .MUL "*") (ix "k") (.bin (tk .ADD "+") (lit 2) (lit 3)))] false [],
     .whileS (tk .WHILE "while") (.bin (tk .GT ">") (lit 1) (lit 2)) [.assign (nm "k") () (lit 0)],
     .ret (tk .RETURN "return") (some (ix "k")),
     .assign (nm "k") () (lit 9)] }]

/-- The tree before the optimiser. -/
def semaOf (p : Prog Unit) : Prog Ref := outOf [] (runSema sampleLayout p)

theorem semaOf_ok {p : Prog Unit} (h : compilesB p = true) : runSema sampleLayout p = .ok (semaOf p) ∧
    runOptimize true (semaOf p) = .ok (treeOf p) ∧ codegen (treeOf p) = .ok (codeOf p) := by
  unfold compilesB at h
  simp only [Bool.and_eq_true, decide_eq_true_eq] at h
  obtain ⟨⟨⟨⟨⟨⟨h1, h2⟩, h3⟩, h4⟩, h5⟩, h6⟩, h7⟩ := h
  unfold semaOf codeOf
  unfold treeOf at h3 ⊢
  exact ⟨outOf_ok h1, outOf_ok h2, outOf_ok h3⟩

attribute [irreducible] semaOf

theorem optTree_ok : compilesB optTree = true := by decide +kernel

/-- A constant condition, used once; the optimiser does something. -/
example : Unshared (semaOf optTree) ∧ zeroIfsP (semaOf optTree) ≠ [] ∧
    (match (semaOf optTree)[2]?, (treeOf optTree)[2]? with
      | some (Item.func f), some (Item.func g) => decide (f.body.length = 5 ∧ g.body.length = 4)
      | _, _ => false) = true := by decide +kernel

/-- The machine returns for `main(3)` what the unoptimised tree says. -/
example : ∃ m w t, ∀ fuel, m ≤ fuel → blankVm.callOnce (envOf optTree) fuel (entryOf optTree 2) [.int 3] =
    .ok (.value (.int 20), leftBy w t) := by
  obtain ⟨h1, h2, h3⟩ := semaOf_ok optTree_ok
  obtain ⟨_, hn, hR⟩ := compiled optTree_ok
  have h : (match callFn ((ctxOf optTree).withProg (semaOf optTree)) (ownSlots (treeOf optTree)) 3 2 [.int 3]
      (callState blankVm) with
      | .ok r _ => decide (r = .int 20) | _ => false) = true := by decide +kernel
  split at h
  · rename_i r w hr
    obtain ⟨m, t, _, k⟩ := C23_machine_partial (cx := ctxOf optTree) h1 h2 h3 (by decide +kernel) hn hR
      (fn_at (i := 2) (by decide +kernel)) (entry_at (by decide +kernel)) blankVm [.int 3] (by decide +kernel) rfl hr
    exact ⟨m, w, t, fun fuel hf => by rw [k fuel hf, of_decide_eq_true h]⟩
  · cases h

/-- A constant 0 that is used twice:

    const z = 0
    function main(k)
      if (z)
      end
      return z
    end -/
def sharedTree : Prog Unit :=
  [.var (nm "z") true (some (lit 0)),
   .func { name := nm "main", args := [nm "k"], stop := tk .END "end", body := [
     .ifS (tk .IF "if") (ix "z") [] false [],
     .ret (tk .RETURN "return") (some (ix "z"))] }]

theorem sharedTree_ok : compilesB sharedTree = true := by decide +kernel

/-- The code without optimisation. -/
def plainCode (p : Prog Unit) : Program := outOf Program.empty (codegen (semaOf p))

/-- C23 is violated: compiled without optimisation `main(1)` returns the constant 0, with optimisation it
returns 1. -/
theorem C23_violated :
    codegen (semaOf sharedTree) = .ok (plainCode sharedTree) ∧
    (∃ F v, (plainCode sharedTree).findByName (str "main") = some F ∧
      blankVm.callOnce (Env.std (driverResolve (plainCode sharedTree)) toyFl Mem.abs) 2 F [.int 1] =
        .ok (.value (.int 0), v)) ∧
    ∃ F v, (codeOf sharedTree).findByName (str "main") = some F ∧
      blankVm.callOnce (envOf sharedTree) 2 F [.int 1] = .ok (.value (.int 1), v) := by
  refine ⟨outOf_ok (by decide +kernel), ?_, ?_⟩
  · have h : (match (plainCode sharedTree).findByName (str "main") with
        | some F =>
          match blankVm.callOnce (Env.std (driverResolve (plainCode sharedTree)) toyFl Mem.abs) 2 F [.int 1] with
          | .ok (r, _) => decide (r = .value (.int 0))
          | .error _ => false
        | none => false) = true := by decide +kernel
    split at h
    · rename_i F hF
      split at h
      · rename_i r v' h1
        exact ⟨F, v', hF, by rw [h1, of_decide_eq_true h]⟩
      · cases h
    · cases h
  · have h : (match (codeOf sharedTree).findByName (str "main") with
        | some F =>
          match blankVm.callOnce (envOf sharedTree) 2 F [.int 1] with
          | .ok (r, _) => decide (r = .value (.int 1))
          | .error _ => false
        | none => false) = true := by decide +kernel
    split at h
    · rename_i F hF
      split at h
      · rename_i r v' h1
        exact ⟨F, v', hF, by rw [h1, of_decide_eq_true h]⟩
      · cases h
    · cases h

/-- `(7 - 2 * 3) / (1 - 1)`: an error. -/
def divTree : Expr Ref :=
  .bin (tk .DIV "/") (.bin (tk .SUB "-") (.int 7 none none)
    (.bin (tk .MUL "*") (.int 2 none none) (.int 3 none none)))
    (.bin (tk .SUB "-") (.int 1 none none) (.int 1 none none))

example : constTree divTree ∧ knownE divTree = .error (.err ⟨str "constant divide by zero", ⟨0, 1⟩⟩) := by
  refine ⟨by simp [constTree, divTree, tk], by decide +kernel⟩

/-- `-(2 ^ 31 - 1) - 1 < 0 or not 5`: a value. -/
example : knownE (D := Ref) (.bin (tk .OR "or") (.bin (tk .LT "<") (.bin (tk .SUB "-")
    (.un (tk .SUB "-") (.int 2147483647 none none)) (.int 1 none none)) (.int 0 none none))
    (.un (tk .NOT "not") (.int 5 none none))) = .ok (some 1) := by decide +kernel

end Ccml.Props
