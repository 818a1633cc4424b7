import Verif.ParserSafe
/-! The parser does not look at what was on its stacks when it was started. -/
namespace Ccml

/-- The same state with more below the stacks. -/
def PState.over (s : PState) (os : List Token) (es : List PExpr) : PState :=
  { s with ops := s.ops ++ os, exps := s.exps ++ es }

namespace Over

variable {α β : Type} {os : List Token} {es : List PExpr}

/-- Where `x` ends with a result or an error, `y` ends in the same way with more below the stacks. -/
def Sits (os : List Token) (es : List PExpr) (x y : PM α) : Prop :=
  ∀ s, match x s with
    | .ok (a, s') => y (s.over os es) = .ok (a, s'.over os es)
    | .error (.err e) => y (s.over os es) = .error (.err e)
    | .error (.fault _) => True

theorem Sits.bind {x y : PM α} {f g : α → PM β} (h : Sits os es x y) (k : ∀ a, Sits os es (f a) (g a)) :
    Sits os es (x >>= f) (y >>= g) := by
  intro s
  have hs := h s
  rw [pm_bind, pm_bind]
  rcases hx : x s with (_ | _) | ⟨a, s'⟩ <;> rw [hx] at hs <;> dsimp only at hs ⊢
  · rw [hs]
  · rw [hs]
    exact k a s'

theorem Sits.of_eq {x : PM α} (h : ∀ s, x (s.over os es) = match x s with
    | .ok (a, s') => .ok (a, s'.over os es)
    | .error e => .error e) : Sits os es x x := by
  intro s
  rw [h s]
  rcases x s with (_ | _) | ⟨a, s'⟩ <;> dsimp only

theorem sits_pure (a : α) : Sits os es (pure a) (pure a) := fun _ => rfl

theorem sits_fault (f : Fault) : Sits os es (pFault f : PM α) (pFault f) := fun _ => trivial

theorem sits_popTok : Sits os es popTok popTok := by
  refine Sits.of_eq fun s => ?_
  unfold popTok
  change (match s.toks with | [] => _ | t :: ts => _) = _
  cases s.toks <;> rfl

theorem sits_nextType : Sits os es nextType nextType := by
  refine Sits.of_eq fun s => ?_
  unfold nextType
  change (match s.toks with | [] => _ | t :: ts => _) = _
  cases s.toks <;> rfl

theorem sits_peekTok : Sits os es peekTok peekTok := by
  refine Sits.of_eq fun s => ?_
  unfold peekTok
  change (match s.toks with | [] => _ | t :: ts => _) = _
  cases s.toks <;> rfl

theorem sits_found (ty : Tok) : Sits os es (found ty) (found ty) := by
  refine Sits.of_eq fun s => ?_
  unfold found
  change (match s.toks with | [] => _ | t :: ts => _) = _
  cases s.toks with
  | nil => rfl
  | cons t ts =>
    dsimp only
    by_cases h : t.type = ty <;> simp only [h, if_true, if_false] <;> rfl

theorem unexpected_error (t : Token) (ty : Tok) : ∃ e, (unexpectedToken t ty : Comp α) = .error e := by
  unfold unexpectedToken onError
  cases t.string <;> cases ty.name <;> exact ⟨_, rfl⟩

theorem errTok_error (l : SrcLine) (a : String) (t : Token) (b : String) :
    ∃ e, ∀ α : Type, (errTok l a t b : Comp α) = .error e := by
  unfold errTok onError
  cases t.string <;> exact ⟨_, fun _ => rfl⟩

theorem sits_popType (ty : Tok) : Sits os es (popType ty) (popType ty) := by
  refine Sits.of_eq fun s => ?_
  unfold popType
  change (match s.toks with | [] => _ | t :: ts => _) = _
  cases s.toks with
  | nil => rfl
  | cons t ts =>
    dsimp only
    by_cases h : t.type = ty
    · simp only [h, if_true]; rfl
    · simp only [h, if_false]
      obtain ⟨e, he⟩ := unexpected_error (α := Token × PState) t ty
      rw [he]

theorem sits_skipEols : Sits os es skipEols skipEols := by
  refine Sits.of_eq fun s => ?_
  unfold skipEols
  change (match skipEols.go s.toks s.line with | .error e => _ | .ok (ts, l) => _) = _
  rcases skipEols.go s.toks s.line with _ | ⟨_, _⟩ <;> rfl

theorem sits_pErr (l : SrcLine) (a : String) (t : Token) (b : String) :
    Sits os es (pErr l a t b : PM α) (pErr l a t b) := by
  refine Sits.of_eq fun s => ?_
  obtain ⟨e, he⟩ := errTok_error l a t b
  simp only [pErr, he]

theorem sits_pErrHere (a : String) (t : Token) (b : String) :
    Sits os es (pErrHere a t b : PM α) (pErrHere a t b) := by
  refine Sits.of_eq fun s => ?_
  obtain ⟨e, he⟩ := errTok_error s.line a t b
  simp only [pErrHere, PState.over, he]

theorem sits_pushExp (e : PExpr) : Sits os es (pushExp e) (pushExp e) := fun _ => rfl

theorem sits_popExp (f : Fault) : Sits os es (popExp f) (popExp f) := by
  intro s
  rcases s with ⟨ts, l, ops, exps, srcs⟩
  cases exps with
  | nil => exact trivial
  | cons => rfl

theorem reduceOp_over (op : Token) (xs : List PExpr) : match reduceOp op xs with
    | .ok ys => reduceOp op (xs ++ es) = .ok (ys ++ es)
    | .error _ => True := by
  unfold reduceOp
  by_cases hb : op.type.isBinary = true
  · rw [if_pos hb, if_pos hb]
    rcases xs with _ | ⟨r, _ | ⟨l, xs⟩⟩ <;> dsimp only [List.cons_append]
  · rw [if_neg hb, if_neg hb]
    by_cases hu : op.type.isUnary = true
    · rw [if_pos hu, if_pos hu]
      rcases xs with _ | ⟨e, xs⟩ <;> dsimp only [List.cons_append]
    · rw [if_neg hu, if_neg hu]

theorem reduceOp_fault {op : Token} {xs : List PExpr} {e : Stop} (h : reduceOp op xs = .error e) :
    ∃ f, e = .fault f := by
  unfold reduceOp at h
  split at h
  · split at h <;> cases h
    exact ⟨_, rfl⟩
  · split at h
    · split at h <;> cases h
      exact ⟨_, rfl⟩
    · cases h

theorem reduceLoop_low (prec tide : Nat) (h : os.length ≤ tide) (xs : List PExpr) :
    reduceLoop prec tide os xs = .ok (os, xs) := by
  cases os with
  | nil => rfl
  | cons o os =>
    simp only [List.length_cons] at h
    rw [reduceLoop, if_neg (by omega)]

theorem reduceLoop_over (prec tide : Nat) : ∀ (ops : List Token) (xs : List PExpr),
    match reduceLoop prec tide ops xs with
    | .ok (ops', ys) => reduceLoop prec (tide + os.length) (ops ++ os) (xs ++ es) = .ok (ops' ++ os, ys ++ es)
    | .error e => ∃ f, e = .fault f
  | [], xs => by
    rw [reduceLoop]
    exact reduceLoop_low (os := os) prec (tide + os.length) (by omega) (xs ++ es)
  | o :: ops, xs => by
    rw [List.cons_append, reduceLoop, reduceLoop]
    by_cases ht : ops.length + 1 > tide
    · have h2 : (ops ++ os).length + 1 > tide + os.length := by rw [List.length_append]; omega
      rw [if_pos ht, if_pos h2]
      by_cases hp : prec > opType o.type
      · rw [if_pos hp, if_pos hp]; rfl
      · rw [if_neg hp, if_neg hp]
        have h := reduceOp_over (es := es) o xs
        cases hr : reduceOp o xs with
        | error e => exact reduceOp_fault hr
        | ok ys =>
          rw [hr] at h
          dsimp only at h ⊢
          rw [h]
          exact reduceLoop_over prec tide ops ys
    · have h2 : ¬ (ops ++ os).length + 1 > tide + os.length := by rw [List.length_append]; omega
      rw [if_neg ht, if_neg h2]
      rfl

theorem sits_opPush (op : Token) (tide : Nat) :
    Sits os es (opPush op tide) (opPush op (tide + os.length)) := by
  intro s
  have h := reduceLoop_over (os := os) (es := es) (opType op.type) tide s.ops s.exps
  simp only [opPush]
  rcases hr : reduceLoop (opType op.type) tide s.ops s.exps with e | ⟨a, b⟩ <;> rw [hr] at h <;> dsimp only at h ⊢
  · obtain ⟨f, rfl⟩ := h; trivial
  · simp only [PState.over, h]; rfl

theorem sits_opPopAll (tide : Nat) : Sits os es (opPopAll tide) (opPopAll (tide + os.length)) := by
  intro s
  have h := reduceLoop_over (os := os) (es := es) 0 tide s.ops s.exps
  simp only [opPopAll]
  rcases hr : reduceLoop 0 tide s.ops s.exps with e | ⟨a, b⟩ <;> rw [hr] at h <;> dsimp only at h ⊢
  · obtain ⟨f, rfl⟩ := h; trivial
  · simp only [PState.over, h]

theorem sits_isOperator : Sits os es isOperator isOperator :=
  sits_nextType.bind fun _ => sits_pure _

/-- One step through a `do` block. -/
macro "sits" : tactic => `(tactic| repeat' first
  | exact sits_pure _ | exact sits_fault _ | assumption
  | exact sits_pushExp _ | exact sits_pErrHere _ _ _ | exact sits_pErr _ _ _ _
  | exact sits_found _ | exact sits_popType _ | exact sits_popTok | exact sits_nextType | exact sits_peekTok
  | exact sits_skipEols | exact sits_isOperator | exact sits_popExp _ | exact sits_opPush _ _ | exact sits_opPopAll _
  | refine Sits.bind ?_ fun _ => ?_
  | split)

/-- The functions for expressions. -/
structure ExprSits (os : List Token) (es : List PExpr) (n : Nat) : Prop where
  ex : ∀ tide, Sits os es (parseExprEx n tide) (parseExprEx n (tide + os.length))
  tail : ∀ tide, Sits os es (parseTail n tide) (parseTail n (tide + os.length))
  post : Sits os es (parsePostfix n) (parsePostfix n)
  lhs : Sits os es (parseLhs n) (parseLhs n)
  expr : Sits os es (parseExpr n) (parseExpr n)
  list : Sits os es (parseExprList n) (parseExprList n)
  args : Sits os es (parseCallArgs n) (parseCallArgs n)

theorem exprSits (os : List Token) (es : List PExpr) : ∀ n, ExprSits os es n := by
  intro n
  induction n with
  | zero =>
    constructor <;> intros <;> simp only [parseExprEx, parseTail, parsePostfix, parseLhs, parseExpr, parseExprList,
      parseCallArgs] <;> exact sits_fault _
  | succ n ih =>
    obtain ⟨h1, h2, h3, h4, h5, h6, h7⟩ := ih
    constructor
    · intro tide
      have := h1 tide
      have := h2 tide
      simp only [parseExprEx]
      sits
    · intro tide
      have := h1 tide
      simp only [parseTail]
      sits
    · simp only [parsePostfix]; sits
    · simp only [parseLhs]; sits
    · simp only [parseExpr]
      intro s
      have := h1 s.ops.length
      have k : Sits os es (parseExprEx n s.ops.length >>= fun _ => opPopAll s.ops.length >>= fun _ => popExp .assert)
          (parseExprEx n (s.ops.length + os.length) >>= fun _ => opPopAll (s.ops.length + os.length) >>= fun _ =>
            popExp .assert) := by sits
      have k := k s
      rw [← show (s.over os es).ops.length = s.ops.length + os.length from List.length_append] at k
      exact k
    · simp only [parseExprList]; sits
    · simp only [parseCallArgs]; sits

section
variable (n : Nat)

theorem sits_expr : Sits os es (parseExpr n) (parseExpr n) := (exprSits os es n).expr

theorem sits_declVar : Sits os es (parseDeclVar n) (parseDeclVar n) := by
  have := sits_expr (os := os) (es := es) n
  unfold parseDeclVar; sits

theorem sits_named (t : Token) : Sits os es (parseNamed n t) (parseNamed n t) := by
  have := sits_expr (os := os) (es := es) n
  have := (exprSits os es n).args
  unfold parseNamed parseCompound parseMemberAssign parseAssign parseArraySet
  sits
  all_goals exact Sits.of_eq fun s => by simp only [onError, PState.over]

theorem sits_condition : Sits os es (parseCondition n) (parseCondition n) := by
  have := sits_expr (os := os) (es := es) n
  unfold parseCondition; sits

theorem sits_forHead : Sits os es (parseForHead n) (parseForHead n) := by
  have := sits_expr (os := os) (es := es) n
  unfold parseForHead; sits

theorem sits_return (t : Token) : Sits os es (parseReturn n t) (parseReturn n t) := by
  have := sits_expr (os := os) (es := es) n
  unfold parseReturn; sits

end

/-- The functions for statements. -/
structure StmtSits (os : List Token) (es : List PExpr) (n : Nat) : Prop where
  stmt : Sits os es (parseStmt n) (parseStmt n)
  kind : ∀ t, Sits os es (parseStmtKind n t) (parseStmtKind n t)
  block : Sits os es (parseBlock n) (parseBlock n)
  thn : Sits os es (parseThen n) (parseThen n)

theorem stmtSits (os : List Token) (es : List PExpr) : ∀ n, StmtSits os es n := by
  intro n
  induction n with
  | zero =>
    constructor <;> intros <;> simp only [parseStmt, parseStmtKind, parseBlock, parseThen] <;> exact sits_fault _
  | succ n ih =>
    obtain ⟨h1, h2, h3, h4⟩ := ih
    constructor
    · simp only [parseStmt]
      refine sits_skipEols.bind fun _ => sits_popTok.bind fun t => (h2 t).bind fun _ => ?_
      sits
    · intro t
      have := sits_declVar (os := os) (es := es) n
      have := sits_named (os := os) (es := es) n t
      have := sits_condition (os := os) (es := es) n
      have := sits_forHead (os := os) (es := es) n
      have := sits_return (os := os) (es := es) n t
      simp only [parseStmtKind]
      sits
    · simp only [parseBlock]; sits
    · simp only [parseThen]; sits

theorem sits_body : ∀ n, Sits os es (parseBody n) (parseBody n)
  | 0 => sits_fault _
  | n + 1 => by
    have := sits_body n
    have := (stmtSits os es n).stmt
    simp only [parseBody]; sits

theorem sits_argNames : ∀ n, Sits os es (parseArgNames n) (parseArgNames n)
  | 0 => sits_fault _
  | n + 1 => by
    have := sits_argNames n
    simp only [parseArgNames]; sits

theorem sits_function (n : Nat) : Sits os es (parseFunction n) (parseFunction n) := by
  have := sits_body (os := os) (es := es) n
  have := sits_argNames (os := os) (es := es) n
  unfold parseFunction parseArgs; sits

theorem sits_import (fs : Str → Option Str) (cur : Source) :
    Sits os es (parseImport fs cur) (parseImport fs cur) := by
  unfold parseImport
  refine (sits_popType _).bind fun t => Sits.of_eq fun s => ?_
  change (match loadSource fs s.srcs (cstr (importedPath cur (cstr t.str))) with | (true, _) => _ | (false, _) => _) = _
  rcases loadSource fs s.srcs (cstr (importedPath cur (cstr t.str))) with ⟨_ | _, srcs⟩
  · obtain ⟨e, he⟩ := errTok_error t.line "unable to import '" t "'"
    simp only [he]
  · rfl

theorem sits_items (fs : Str → Option Str) (cur : Source) :
    ∀ n, Sits os es (parseItems fs cur n) (parseItems fs cur n)
  | 0 => sits_fault _
  | n + 1 => by
    have := sits_items fs cur n
    have := sits_declVar (os := os) (es := es) n
    have := sits_function (os := os) (es := es) n
    have := sits_import (os := os) (es := es) fs cur
    simp only [parseItems]; sits

end Over
end Ccml
