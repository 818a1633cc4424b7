import Verif.Samples
/-!
Operators of the machine: C29 (integers), C30 (ill-typed operands), C31 (arrays), C32 (string
concatenation), C33 (truth), C34 (equality).

Where values matter the theorems speak about the reference memory `Mem.abs`; Props/Refine.lean
carries them over to the garbage-collected heap.
-/
set_option linter.unusedSimpArgs false
namespace Ccml.Props
open Ccml

/-! ### C29 Integer arithmetic -/

/-- Outcome of an operator on two mathematical integers. -/
inductive IntMeaning
  /-- this value, exactly -/
  | value (z : Int)
  /-- division or remainder by zero -/
  | divZero
  /-- the result (for the remainder: the quotient) is not a 32-bit integer -/
  | undefined

/-- A result if it is a 32-bit integer. -/
def exact (z : Int) : IntMeaning :=
  if -2147483648 ≤ z ∧ z ≤ 2147483647 then .value z else .undefined

/-- Comparisons yield 1 or 0. -/
def oneIf (p : Prop) [Decidable p] : IntMeaning := .value (if p then 1 else 0)

/-- Meaning of the binary operators on integers. -/
def intMeaning : Op → Int → Int → Option IntMeaning
  | .ADD, a, b => some (exact (a + b))
  | .SUB, a, b => some (exact (a - b))
  | .MUL, a, b => some (exact (a * b))
  | .DIV, a, b => some (if b = 0 then .divZero else exact (a.tdiv b))
  | .MOD, a, b => some (if b = 0 then .divZero else
      match exact (a.tdiv b) with
      | .value _ => .value (a.tmod b)
      | r => r)
  | .LT, a, b => some (oneIf (a < b))
  | .GT, a, b => some (oneIf (a > b))
  | .LEQ, a, b => some (oneIf (a ≤ b))
  | .GEQ, a, b => some (oneIf (a ≥ b))
  | .EQ, a, b => some (oneIf (a = b))
  | _, _, _ => none

/-- The machine carries out the meaning: the exact value replaces the operands, or the thread stops
with the division error and nothing is pushed, or the behaviour is undefined. -/
def Does (m : IntMeaning) (rest : List Val) (s : St Val Store) (r : Out (Unit × St Val Store)) :
    Prop :=
  match m with
  | .value z => ∃ c : I32, c.toInt = z ∧ r = .ok ((), s.withStack (.int c :: rest))
  | .divZero => r = .ok ((), { s with th :=
      { s.th with stack := rest, error := .bad_divide_by_zero, finished := true } })
  | .undefined => r = .error .ub

theorem does_exact (z : Int) (rest : List Val) (s : St Val Store) :
    Does (exact z) rest s (match ret32 z with
      | .ok c => .ok ((), s.withStack (.int c :: rest))
      | .error f => .error f) := by
  unfold exact ret32
  by_cases h : fits32 z = true
  · have h' := h
    simp only [fits32, decide_eq_true_eq] at h'
    rw [if_pos h', if_pos h]
    exact ⟨_, toInt_ofInt32 h, rfl⟩
  · have h' := h
    simp only [fits32, decide_eq_true_eq] at h'
    rw [if_neg h', if_neg h]
    rfl

theorem does_oneIf (p : Prop) [Decidable p] (rest : List Val) (s : St Val Store) :
    Does (oneIf p) rest s (.ok ((), s.withStack (.int (if decide p then 1 else 0) :: rest))) := by
  by_cases h : p <;> simp only [oneIf, h, Does] <;> exact ⟨_, by decide, rfl⟩

theorem toInt_eq_zero_iff (b : I32) : b.toInt = 0 ↔ b = 0 := by
  constructor
  · intro h; exact BitVec.eq_of_toInt_eq (by simpa using h)
  · rintro rfl; rfl

/-- C29: on two integers the operators compute the exact mathematical result whenever it is a
32-bit integer; division and remainder by zero stop the thread; the rest is undefined. -/
theorem C29_integer_operators (e : Env Val Store) (he : e.mem = Mem.abs) (s : St Val Store)
    (op : Op) (a b : I32) (rest : List Val) (m : IntMeaning)
    (hs : s.th.stack = .int b :: .int a :: rest) (hm : intMeaning op a.toInt b.toInt = some m) :
    Does m rest s (exec e (some op) s) := by
  cases op <;> simp only [intMeaning, Option.some.injEq, reduceCtorEq] at hm <;> subst hm
  case ADD =>
    have h := does_exact (a.toInt + b.toInt) rest s
    simp only [exec, doADD, vm_bind, pop_cons hs, pop_cons (withStack_stack _ _), view, lift, he,
      Mem.abs, Val.view, pushInt, pushNew]
    revert h; cases ret32 (a.toInt + b.toInt) <;> exact id
  case SUB =>
    have h := does_exact (a.toInt - b.toInt) rest s
    simp only [exec, doSUB, vm_bind, pop_cons hs, pop_cons (withStack_stack _ _), view, lift, he,
      Mem.abs, Val.view, pushInt, pushNew]
    revert h; cases ret32 (a.toInt - b.toInt) <;> exact id
  case MUL =>
    have h := does_exact (a.toInt * b.toInt) rest s
    simp only [exec, doMUL, vm_bind, pop_cons hs, pop_cons (withStack_stack _ _), view, lift, he,
      Mem.abs, Val.view, pushInt, pushNew]
    revert h; cases ret32 (a.toInt * b.toInt) <;> exact id
  case DIV =>
    have h := does_exact (a.toInt.tdiv b.toInt) rest s
    simp only [exec, doDIV, vm_bind, pop_cons hs, pop_cons (withStack_stack _ _), view, lift, he,
      Mem.abs, Val.view, pushInt, toInt_eq_zero_iff]
    by_cases hb : b = 0
    · simp only [hb, if_true]; rfl
    · simp only [hb, if_false, vm_bind, lift]
      revert h; cases ret32 (a.toInt.tdiv b.toInt) <;> exact id
  case MOD =>
    simp only [exec, doMOD, vm_bind, pop_cons hs, pop_cons (withStack_stack _ _), view, lift, he,
      Mem.abs, Val.view, pushInt, toInt_eq_zero_iff]
    by_cases hb : b = 0
    · simp only [hb, if_true]; rfl
    · simp only [hb, if_false, vm_bind, lift, rem32, exact]
      by_cases hf : fits32 (a.toInt.tdiv b.toInt) = true
      · have hf' := hf
        simp only [fits32, decide_eq_true_eq] at hf'
        rw [if_pos hf, if_pos hf']
        refine ⟨_, toInt_ofInt32 ?_, rfl⟩
        have h0 : b.toInt ≠ 0 := fun h => hb ((toInt_eq_zero_iff b).mp h)
        have h1 := fits32_toInt a
        simp only [fits32, decide_eq_true_eq] at h1 ⊢
        have h2 := Int.natAbs_tmod a.toInt b.toInt
        have h3 : (a.toInt.tmod b.toInt).natAbs ≤ a.toInt.natAbs := by
          rw [h2]; exact Nat.mod_le _ _
        rcases Int.le_total 0 a.toInt with hp | hp
        · have := Int.tmod_nonneg b.toInt hp
          omega
        · have := Int.tmod_nonneg b.toInt (a := -a.toInt) (by omega)
          rw [Int.neg_tmod] at this
          omega
      · have hf' := hf
        simp only [fits32, decide_eq_true_eq] at hf'
        rw [if_neg hf, if_neg hf']
        rfl
  case EQ =>
    have h := does_oneIf (a = b) rest s
    have : oneIf (a.toInt = b.toInt) = oneIf (a = b) := by
      unfold oneIf; simp only [BitVec.toInt_inj]
    rw [this]
    simp only [exec, doEQ, vm_bind, pop_cons hs, pop_cons (withStack_stack _ _), view, lift, he,
      Mem.abs, Val.view, pushInt, pushNew, pushBool]
    have hd : (a == b) = decide (a = b) := rfl
    rw [hd]; exact h
  case LT =>
    have h := does_oneIf (a.toInt < b.toInt) rest s
    simp only [exec, doLT, doCompare, vm_bind, pop_cons hs, pop_cons (withStack_stack _ _), view,
      lift, he, Mem.abs, Val.view, pushInt, pushNew, pushBool]
    exact h
  case GT =>
    have h := does_oneIf (a.toInt > b.toInt) rest s
    simp only [exec, doGT, doCompare, vm_bind, pop_cons hs, pop_cons (withStack_stack _ _), view,
      lift, he, Mem.abs, Val.view, pushInt, pushNew, pushBool]
    exact h
  case LEQ =>
    have h := does_oneIf (a.toInt ≤ b.toInt) rest s
    simp only [exec, doLEQ, doCompare, vm_bind, pop_cons hs, pop_cons (withStack_stack _ _), view,
      lift, he, Mem.abs, Val.view, pushInt, pushNew, pushBool]
    exact h
  case GEQ =>
    have h := does_oneIf (a.toInt ≥ b.toInt) rest s
    simp only [exec, doGEQ, doCompare, vm_bind, pop_cons hs, pop_cons (withStack_stack _ _), view,
      lift, he, Mem.abs, Val.view, pushInt, pushNew, pushBool]
    exact h

/-- C29: negation. -/
theorem C29_negation (e : Env Val Store) (he : e.mem = Mem.abs) (s : St Val Store)
    (a : I32) (rest : List Val) (hs : s.th.stack = .int a :: rest) :
    Does (exact (-a.toInt)) rest s (exec e (some .NEG) s) := by
  have h := does_exact (-a.toInt) rest s
  simp only [exec, doNEG, vm_bind, pop_cons hs, view, lift, he, Mem.abs, Val.view, pushInt,
    pushNew, withStack_mem]
  revert h; cases ret32 (-a.toInt) <;> exact id

example : intMeaning .DIV (-7) 2 = some (.value (-3)) := by rfl
example : Does (.value (-3)) [.none] (toySt [.int 2, .int (-7), .none])
    (exec (toyEnv []) (some .DIV) (toySt [.int 2, .int (-7), .none])) :=
  C29_integer_operators _ rfl _ .DIV (-7) 2 [.none] _ rfl (by rfl)

/-! ### C30 Ill-typed operations -/

/-- Is it a number? -/
def isNum : View → Bool
  | .int _ => true
  | .float _ => true
  | _ => false

/-- Has it a textual form? -/
def hasText : View → Bool
  | .arr _ => false
  | .syscall _ => false
  | _ => true

/-- The operand types a binary operator supports. -/
def supports : Op → View → View → Bool
  | .ADD, .str _, r => hasText r
  | .ADD, l, .str _ => hasText l
  | .MOD, .int _, .int _ => true
  | .EQ, .none, _ => true
  | .EQ, _, .none => true
  | .EQ, .str _, .str _ => true
  | .EQ, .func _, .func _ => true
  | .ADD, l, r | .SUB, l, r | .MUL, l, r | .DIV, l, r | .LT, l, r | .GT, l, r | .LEQ, l, r
  | .GEQ, l, r | .EQ, l, r => isNum l && isNum r
  | _, _, _ => false

/-- The binary operators that check operand types. -/
def typedOps : List Op := [.ADD, .SUB, .MUL, .DIV, .MOD, .LT, .GT, .LEQ, .GEQ, .EQ]

/-- The host handler that may take over an operator. -/
def handlerOf {P M : Type} (e : Env P M) : Op → Option (P → P → VM P M Bool)
  | .ADD => e.handlers.onAdd
  | .SUB => e.handlers.onSub
  | .MUL => e.handlers.onMul
  | .DIV => e.handlers.onDiv
  | .EQ => e.handlers.onEquals
  | _ => none

/-- Adding a string and a value without textual form. -/
def textless : View → View → Bool
  | .str _, r => !hasText r
  | l, .str _ => !hasText l
  | _, _ => false

/-- The state after a type error: operands gone, thread stopped. -/
def typeErrorState {P M : Type} (s : St P M) (rest : List P) : St P M :=
  { s with th := { s.th with stack := rest, error := .bad_type_operation, finished := true } }

theorem tryHandler_none {P M : Type} (l r : P) (s : St P M) :
    tryHandler none l r s =
      .ok ((), { s with th := { s.th with error := .bad_type_operation, finished := true } }) := rfl

/-- C30, for any memory: a binary operator on operand types it does not support, without a host
handler, stops the thread with the type error; nothing is pushed and nothing else changes.
Missing from the full statement: adding a string and an array or system function, see
`C30_textless_add_aborts`. -/
theorem C30_unsupported_operands_partial {P M : Type} (e : Env P M) (s : St P M) (op : Op)
    (l r : P) (rest : List P) (lv rv : View) (hop : op ∈ typedOps)
    (hs : s.th.stack = r :: l :: rest)
    (hl : e.mem.view s.mem l = .ok lv) (hr : e.mem.view s.mem r = .ok rv)
    (hh : handlerOf e op = none) (hu : supports op lv rv = false)
    (ht : ¬ (op = .ADD ∧ textless lv rv = true)) :
    exec e (some op) s = .ok ((), typeErrorState s rest) := by
  have hv1 : view e r ((s.withStack (l :: rest)).withStack rest) =
      .ok (rv, s.withStack rest) := view_ok hr
  have hv2 : view e l (s.withStack rest) = .ok (lv, s.withStack rest) := view_ok hl
  simp only [typedOps, List.mem_cons, List.not_mem_nil, or_false] at hop
  rcases hop with h | h | h | h | h | h | h | h | h | h <;> subst h <;>
    simp only [exec, doADD, doSUB, doMUL, doDIV, doMOD, doLT, doGT, doLEQ, doGEQ, doEQ, doCompare,
      vm_bind, pop_cons hs, pop_cons (withStack_stack _ _), hv1, hv2] <;>
    simp only [handlerOf] at hh <;>
    (try simp only [hh]) <;>
    cases lv <;> cases rv <;>
    first
    | rfl
    | exact (ht ⟨rfl, rfl⟩).elim
    | exact absurd hu (by simp [supports, isNum, hasText])

/-- C30, violated: adding a string and an array or system function ends the process (a failed
assertion, undefined in release builds) instead of stopping the thread. -/
theorem C30_textless_add_aborts (e : Env Val Store) (he : e.mem = Mem.abs) (s : St Val Store)
    (rest : List Val) (t : Str) (l : Nat) (xs : List Val) (hm : s.mem[l]? = some xs)
    (hs : s.th.stack = .arr l :: .str t :: rest) :
    exec e (some .ADD) s = .error .assert := by
  simp only [exec, doADD, vm_bind, pop_cons hs, pop_cons (withStack_stack _ _), view, lift, he,
    Mem.abs, Val.view, withStack_mem, hm, View.num?, View.toBuf]

/-- C30, violated: calling `none` ends the process. -/
theorem C30_call_none_aborts (e : Env Val Store) (he : e.mem = Mem.abs) (s : St Val Store)
    (rest : List Val) (n : I32) (s' : St Val Store) (hn : readOperand e s = .ok (n, s'))
    (hs : s'.th.stack = .none :: rest) :
    exec e (some .ICALL) s = .error .assert := by
  simp only [exec, doICALL, vm_bind, hn, pop_cons hs, view, lift, he, Mem.abs, Val.view, fault]

/-- C30: a handler that declines leaves the type error. -/
theorem C30_declined {P M : Type} (e : Env P M) (s s' : St P M) (op : Op)
    (l r : P) (rest : List P) (lv rv : View) (hop : op ∈ typedOps)
    (h : P → P → VM P M Bool) (hs : s.th.stack = r :: l :: rest)
    (hl : e.mem.view s.mem l = .ok lv) (hr : e.mem.view s.mem r = .ok rv)
    (hh : handlerOf e op = some h) (hd : h l r (s.withStack rest) = .ok (false, s'))
    (hu : supports op lv rv = false) (ht : ¬ (op = .ADD ∧ textless lv rv = true)) :
    exec e (some op) s = .ok ((), typeErrorState s' s'.th.stack) := by
  have hv1 : view e r ((s.withStack (l :: rest)).withStack rest) =
      .ok (rv, s.withStack rest) := view_ok hr
  have hv2 : view e l (s.withStack rest) = .ok (lv, s.withStack rest) := view_ok hl
  have hc : tryHandler (some h) l r (s.withStack rest) =
      .ok ((), typeErrorState s' s'.th.stack) := by
    simp only [tryHandler, vm_bind, hd]; rfl
  simp only [typedOps, List.mem_cons, List.not_mem_nil, or_false] at hop
  rcases hop with h | h | h | h | h | h | h | h | h | h <;> subst h <;>
    simp only [handlerOf, reduceCtorEq] at hh <;>
    simp only [exec, doADD, doSUB, doMUL, doDIV, doMOD, doLT, doGT, doLEQ, doGEQ, doEQ, doCompare,
      vm_bind, pop_cons hs, pop_cons (withStack_stack _ _), hv1, hv2, hh] <;>
    cases lv <;> cases rv <;>
    first
    | exact hc
    | exact (ht ⟨rfl, rfl⟩).elim
    | exact absurd hu (by simp [supports, isNum, hasText])

/-- C30: negating anything but an integer. -/
theorem C30_negation {P M : Type} (e : Env P M) (s : St P M) (l : P) (rest : List P) (lv : View)
    (hs : s.th.stack = l :: rest) (hl : e.mem.view s.mem l = .ok lv) (hu : ∀ a, lv ≠ .int a) :
    exec e (some .NEG) s = .ok ((), typeErrorState s rest) := by
  have hv : view e l (s.withStack rest) = .ok (lv, s.withStack rest) := view_ok hl
  simp only [exec, doNEG, vm_bind, pop_cons hs, hv]
  cases lv <;> first | rfl | exact absurd rfl (hu _)

/-- C30: calling a value that is not a function (and not `none`). -/
theorem C30_call_partial {P M : Type} (e : Env P M) (s s' : St P M) (n : I32) (c : P)
    (rest : List P) (cv : View) (hn : readOperand e s = .ok (n, s')) (hs : s'.th.stack = c :: rest)
    (hc : e.mem.view s'.mem c = .ok cv) (h0 : cv ≠ .none) (h1 : ∀ a, cv ≠ .func a)
    (h2 : ∀ a, cv ≠ .syscall a) :
    exec e (some .ICALL) s = .ok ((), typeErrorState s' rest) := by
  have hv : view e c (s'.withStack rest) = .ok (cv, s'.withStack rest) := view_ok hc
  simp only [exec, doICALL, vm_bind, hn, pop_cons hs, hv]
  cases cv <;> first | rfl | exact absurd rfl (h0) | exact absurd rfl (h1 _) | exact absurd rfl (h2 _)

example : exec (toyEnv []) (some .SUB) (toySt [.str (str "x"), .int 3, .int 9]) =
    .ok ((), typeErrorState (toySt [.str (str "x"), .int 3, .int 9]) [.int 9]) :=
  C30_unsupported_operands_partial _ _ .SUB (Val.int 3) (Val.str (str "x")) [Val.int 9] (.int 3)
    (.str (str "x")) (by decide) rfl rfl rfl rfl rfl (by decide)

/-! ### C33 Truth -/

/-- Which values count as true. -/
def truth (fl : FloatOps) : Val → Bool
  | .none => false
  | .int v => decide (v ≠ 0)
  | .float f => !fl.eq f fl.zero
  | .str s => decide (s ≠ [])
  | .arr _ => true
  | .func _ => true
  | .syscall _ => true

/-- The integer 1 or 0. -/
def bit (b : Bool) : Val := .int (if b then 1 else 0)

theorem view_truth {fl : FloatOps} {m : Store} (v : Val) :
    (v.viewL m).asBool fl = truth fl v := by
  cases v with
  | str t => cases t <;> simp [View.asBool, truth, Val.viewL]
  | int v =>
    simp only [View.asBool, truth, Val.viewL]
    rw [Bool.eq_iff_iff]; simp only [bne_iff_ne, decide_eq_true_eq]
  | _ => rfl

/-- C33: `and`, `or` and `not` consume their operands and yield 1 or 0 by the truth of the
operands. -/
theorem C33_logical_operators (e : Env Val Store) (he : e.mem = Mem.abs) (s : St Val Store)
    (l r : Val) (rest : List Val) (hl : Live s.mem l) (hr : Live s.mem r) :
    (s.th.stack = r :: l :: rest →
      exec e (some .AND) s =
        .ok ((), s.withStack (bit (truth e.fl l && truth e.fl r) :: rest)) ∧
      exec e (some .OR) s =
        .ok ((), s.withStack (bit (truth e.fl l || truth e.fl r) :: rest))) ∧
    (s.th.stack = r :: rest →
      exec e (some .NOT) s = .ok ((), s.withStack (bit (!truth e.fl r) :: rest))) := by
  constructor
  · intro hs
    have hx := view_live he (s := s.withStack rest) (v := r) hr
    have hy := view_live he (s := s.withStack rest) (v := l) hl
    constructor
    · simp only [exec, doAND, vm_bind, pop_cons hs, pop_cons (withStack_stack _ _), withStack_withStack, hx, hy,
        pushBool, pushInt, pushNew, he, Mem.abs, view_truth]
      rfl
    · simp only [exec, doOR, vm_bind, pop_cons hs, pop_cons (withStack_stack _ _), withStack_withStack, hx, hy,
        pushBool, pushInt, pushNew, he, Mem.abs, view_truth]
      rfl
  · intro hs
    have hx := view_live he (s := s.withStack rest) (v := r) hr
    simp only [exec, doNOT, vm_bind, pop_cons hs, hx, pushBool, pushInt, pushNew, he, Mem.abs, view_truth]
    rfl

/-- C33: the conditional jumps branch on the same notion of truth. -/
theorem C33_branches (e : Env Val Store) (he : e.mem = Mem.abs) (s s' : St Val Store) (t : I32)
    (v : Val) (rest : List Val) (ht : readOperand e s = .ok (t, s'))
    (hs : s'.th.stack = v :: rest) (hl : Live s'.mem v) :
    exec e (some .TJMP) s = .ok ((), { s' with th := { s'.th with
      stack := rest, pc := if truth e.fl v then t.toInt else s'.th.pc } }) ∧
    exec e (some .FJMP) s = .ok ((), { s' with th := { s'.th with
      stack := rest, pc := if truth e.fl v then s'.th.pc else t.toInt } }) := by
  have hx := view_live he (s := s'.withStack rest) (v := v) hl
  constructor
  · simp only [exec, doTJMP, vm_bind, ht, pop_cons hs, hx, view_truth]
    cases truth e.fl v <;> rfl
  · simp only [exec, doFJMP, vm_bind, ht, pop_cons hs, hx, view_truth]
    cases truth e.fl v <;> rfl

example : exec (toyEnv []) (some .AND) (toySt [.str [], .arr 0] [[.none]]) =
    .ok ((), toySt [.int 0] [[.none]]) :=
  ((C33_logical_operators (toyEnv []) rfl (toySt [.str [], .arr 0] [[.none]]) (.arr 0) (.str []) []
    (by show 0 < 1; decide) trivial).1 rfl).1

/-! ### C34 Equality -/

/-- Value equality where it is defined. -/
def equality (fl : FloatOps) : Val → Val → Option Bool
  | .int a, .int b => some (decide (a = b))
  | .str a, .str b => some (decide (a = b))
  | .func a, .func b => some (decide (a = b))
  | .none, .none => some true
  | .none, _ => some false
  | _, .none => some false
  | .int a, .float b => some (fl.eq (fl.ofInt a) b)
  | .float a, .int b => some (fl.eq a (fl.ofInt b))
  | .float a, .float b => some (fl.eq a b)
  | _, _ => none

/-- Strings hold no NUL byte (none of the ways to make a string produces one, C34_no_nul). -/
def NoNul : Val → Prop
  | .str s => ∀ b ∈ s, b ≠ 0
  | _ => True

/-- C34: the equality instruction yields 1 or 0 according to `equality`, and is a type error where
that is undefined. -/
theorem C34_equals (e : Env Val Store) (he : e.mem = Mem.abs) (hh : e.handlers.onEquals = none)
    (s : St Val Store) (l r : Val) (rest : List Val) (hs : s.th.stack = r :: l :: rest)
    (hl : Live s.mem l) (hr : Live s.mem r) (nl : NoNul l) (nr : NoNul r) :
    exec e (some .EQ) s = match equality e.fl l r with
      | some b => .ok ((), s.withStack (bit b :: rest))
      | none => .ok ((), typeErrorState s rest) := by
  have hx := view_live he (s := s.withStack rest) (v := r) hr
  have hy := view_live he (s := s.withStack rest) (v := l) hl
  simp only [exec, doEQ, vm_bind, pop_cons hs, pop_cons (withStack_stack _ _), withStack_withStack,
    hx, hy]
  cases l <;> cases r <;>
    simp only [Val.viewL, hh, View.num?, pushBool, pushInt, pushNew, he, Mem.abs] <;>
    try rfl
  case str.str a b =>
    rw [cstr_id (s := a) nl, cstr_id (s := b) nr]
    by_cases hab : a = b
    · subst hab; simp [equality]; rfl
    · have : (a.length == b.length && a == b) = false := by simp [hab]
      rw [this]; simp [equality, hab]; rfl

/-- C34: where defined, equality is symmetric (given that float equality is), reflexive on
integers, strings, functions and `none`, and `none` equals only `none`. -/
theorem C34_partial_equivalence (fl : FloatOps) (hf : ∀ a b, fl.eq a b = fl.eq b a) :
    (∀ l r, equality fl l r = equality fl r l) ∧
    (∀ v, (∀ f, v ≠ .float f) → (∀ a, v ≠ .arr a) → (∀ a, v ≠ .syscall a) →
      equality fl v v = some true) ∧
    (∀ v, equality fl .none v = some true ↔ v = .none) := by
  refine ⟨?_, ?_, ?_⟩
  · intro l r
    cases l <;> cases r <;> simp [equality, hf, eq_comm]
  · intro v h1 h2 h3
    cases v <;> simp_all [equality]
  · intro v; cases v <;> simp [equality]

example : equality toyFl (.str (str "ab")) (.str (str "ab")) = some true := by decide
example : exec (toyEnv []) (some .EQ) (toySt [.int 3, .none]) = .ok ((), toySt [.int 0]) :=
  C34_equals _ rfl rfl _ .none (.int 3) [] rfl trivial trivial trivial trivial

/-! ### C31 Arrays -/

/-- Element `i` of array `l`. -/
def element (m : Store) (l : Nat) (i : Nat) : Option Val := (m[l]?).bind (·[i]?)

/-- The state after an array error. -/
def arrayErrorState {P M : Type} (s : St P M) (rest : List P) (x : TErr) : St P M :=
  { s with th := { s.th with stack := rest, error := x, finished := true } }

/-- C31: reading. An index inside the array yields the element and changes nothing else; any other
index stops the thread with the bounds error and changes nothing else. -/
theorem C31_read (e : Env Val Store) (he : e.mem = Mem.abs) (hh : e.handlers.onArrayGet = none)
    (s : St Val Store) (l : Nat) (i : I32) (rest xs : List Val)
    (hs : s.th.stack = .arr l :: .int i :: rest) (hm : s.mem[l]? = some xs) :
    (∀ k : Nat, i.toInt = k → ∀ v, xs[k]? = some v →
      exec e (some .DEREF) s = .ok ((), s.withStack (v :: rest))) ∧
    ((i.toInt < 0 ∨ (xs.length : Int) ≤ i.toInt) →
      exec e (some .DEREF) s = .ok ((), arrayErrorState s rest .bad_array_bounds)) := by
  have hl : l < s.mem.length := (List.getElem?_eq_some_iff.mp hm).1
  have hx := view_live he (s := s.withStack rest) (v := .arr l) hl
  have hy := view_live he (s := s.withStack rest) (v := .int i) trivial
  simp only [Val.viewL, withStack_mem, hm, Option.getD_some] at hx hy
  simp only [exec, doDEREF, vm_bind, pop_cons hs, pop_cons (withStack_stack _ _),
    withStack_withStack, hh, derefCore, hx, hy]
  constructor
  · intro k hk v hv
    have hlt : k < xs.length := (List.getElem?_eq_some_iff.mp hv).1
    have hn : ¬ (i.toInt < 0 ∨ (xs.length : Int) ≤ i.toInt) := by omega
    have hik : i.toNat = k := by
      have h1 := BitVec.toInt_eq_toNat_cond i
      have := i.isLt
      split at h1 <;> omega
    simp only [if_neg hn, vm_bind, vm_get, lift, he, Mem.abs, Val.arrGet, withStack_mem, hm, hik, hv]
    rfl
  · intro h
    simp only [if_pos h]
    rfl

/-- C31: writing. An index inside the array replaces exactly that element of that array (so every
alias sees it) and nothing else; any other index stops the thread with the bounds error and changes
nothing else. -/
theorem C31_write (e : Env Val Store) (he : e.mem = Mem.abs) (hh : e.handlers.onArraySet = none)
    (s : St Val Store) (l : Nat) (i : I32) (v : Val) (rest xs : List Val)
    (hs : s.th.stack = .arr l :: .int i :: v :: rest) (hm : s.mem[l]? = some xs)
    (hv : Live s.mem v) :
    (∀ k : Nat, i.toInt = k → k < xs.length → ∃ m',
      exec e (some .SETA) s = .ok ((), { s.withStack rest with mem := m' }) ∧
      m'.length = s.mem.length ∧
      (∀ l' j, element m' l' j = if l' = l ∧ j = k then some v else element s.mem l' j)) ∧
    ((i.toInt < 0 ∨ (xs.length : Int) ≤ i.toInt) →
      exec e (some .SETA) s = .ok ((), arrayErrorState s rest .bad_array_bounds)) := by
  have hl : l < s.mem.length := (List.getElem?_eq_some_iff.mp hm).1
  have hx := view_live he (s := s.withStack rest) (v := .arr l) hl
  have hy := view_live he (s := s.withStack rest) (v := .int i) trivial
  have hz := view_live he (s := s.withStack rest) (v := v) hv
  have hz' := viewL_ok hv
  simp only [Val.viewL, withStack_mem, hm, Option.getD_some] at hx hy
  simp only [exec, doSETA, vm_bind, pop_cons hs, pop_cons (withStack_stack _ _),
    withStack_withStack, hh, setaCore, hx, hy]
  constructor
  · intro k hk hlt
    have hn : ¬ (i.toInt < 0 ∨ (xs.length : Int) ≤ i.toInt) := by omega
    have hik : i.toNat = k := by
      have h1 := BitVec.toInt_eq_toNat_cond i
      have := i.isLt
      split at h1 <;> omega
    refine ⟨s.mem.set l (xs.set k v), ?_, by simp, ?_⟩
    · simp only [if_neg hn, vm_bind, vm_get, hz]
      cases v <;>
        simp only [Val.viewL, vm_bind, lift, he, Mem.abs, Val.arrSet, withStack_mem, hm, hik, hlt,
          if_true, copyVal, Val.view] <;> rfl
    · intro l' j
      unfold element
      by_cases h1 : l' = l
      · subst h1
        rw [List.getElem?_set_self hl, hm]
        by_cases h2 : j = k
        · subst h2; simp [hlt]
        · have h3 : k ≠ j := fun h => h2 h.symm
          simp [h2, h3]
      · have h2 : l ≠ l' := fun h => h1 h.symm
        simp [h1, h2]
  · intro h
    simp only [if_pos h]
    rfl

/-- C31: element access on something that is not an array (or, when reading, a string), and
indices that are not integers, stop the thread. -/
theorem C31_bad_object_or_index (e : Env Val Store) (he : e.mem = Mem.abs)
    (hg : e.handlers.onArrayGet = none) (hh : e.handlers.onArraySet = none)
    (s : St Val Store) (a i v : Val) (rest : List Val) (ha : Live s.mem a) (hi : Live s.mem i) :
    (s.th.stack = a :: i :: v :: rest → (∀ l, a ≠ .arr l) →
      exec e (some .SETA) s = .ok ((), arrayErrorState s rest .bad_array_object)) ∧
    (s.th.stack = a :: i :: v :: rest → (∃ l, a = .arr l) → (∀ k, i ≠ .int k) →
      exec e (some .SETA) s = .ok ((), arrayErrorState s rest .bad_array_index)) ∧
    (s.th.stack = a :: i :: rest → a = .none →
      exec e (some .DEREF) s = .ok ((), arrayErrorState s rest .bad_array_object)) ∧
    (s.th.stack = a :: i :: rest → a ≠ .none → (∀ k, i ≠ .int k) →
      exec e (some .DEREF) s = .ok ((), arrayErrorState s rest .bad_array_index)) ∧
    (s.th.stack = a :: i :: rest → a ≠ .none → (∀ l, a ≠ .arr l) → (∀ t, a ≠ .str t) →
      (∃ k, i = .int k) →
      exec e (some .DEREF) s = .ok ((), arrayErrorState s rest .bad_type_operation)) := by
  have hx := view_live he (s := s.withStack rest) (v := a) ha
  have hy := view_live he (s := s.withStack rest) (v := i) hi
  refine ⟨?_, ?_, ?_, ?_, ?_⟩
  · intro hs h
    simp only [exec, doSETA, vm_bind, pop_cons hs, pop_cons (withStack_stack _ _),
      withStack_withStack, hh, setaCore, hx]
    cases a <;> first | rfl | exact absurd rfl (h _)
  · rintro hs ⟨l, rfl⟩ h
    simp only [exec, doSETA, vm_bind, pop_cons hs, pop_cons (withStack_stack _ _),
      withStack_withStack, hh, setaCore, hx]
    simp only [Val.viewL, vm_bind, hy]
    cases i <;> first | rfl | exact absurd rfl (h _)
  · rintro hs rfl
    simp only [exec, doDEREF, vm_bind, pop_cons hs, pop_cons (withStack_stack _ _),
      withStack_withStack, hg, derefCore, hx]
    rfl
  · intro hs h1 h2
    simp only [exec, doDEREF, vm_bind, pop_cons hs, pop_cons (withStack_stack _ _),
      withStack_withStack, hg, derefCore, hx]
    cases a <;> first
      | exact absurd rfl h1
      | (simp only [Val.viewL, vm_bind, hy]
         cases i <;> first | rfl | exact absurd rfl (h2 _))
  · rintro hs h1 h2 h3 ⟨k, rfl⟩
    simp only [exec, doDEREF, vm_bind, pop_cons hs, pop_cons (withStack_stack _ _),
      withStack_withStack, hg, derefCore, hx]
    cases a <;> first
      | exact absurd rfl h1
      | exact absurd rfl (h2 _)
      | exact absurd rfl (h3 _)
      | (simp only [Val.viewL, vm_bind, hy]; rfl)

/-- C31: indexing a string yields the byte at that position as an integer 0..255, or the bounds
error. -/
theorem C31_read_string (e : Env Val Store) (he : e.mem = Mem.abs)
    (hh : e.handlers.onArrayGet = none) (s : St Val Store) (t : Str) (i : I32) (rest : List Val)
    (hs : s.th.stack = .str t :: .int i :: rest) :
    (∀ k : Nat, i.toInt = k → ∀ c, t[k]? = some c → ∃ n : I32, n.toInt = c.toNat ∧
      exec e (some .DEREF) s = .ok ((), s.withStack (.int n :: rest))) ∧
    ((i.toInt < 0 ∨ (t.length : Int) ≤ i.toInt) →
      exec e (some .DEREF) s = .ok ((), arrayErrorState s rest .bad_array_bounds)) := by
  have hx := view_live he (s := s.withStack rest) (v := .str t) trivial
  have hy := view_live he (s := s.withStack rest) (v := .int i) trivial
  have hn : 0 ≤ i.toInt → i.toNat = i.toInt := by
    intro h
    have h1 := BitVec.toInt_eq_toNat_cond i
    have := i.isLt
    split at h1 <;> omega
  simp only [Val.viewL] at hx hy
  simp only [exec, doDEREF, vm_bind, pop_cons hs, pop_cons (withStack_stack _ _),
    withStack_withStack, hh, derefCore, hx, hy]
  constructor
  · intro k hk c hc
    have hik : i.toNat = k := by have := hn (by omega); omega
    refine ⟨c.setWidth 32, ?_, ?_⟩
    · have h1 := BitVec.toInt_eq_toNat_cond (c.setWidth 32)
      have h2 : (c.setWidth 32).toNat = c.toNat := by
        rw [BitVec.toNat_setWidth]; have := c.isLt; omega
      have := c.isLt
      rw [h2] at h1
      split at h1 <;> omega
    · simp only [if_neg (show ¬ i.toInt < 0 by omega), hik, hc, pushInt, pushNew, he, Mem.abs]
      rfl
  · intro h
    by_cases h1 : i.toInt < 0
    · simp only [if_pos h1]; rfl
    · have h2 : (t : List Byte)[i.toNat]? = none := by
        apply List.getElem?_eq_none
        have := hn (by omega); omega
      simp only [if_neg h1, h2]; rfl

example : exec (toyEnv []) (some .DEREF) (toySt [.arr 1, .int 1] [[], [.none, .int 7]]) =
    .ok ((), toySt [.int 7] [[], [.none, .int 7]]) :=
  (C31_read (toyEnv []) rfl rfl _ 1 1 [] [.none, .int 7] rfl rfl).1 1 rfl _ rfl
example : ∃ m', exec (toyEnv []) (some .SETA)
    (toySt [.arr 1, .int 1, .str (str "x")] [[], [.none, .int 7]]) = .ok ((), toySt [] m') :=
  let ⟨m', h, _⟩ := (C31_write (toyEnv []) rfl rfl
    (toySt [.arr 1, .int 1, .str (str "x")] [[], [.none, .int 7]]) 1 1 _ [] [.none, .int 7]
    rfl rfl trivial).1 1 rfl (by decide)
  ⟨m', h⟩

/-! ### C32 String concatenation -/

/-- The number written by decimal digits. -/
def digitsValue : Str → Nat
  | [] => 0
  | d :: ds => (d.toNat - 48) * 10 ^ ds.length + digitsValue ds

/-- Is it a decimal digit? -/
def IsDigit (b : Byte) : Prop := 48 ≤ b.toNat ∧ b.toNat ≤ 57

theorem digitsValue_append (a b : Str) :
    digitsValue (a ++ b) = digitsValue a * 10 ^ b.length + digitsValue b := by
  induction a with
  | nil => simp [digitsValue]
  | cons d ds ih =>
    simp only [List.cons_append, digitsValue, ih, List.length_append, Nat.pow_add, Nat.add_mul]
    rw [Nat.mul_assoc]; omega

theorem decDigits_spec (f n : Nat) (h : n < 10 ^ f) (hf : 0 < f) :
    digitsValue (decDigits f n) = n ∧ (∀ b ∈ decDigits f n, IsDigit b) ∧
    (decDigits f n).length ≤ f ∧ (n ≠ 0 → (decDigits f n).head? ≠ some 48) ∧
    decDigits f n ≠ [] := by
  induction f generalizing n with
  | zero => omega
  | succ f ih =>
    have hd : ∀ k, k < 10 → (BitVec.ofNat 8 (48 + k)).toNat = 48 + k := by
      intro k hk; simp only [BitVec.toNat_ofNat]; omega
    unfold decDigits
    split
    · rename_i hn
      refine ⟨?_, ?_, by simp, ?_, by simp⟩
      · simp only [digitsValue, hd n hn]; simp
      · intro b hb
        rw [List.mem_singleton] at hb; subst hb
        simp only [IsDigit, hd n hn]; omega
      · intro h0 h1
        simp only [List.head?_cons, Option.some.injEq] at h1
        have := congrArg BitVec.toNat h1
        rw [hd n hn] at this
        simp at this; omega
    · rename_i hn
      have hf : 0 < f := by
        rcases Nat.eq_zero_or_pos f with h0 | h0
        · subst h0; simp at h; omega
        · exact h0
      obtain ⟨h1, h2, h3, h4, h5⟩ := ih (n / 10) (by rw [Nat.pow_succ] at h; omega) hf
      refine ⟨?_, ?_, ?_, ?_, by simp⟩
      · rw [digitsValue_append, h1]
        simp only [digitsValue, hd (n % 10) (by omega), List.length_singleton, List.length_nil]
        omega
      · intro b hb
        rw [List.mem_append, List.mem_singleton] at hb
        rcases hb with hb | hb
        · exact h2 b hb
        · subst hb; simp only [IsDigit, hd (n % 10) (by omega)]; omega
      · simp only [List.length_append, List.length_singleton]; omega
      · intro _
        cases hc : decDigits f (n / 10) with
        | nil => exact absurd hc h5
        | cons d ds =>
          rw [hc] at h4
          simpa using h4 (by omega)

/-- The complete decimal form of an integer: an optional minus sign, digits without leading zero
denoting its magnitude. -/
def IsDecimal (v : Int) (t : Str) : Prop :=
  ∃ ds : Str, t = (if v < 0 then [ch '-'] else []) ++ ds ∧ digitsValue ds = v.natAbs ∧
    (∀ b ∈ ds, IsDigit b) ∧ ds ≠ [] ∧ (v ≠ 0 → ds.head? ≠ some 48)

/-- C32: the conversion of an integer is its complete decimal form and never exceeds the 15
characters that survive. -/
theorem C32_integer_text (v : I32) : IsDecimal v.toInt (decimal v) ∧ (decimal v).length ≤ 11 := by
  have hr := fits32_toInt v
  simp only [fits32, decide_eq_true_eq] at hr
  obtain ⟨h1, h2, h3, h4, h5⟩ := decDigits_spec 10 v.toInt.natAbs (by omega) (by omega)
  unfold decimal
  refine ⟨⟨decDigits 10 v.toInt.natAbs, ?_, h1, h2, h5, fun h => h4 (by omega)⟩, ?_⟩
  · split <;> rfl
  · split
    · simp only [List.length_cons]; omega
    · omega

/-- The complete textual form of a value, if it has one. -/
def textOf (fl : FloatOps) : Val → Option Str
  | .none => some (str "none")
  | .int v => some (decimal v)
  | .float f => some (fl.fmt f)
  | .str s => some s
  | .func v => some (str "function@" ++ decimal v)
  | .arr _ => none
  | .syscall _ => none

theorem toBuf_text {fl : FloatOps} {m : Store} {v : Val} {t : Str} (h : textOf fl v = some t)
    (hn : ∀ b ∈ t, b ≠ 0) (hl : t.length ≤ 15) : (v.viewL m).toBuf fl = .ok t := by
  cases v <;> simp only [textOf, Option.some.injEq, reduceCtorEq] at h <;> subst h <;>
    simp only [Val.viewL, View.toBuf] <;> (try rw [cstr_id hn]) <;>
    first | rfl | rw [List.take_of_length_le hl]

/-- C32: adding a string and another value gives the string followed or preceded by the complete
text of the other value, if that text has at most 15 characters (and no NUL).  Missing from the
full statement: longer texts, see `C32_long_text_cut`. -/
theorem C32_concat_partial (e : Env Val Store) (he : e.mem = Mem.abs) (s : St Val Store)
    (l r : Val) (rest : List Val) (hs : s.th.stack = r :: l :: rest) (a b : Str)
    (ha : textOf e.fl l = some a) (hb : textOf e.fl r = some b)
    (hna : ∀ c ∈ a, c ≠ 0) (hnb : ∀ c ∈ b, c ≠ 0) :
    ((∃ t, l = .str t) → b.length ≤ 15 →
      exec e (some .ADD) s = .ok ((), s.withStack (.str (a ++ b) :: rest))) ∧
    ((∃ t, r = .str t) → (∀ t, l ≠ .str t) → a.length ≤ 15 →
      exec e (some .ADD) s = .ok ((), s.withStack (.str (a ++ b) :: rest))) := by
  have hll : Live s.mem l := by cases l <;> first | trivial | simp [textOf] at ha
  have hlr : Live s.mem r := by cases r <;> first | trivial | simp [textOf] at hb
  have hx := view_live he (s := s.withStack rest) (v := r) hlr
  have hy := view_live he (s := s.withStack rest) (v := l) hll
  simp only [exec, doADD, vm_bind, pop_cons hs, pop_cons (withStack_stack _ _), withStack_withStack,
    hx, hy]
  constructor
  · rintro ⟨t, rfl⟩ hlen
    have hbuf := toBuf_text (m := s.mem) hb hnb hlen
    simp only [textOf, Option.some.injEq] at ha; subst ha
    simp only [withStack_mem] at *
    cases r <;>
      simp only [Val.viewL, View.num?] at hbuf ⊢ <;>
      simp only [vm_bind, hbuf, lift, pushStr, pushNew, he, Mem.abs] <;> rfl
  · rintro ⟨t, rfl⟩ hne hlen
    have hbuf := toBuf_text (m := s.mem) ha hna hlen
    simp only [textOf, Option.some.injEq] at hb; subst hb
    simp only [withStack_mem] at *
    cases l <;> first
      | exact absurd rfl (hne _)
      | (simp only [Val.viewL, View.num?] at hbuf ⊢
         simp only [vm_bind, hbuf, lift, pushStr, pushNew, he, Mem.abs] <;> rfl)

/-- C32, violated: the right operand of `"" + "0123456789abcdef"` is cut to 15 characters. -/
theorem C32_long_text_cut :
    exec (toyEnv []) (some .ADD) (toySt [.str (str "0123456789abcdef"), .str []]) =
      .ok ((), toySt [.str (str "0123456789abcde")]) := by
  rfl

example : exec (toyEnv []) (some .ADD) (toySt [.int (-42), .str (str "a")]) =
    .ok ((), toySt [.str (str "a-42")]) :=
  (C32_concat_partial (toyEnv []) rfl _ (.str (str "a")) (.int (-42)) [] rfl (str "a") (str "-42")
    rfl (by decide) (by decide) (by decide)).1 ⟨_, rfl⟩ (by decide)

end Ccml.Props
