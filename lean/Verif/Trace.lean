import Verif.Steps
import Verif.Props.Calls
/-!
Single instructions follow the evaluator (proof infrastructure).
-/
set_option linter.unusedSimpArgs false
namespace Ccml
open Sem (State Res)

/-! ### Operators -/

theorem ret32_exact (z : Int) : Sem.exact z = match ret32 z with
    | .ok v => .val (.int v)
    | .error f => .fault f := by
  unfold Sem.exact ret32 fits32
  by_cases h : -2147483648 ≤ z ∧ z ≤ 2147483647
  · simp [h]
  · simp [h]

theorem asBool_truth (fl : FloatOps) (v : View) : v.asBool fl = Sem.truth fl v := by
  cases v with
  | str s => cases s <;> simp [View.asBool, Sem.truth]
  | int v => simp only [View.asBool, Sem.truth]; rw [Bool.eq_iff_iff]; simp
  | _ => rfl

theorem num_number (fl : FloatOps) (v : View) : v.num? fl = Sem.number fl v := by
  cases v <;> rfl

theorem toInt_zero_iff (b : I32) : b.toInt = 0 ↔ b = 0 := by
  constructor
  · intro h; exact BitVec.eq_of_toInt_eq (by simpa using h)
  · rintro rfl; rfl

/-- An operator instruction in terms of the answer of the specification. -/
def ansState (s : St Val Store) (rest : List Val) : Sem.Ans → Except Fault (Unit × St Val Store)
  | .val v => .ok ((), s.withStack (v :: rest))
  | .err x => .ok ((), { s.withStack rest with th := { (s.withStack rest).th with
      error := x, finished := true } })
  | .fault f => .error f
  | .undef => .error .ub

/-- The instruction of an operator. -/
def opIns : Tok → Option Op
  | .ADD => some .ADD | .SUB => some .SUB | .MUL => some .MUL | .DIV => some .DIV
  | .MOD => some .MOD | .AND => some .AND | .OR => some .OR | .EQ => some .EQ | .LT => some .LT
  | .GT => some .GT | .LEQ => some .LEQ | .GEQ => some .GEQ
  | _ => none

theorem exec_binary (e : Env Val Store) (hm : e.mem = Mem.abs) (hh : e.handlers = {})
    (s : St Val Store) (a b : Val) (rest : List Val) (hs : s.th.stack = b :: a :: rest)
    (l r : View) (hl : a.view s.mem = .ok l) (hr : b.view s.mem = .ok r) (t : Tok) (o : Op)
    (ho : opIns t = some o) :
    exec e (some o) s = ansState s rest (Sem.binary e.fl t l r) := by
  have hv1 : view e b ((s.withStack (a :: rest)).withStack rest) = .ok (r, s.withStack rest) :=
    view_ok (by rw [hm]; exact hr)
  have hv2 : view e a (s.withStack rest) = .ok (l, s.withStack rest) :=
    view_ok (by rw [hm]; exact hl)
  have base : ∀ f : Val → Val → View → View → VM Val Store Unit,
      (do let r ← pop; let l ← pop; let rv ← view e r; let lv ← view e l; f l r lv rv) s =
        f a b l r (s.withStack rest) := by
    intro f
    rw [vm_bind_ok (pop_cons hs), vm_bind_ok (pop_cons (withStack_stack _ _)), vm_bind_ok hv1,
      vm_bind_ok hv2]
  have pI : ∀ v, pushInt e v (s.withStack rest) = .ok ((), s.withStack (.int v :: rest)) := by
    intro v; simp only [pushInt, pushNew, hm, Mem.abs]; rfl
  have pF : ∀ v, pushFloat e v (s.withStack rest) = .ok ((), s.withStack (.float v :: rest)) := by
    intro v; simp only [pushFloat, pushNew, hm, Mem.abs]; rfl
  have pS : ∀ v, pushStr e v (s.withStack rest) = .ok ((), s.withStack (.str v :: rest)) := by
    intro v; simp only [pushStr, pushNew, hm, Mem.abs]; rfl
  have pX : ∀ x, (raise x : VM Val Store Unit) (s.withStack rest) = .ok ((),
      { s.withStack rest with th := { (s.withStack rest).th with error := x, finished := true } }) :=
    fun x => rfl
  have pL : ∀ (o : Out I32), (do pushInt e (← lift o) : VM Val Store Unit) (s.withStack rest) =
      match o with
      | .ok v => .ok ((), s.withStack (.int v :: rest))
      | .error f => .error f := by
    intro o
    cases o with
    | ok v => rw [vm_bind_ok (show lift (.ok v) (s.withStack rest) = .ok (v, _) from rfl), pI]
    | error f => rfl
  have pT : ∀ h : Option (Val → Val → VM Val Store Bool), h = none → ∀ l r,
      tryHandler h l r (s.withStack rest) = .ok ((), { s.withStack rest with
        th := { (s.withStack rest).th with error := .bad_type_operation, finished := true } }) := by
    rintro h rfl l r; rfl
  have pC1 : ∀ (a : Str) (b : Out Str), (do pushStr e (a ++ (← lift b)) : VM Val Store Unit)
      (s.withStack rest) = ansState s rest (Sem.concat (.ok a) b) := by
    intro a b
    cases b with
    | error f => rfl
    | ok b =>
      rw [vm_bind_ok (show lift (.ok b) (s.withStack rest) = .ok (b, _) from rfl), pS]
      rfl
  have pC2 : ∀ (a : Out Str) (b : Str), (do pushStr e ((← lift a) ++ b) : VM Val Store Unit)
      (s.withStack rest) = ansState s rest (Sem.concat a (.ok b)) := by
    intro a b
    cases a with
    | error f => rfl
    | ok a =>
      rw [vm_bind_ok (show lift (.ok a) (s.withStack rest) = .ok (a, _) from rfl), pS]
      rfl
  have pE : ∀ (z : Int), (do pushInt e (← lift (ret32 z)) : VM Val Store Unit) (s.withStack rest) =
      ansState s rest (Sem.exact z) := by
    intro z
    rw [pL, ret32_exact]
    cases ret32 z <;> rfl
  have pB : ∀ b : Bool, pushBool e b (s.withStack rest) = ansState s rest (Sem.bool b) := by
    intro b
    rw [pushBool, pI]
    rfl
  cases t <;> simp only [opIns, Option.some.injEq, reduceCtorEq] at ho <;> subst ho
  case AND => exact (base _).trans (by rw [pB, asBool_truth, asBool_truth]; rfl)
  case OR => exact (base _).trans (by rw [pB, asBool_truth, asBool_truth]; rfl)
  case SUB =>
    refine (base _).trans ?_
    cases l <;> cases r <;> first | exact pE _ | exact pF _ | exact pT _ (by rw [hh]) _ _
  case MUL =>
    refine (base _).trans ?_
    cases l <;> cases r <;> first | exact pE _ | exact pF _ | exact pT _ (by rw [hh]) _ _
  case ADD =>
    refine (base _).trans ?_
    cases l <;> cases r <;> first
      | exact pE _ | exact pF _ | exact pT _ (by rw [hh]) _ _
      | exact pC1 _ _ | exact pC2 _ _
  case DIV =>
    refine (base _).trans ?_
    cases l <;> cases r <;> first
      | exact pF _ | exact pT _ (by rw [hh]) _ _
      | skip
    rename_i x y
    simp only [Sem.binary, Sem.arith, toInt_zero_iff]
    by_cases h : y = 0
    · rw [if_pos h, if_pos h]; rfl
    · rw [if_neg h, if_neg h]; exact pE _
  case MOD =>
    refine (base _).trans ?_
    cases l <;> cases r <;> first
      | exact pX _
      | skip
    rename_i x y
    simp only [Sem.binary, toInt_zero_iff]
    by_cases h : y = 0
    · rw [if_pos h, if_pos h]; rfl
    · rw [if_neg h, if_neg h, pL]
      unfold rem32 fits32
      split
      · rename_i h1
        split at h1
        · rename_i h2; rw [if_pos (by simpa using h2)]; cases h1; rfl
        · cases h1
      · rename_i h1
        split at h1
        · cases h1
        · rename_i h2; rw [if_neg (by simpa using h2)]; cases h1; rfl
  case EQ =>
    refine (base _).trans ?_
    cases l <;> cases r <;> first
      | exact pB _ | exact pT _ (by rw [hh]) _ _
      | (refine (pB _).trans ?_; rfl)
      | skip
    · rename_i x y
      refine (pB _).trans ?_
      simp only [Sem.binary, Sem.equal, Sem.arith]
      congr 2
      rw [Bool.eq_iff_iff]
      simp [BitVec.toInt_inj]
    · rename_i x y
      refine (pB _).trans ?_
      simp only [Sem.binary, Sem.equal]
      congr 2
      rw [Bool.eq_iff_iff]
      simp
  case LT =>
    refine (base _).trans ?_
    cases l <;> cases r <;> first | exact pB _ | exact pX _
  case GT =>
    refine (base _).trans ?_
    cases l <;> cases r <;> first | exact pB _ | exact pX _
  case LEQ =>
    refine (base _).trans ?_
    cases l <;> cases r <;> first | exact pB _ | exact pX _
  case GEQ =>
    refine (base _).trans ?_
    cases l <;> cases r <;> first | exact pB _ | exact pX _

theorem exec_binary_fault (e : Env Val Store) (hm : e.mem = Mem.abs)
    (s : St Val Store) (a b : Val) (rest : List Val) (hs : s.th.stack = b :: a :: rest)
    (x : Fault) (h : b.view s.mem = .error x ∨ ∃ r, b.view s.mem = .ok r ∧ a.view s.mem = .error x)
    (t : Tok) (o : Op) (ho : opIns t = some o) : exec e (some o) s = .error x := by
  have base : ∀ f : Val → Val → View → View → VM Val Store Unit,
      (do let r ← pop; let l ← pop; let rv ← view e r; let lv ← view e l; f l r lv rv) s =
        .error x := by
    intro f
    rw [vm_bind_ok (pop_cons hs), vm_bind_ok (pop_cons (withStack_stack _ _))]
    rcases h with h | ⟨r, h, h'⟩
    · exact vm_bind_error (by simp [view, lift, hm, Mem.abs, h])
    · rw [vm_bind_ok (view_ok (s := (s.withStack (a :: rest)).withStack rest)
        (by rw [hm]; exact h))]
      exact vm_bind_error (by simp [view, lift, hm, Mem.abs, h'])
  cases t <;> simp only [opIns, Option.some.injEq, reduceCtorEq] at ho <;> subst ho <;>
    exact base _

/-! ### States -/

theorem At.fetched {s : St Val Store} {pc stk frs w} (h : At s pc stk frs w) :
    At (fetched s) (pc + 1) stk frs w :=
  ⟨by simp [Ccml.fetched, h.pc], h.stack, h.frames, h.state, h.finished, h.error⟩

theorem At.mem {s : St Val Store} {pc stk frs w} (h : At s pc stk frs w) : s.mem = w.mem := by
  rw [← h.state]; rfl

theorem At.globals {s : St Val Store} {pc stk frs w} (h : At s pc stk frs w) :
    s.globals = w.globals := by
  rw [← h.state]; rfl

/-- The operands have been read. -/
def atPc (s : St Val Store) (q : Nat) : St Val Store := { s with th := { s.th with pc := (q : Nat) } }

theorem At.atPc {s : St Val Store} {pc stk frs w} (h : At s pc stk frs w) (q : Nat) :
    At (atPc s q) q stk frs w := ⟨rfl, h.stack, h.frames, h.state, h.finished, h.error⟩

theorem At.withStack {s : St Val Store} {pc stk frs w} (h : At s pc stk frs w) (stk' : List Val) :
    At (s.withStack stk') pc stk' frs w := ⟨h.pc, rfl, h.frames, h.state, h.finished, h.error⟩

theorem operand_at {e : Env Val Store} {fa : Str → I32} {s : St Val Store} {pc : Nat}
    {x : AIns × Option Token} {l : Asm} {o : Op} {v : I32} (h : CodeAt e fa pc (x :: l))
    (hb : x.1.resolve fa = .i1 o v) (hp : s.th.pc = pc) (hl : 4 < e.prog.code.length) :
    readOperand e (fetched s) = .ok (v, atPc s (pc + 5)) := operand_eq' h hb hp hl

theorem operand_at' {e : Env Val Store} {fa : Str → I32} {s : St Val Store} {pc : Nat}
    {x : AIns × Option Token} {l : Asm} {o : Op} {v : I32} (h : CodeAt e fa pc (x :: l))
    (hb : x.1.resolve fa = .i1 o v) (hp : s.th.pc = pc) (hl : 4 < e.prog.code.length)
    (st : List Val) :
    readOperand e ((fetched s).withStack st) = .ok (v, (atPc s (pc + 5)).withStack st) :=
  operand_eq h hb hp hl st

/-- A value on the stack. -/
def Pushed (pc : Nat) (stk : List Val) (frs : List Frame) (v : Val) (w : State) (s : St Val Store) :
    Prop := At s pc (v :: stk) frs w

theorem step_to {e : Env Val Store} {fa : Str → I32} {s s1 : St Val Store} {pc stk frs w q stk' frs' w'}
    {x : AIns × Option Token} {l : Asm} {o : Op} {bs : List Byte} (h : At s pc stk frs w)
    (hc : CodeAt e fa pc (x :: l)) (hb : (x.1.resolve fa).bytes = o.code :: bs)
    (hl : 4 < e.prog.code.length) (hx : exec e (some o) (fetched s) = .ok ((), s1))
    (h1 : At s1 q stk' frs' w') : ∃ s', stepImp e s = .ok ((), s') ∧ At s' q stk' frs' w' :=
  ⟨_, step_ok h hc hb hl hx, h1.bump⟩

theorem Follows.of {e : Env Val Store} {n k : Nat} {s : St Val Store} {pc v stk frs w}
    (h : ∃ s', Steps e k s s' ∧ At s' pc (v :: stk) frs w) :
    Follows e n s (Pushed pc stk frs) (.ok v w) := by
  obtain ⟨s', h1, h2⟩ := h
  exact ⟨_, s', h1, h2⟩

theorem toInt_i32 {n : Nat} (h : n < 2147483648) : (i32 n).toInt = n := by
  have h1 : (i32 n).toNat = n := by
    unfold i32
    rw [BitVec.toNat_ofNat]
    omega
  have := BitVec.toInt_eq_toNat_cond (i32 n)
  rw [h1] at this
  rw [this]
  split <;> omega

theorem toNat_i32 {n : Nat} (h : n < 2147483648) : (i32 n).toNat = n := by
  unfold i32
  rw [BitVec.toNat_ofNat]
  omega

section
variable {e : Env Val Store} {cx : Sem.Ctx} {fa : Str → I32} {s : St Val Store} {pc n : Nat}
  {stk rest : List Val} {frs : List Frame} {w : State} {t : Option Token} {l : Asm}

/-! ### Constants -/

theorem one_int (M : Mach e cx) {v : I32} (hc : CodeAt e fa pc ((.ins (.i1 .NEW_INT v), t) :: l))
    (h : At s pc stk frs w) : ∃ s', stepImp e s = .ok ((), s') ∧ At s' (pc + 5) (.int v :: stk) frs w :=
  step_to h hc rfl M.code
    (Props.C55_constants e M.mem _ _ v (operand_eq' hc rfl h.pc M.code)).1
    (h.stack ▸ (h.atPc _).withStack _)

theorem one_float (M : Mach e cx) {v : F32} (hc : CodeAt e fa pc ((.ins (.i1 .NEW_FLT v), t) :: l))
    (h : At s pc stk frs w) : ∃ s', stepImp e s = .ok ((), s') ∧ At s' (pc + 5) (.float v :: stk) frs w :=
  step_to h hc rfl M.code
    (Props.C55_constants e M.mem _ _ v (operand_eq' hc rfl h.pc M.code)).2.1
    (h.stack ▸ (h.atPc _).withStack _)

theorem one_func (M : Mach e cx) {f : Str} (hc : CodeAt e fa pc ((.fn f, t) :: l))
    (hf : 0 ≤ (fa f).toInt) (h : At s pc stk frs w) :
    ∃ s', stepImp e s = .ok ((), s') ∧ At s' (pc + 5) (.func (fa f) :: stk) frs w :=
  step_to h hc rfl M.code
    ((Props.C55_constants e M.mem _ _ (fa f) (operand_eq' hc rfl h.pc M.code)).2.2.1 hf).1
    (h.stack ▸ (h.atPc _).withStack _)

theorem one_syscall (M : Mach e cx) {v : I32} (hc : CodeAt e fa pc ((.ins (.i1 .NEW_SCALL v), t) :: l))
    (hv : 0 ≤ v.toInt) (h : At s pc stk frs w) :
    ∃ s', stepImp e s = .ok ((), s') ∧ At s' (pc + 5) (.syscall v :: stk) frs w :=
  step_to h hc rfl M.code
    ((Props.C55_constants e M.mem _ _ v (operand_eq' hc rfl h.pc M.code)).2.2.1 hv).2
    (h.stack ▸ (h.atPc _).withStack _)

theorem one_str (M : Mach e cx) {i : Nat} {x : Str}
    (hc : CodeAt e fa pc ((.ins (.i1 .NEW_STR (i32 i)), t) :: l))
    (hi : i < 2147483648) (hx : e.prog.strings[i]? = some x) (h : At s pc stk frs w) :
    ∃ s', stepImp e s = .ok ((), s') ∧ At s' (pc + 5) (.str x :: stk) frs w :=
  step_to h hc rfl M.code
    ((Props.C55_constants e M.mem _ _ (i32 i) (operand_eq' hc rfl h.pc M.code)).2.2.2.1 x
      (by rw [toInt_i32 hi]; omega) (by rw [toNat_i32 hi]; exact hx))
    (h.stack ▸ (h.atPc _).withStack _)

theorem one_none (M : Mach e cx) (hc : CodeAt e fa pc ((.ins (.i0 .NEW_NONE), t) :: l))
    (h : At s pc stk frs w) : ∃ s', stepImp e s = .ok ((), s') ∧ At s' (pc + 1) (.none :: stk) frs w := by
  refine step_to h hc rfl M.code (s1 := (fetched s).withStack (.none :: stk)) ?_
    (h.fetched.withStack _)
  simp only [exec, doNEW_NONE, M.mem, Mem.abs]
  rw [← h.stack]
  rfl

/-! ### Variables -/

theorem one_getv (M : Mach e cx) {o : I32} {v : Val} {fr : Frame} {outer : List Frame}
    (hc : CodeAt e fa pc ((.ins (.i1 .GETV o), t) :: l)) (h : At s pc stk (fr :: outer) w)
    (hv : stackAt stk (fr.sp + o.toInt) = some v) :
    ∃ s', stepImp e s = .ok ((), s') ∧ At s' (pc + 5) (v :: stk) (fr :: outer) w := by
  refine step_to h hc rfl M.code (s1 := (atPc s (pc + 5)).withStack (v :: stk)) ?_
    ((h.atPc _).withStack _)
  have h1 := operand_at hc rfl h.pc M.code
  have hcf : curFrame (atPc s (pc + 5)) = .ok (fr, atPc s (pc + 5)) := by
    simp only [curFrame, Ccml.atPc, h.frames]
  have hg : stackGet e (fr.sp + o.toInt) (atPc s (pc + 5)) = .ok (v, atPc s (pc + 5)) := by
    simp only [stackGet, Ccml.atPc, h.stack, hv]
  simp only [exec, doGETV]
  rw [vm_bind_ok h1]
  rw [vm_bind_ok hcf, vm_bind_ok hg, ← h.stack]
  rfl

theorem one_setv (M : Mach e cx) {o : I32} {v : Val} {fr : Frame} {outer : List Frame} {i : Nat}
    (hc : CodeAt e fa pc ((.ins (.i1 .SETV o), t) :: l)) (h : At s pc (v :: stk) (fr :: outer) w)
    (hi : (fr.sp : Int) + o.toInt = i) (hlt : i < stk.length) :
    ∃ s', stepImp e s = .ok ((), s') ∧ At s' (pc + 5) (stackPut stk i v) (fr :: outer) w := by
  refine step_to h hc rfl M.code (s1 := (atPc s (pc + 5)).withStack (stackPut stk i v)) ?_
    ((h.atPc _).withStack _)
  have h1 := operand_at hc rfl h.pc M.code
  have hp : pop (atPc s (pc + 5)) = .ok (v, (atPc s (pc + 5)).withStack stk) := pop_cons h.stack
  have hcf : curFrame ((atPc s (pc + 5)).withStack stk) = .ok (fr, (atPc s (pc + 5)).withStack stk) := by
    simp only [curFrame, Ccml.atPc, St.withStack, h.frames]
  simp only [exec, doSETV]
  rw [vm_bind_ok h1]
  rw [vm_bind_ok hp, vm_bind_ok hcf, hi]
  unfold stackSet
  rw [withStack_stack, if_pos ⟨by omega, by omega⟩]
  rfl

theorem one_getg (M : Mach e cx) {i : Nat} (hi : i < 2147483648)
    (hc : CodeAt e fa pc ((.ins (.i1 .GETG (i32 i)), t) :: l)) (h : At s pc stk frs w) :
    Once e s (Pushed (pc + 5) stk frs) (match w.globals[i]? with
      | some v => .ok v w
      | none => .err .bad_get_global w) := by
  refine Once.instr h hc rfl M.code (fun _ _ _ h => At.bump h) ?_
  have h1 := Props.C55_read_global e _ _ (i32 i) (operand_eq' hc rfl h.pc M.code)
  rw [toInt_i32 hi, if_pos (by omega), Int.toNat_natCast] at h1
  rw [← h.globals]
  cases hg : s.globals[i]? with
  | none =>
    simp only [hg] at h1
    exact ⟨_, h1, rfl, rfl, h.state⟩
  | some v =>
    simp only [hg] at h1
    exact ⟨_, h1, h.stack ▸ (h.atPc _).withStack _⟩

theorem one_setg (M : Mach e cx) {i : Nat} {v : Val} (hi : i < 2147483648)
    (hc : CodeAt e fa pc ((.ins (.i1 .SETG (i32 i)), t) :: l)) (h : At s pc (v :: stk) frs w) :
    Once e s (fun (_ : Unit) w' s' => At s' (pc + 5) stk frs w')
      (if i < w.globals.length then .ok () { w with globals := w.globals.set i v }
       else .err .bad_set_global w) := by
  refine Once.instr h hc rfl M.code (fun _ _ _ h => At.bump h) ?_
  have h1 := Props.C55_write_global e _ _ (i32 i) v stk (operand_eq' hc rfl h.pc M.code) h.stack
  rw [toInt_i32 hi] at h1
  rw [← h.globals]
  by_cases hg : i < s.globals.length
  · rw [if_pos ⟨by omega, by simpa using hg⟩, Int.toNat_natCast] at h1
    rw [if_pos hg]
    refine ⟨_, h1, rfl, rfl, h.frames, ?_, h.finished, h.error⟩
    rw [← h.state]
    rfl
  · rw [if_neg (fun hh => hg (by simpa using hh.2))] at h1
    rw [if_neg hg]
    exact ⟨_, h1, rfl, rfl, h.state⟩

/-! ### Operators -/

theorem one_binary (M : Mach e cx) {tok : Tok} {o : Op} {a b : Val} (ho : opIns tok = some o)
    (hc : CodeAt e fa pc ((.ins (.i0 o), t) :: l)) (h : At s pc (b :: a :: stk) frs w) :
    Once e s (Pushed (pc + 1) stk frs) (Sem.binaryV cx.fl tok a b w) := by
  refine Once.instr h hc rfl M.code (fun _ _ _ h => At.bump h) ?_
  unfold Sem.binaryV Sem.look
  rw [← h.mem]
  have hs : (fetched s).th.stack = b :: a :: stk := h.stack
  cases hb : b.view s.mem with
  | error x => exact exec_binary_fault e M.mem _ a b stk hs x (.inl hb) tok o ho
  | ok r =>
    cases ha : a.view s.mem with
    | error x => exact exec_binary_fault e M.mem _ a b stk hs x (.inr ⟨r, hb, ha⟩) tok o ho
    | ok q =>
      have := exec_binary e M.mem M.handlers _ a b stk hs q r ha hb tok o ho
      rw [M.fl] at this
      simp only
      cases hx : Sem.binary cx.fl tok q r with
      | val v => rw [hx] at this; exact ⟨_, this, h.fetched.withStack _⟩
      | err x => rw [hx] at this; exact ⟨_, this, rfl, rfl, h.state⟩
      | fault x => rw [hx] at this; exact this
      | undef => trivial

theorem one_neg (M : Mach e cx) {a : Val} (hc : CodeAt e fa pc ((.ins (.i0 .NEG), t) :: l))
    (h : At s pc (a :: stk) frs w) :
    Once e s (Pushed (pc + 1) stk frs) (Sem.unaryV cx.fl .SUB a w) := by
  refine Once.instr h hc rfl M.code (fun _ _ _ h => At.bump h) ?_
  unfold Sem.unaryV Sem.look
  rw [← h.mem]
  have hs : (fetched s).th.stack = a :: stk := h.stack
  have hp : pop (fetched s) = .ok (a, (fetched s).withStack stk) := pop_cons hs
  cases ha : a.view s.mem with
  | error x =>
    show doNEG e (fetched s) = _
    unfold doNEG
    rw [vm_bind_ok hp]
    exact vm_bind_error (by simp [view, lift, M.mem, Mem.abs, fetched, ha])
  | ok q =>
    have hx : doNEG e (fetched s) = (match q with
        | .int v => do pushInt e (← lift (ret32 (-v.toInt)))
        | _ => raise .bad_type_operation : VM Val Store Unit) ((fetched s).withStack stk) := by
      unfold doNEG
      rw [vm_bind_ok hp, vm_bind_ok (view_ok (by rw [M.mem]; exact ha))]
      cases q <;> rfl
    cases q with
    | int v =>
      simp only [Sem.unary, ret32_exact]
      cases hr : ret32 (-v.toInt) with
      | error x => simp only [hr] at hx; exact hx
      | ok z =>
        simp only [hr] at hx
        refine ⟨(fetched s).withStack (.int z :: stk), hx.trans ?_, h.fetched.withStack _⟩
        rw [vm_bind_ok (show lift (.ok z) ((fetched s).withStack stk) = .ok (z, _) from rfl)]
        simp only [pushInt, pushNew, M.mem, Mem.abs]
        rfl
    | _ => exact ⟨_, hx, rfl, rfl, h.state⟩

theorem one_not (M : Mach e cx) {a : Val} (hc : CodeAt e fa pc ((.ins (.i0 .NOT), t) :: l))
    (h : At s pc (a :: stk) frs w) :
    Once e s (Pushed (pc + 1) stk frs) (Sem.unaryV cx.fl .NOT a w) := by
  refine Once.instr h hc rfl M.code (fun _ _ _ h => At.bump h) ?_
  unfold Sem.unaryV Sem.look
  rw [← h.mem]
  have hs : (fetched s).th.stack = a :: stk := h.stack
  have hp : pop (fetched s) = .ok (a, (fetched s).withStack stk) := pop_cons hs
  cases ha : a.view s.mem with
  | error x =>
    show doNOT e (fetched s) = _
    unfold doNOT
    rw [vm_bind_ok hp]
    exact vm_bind_error (by simp [view, lift, M.mem, Mem.abs, fetched, ha])
  | ok q =>
    refine ⟨(fetched s).withStack (.int (if !Sem.truth cx.fl q then 1 else 0) :: stk), ?_,
      h.fetched.withStack _⟩
    show doNOT e (fetched s) = _
    unfold doNOT
    rw [vm_bind_ok hp, vm_bind_ok (view_ok (by rw [M.mem]; exact ha)), asBool_truth, M.fl]
    simp only [pushBool, pushInt, pushNew, M.mem, Mem.abs]
    rfl

/-! ### Arrays and members -/

/-- A piece of machine code follows an evaluation. -/
def Runs {α : Type} (x : Except Fault (Unit × St Val Store)) (good : α → State → St Val Store → Prop) :
    Res α → Prop
  | .ok a w => ∃ s1, x = .ok ((), s1) ∧ good a w s1
  | .err y w => ∃ s1, x = .ok ((), s1) ∧ Failed s1 y w
  | .fault f => x = .error f
  | .timeout => False
  | .undef => True

theorem does_runs {α : Type} {o : Op} {good : α → State → St Val Store → Prop} {r : Res α} :
    Does e o s good r ↔ Runs (exec e (some o) (fetched s)) good r := by
  cases r <;> rfl

theorem Runs.look (M : Mach e cx) {α : Type} {good : α → State → St Val Store → Prop} {v : Val}
    {s1 : St Val Store} (hm : s1.mem = w.mem) {f : View → VM Val Store Unit} {g : View → Res α}
    (h : ∀ x, v.view w.mem = .ok x → Runs (f x s1) good (g x)) :
    Runs ((do f (← view e v) : VM Val Store Unit) s1) good (Sem.look v w g) := by
  unfold Sem.look
  have : (do f (← view e v) : VM Val Store Unit) s1 = match v.view s1.mem with
      | .ok x => f x s1
      | .error x => .error x := by
    rw [vm_bind]
    simp only [view, lift, M.mem, Mem.abs]
    cases v.view s1.mem <;> rfl
  rw [this, hm]
  cases hv : v.view w.mem with
  | error x => exact rfl
  | ok x => exact h x hv

theorem Runs.raise {α : Type} {good : α → State → St Val Store → Prop} {s1 : St Val Store} {x : TErr}
    (h : stOf s1 = w) : Runs ((Ccml.raise x : VM Val Store Unit) s1) good (.err x w) :=
  ⟨_, rfl, rfl, rfl, h⟩

theorem Runs.push {s1 : St Val Store} {v : Val} (h : At s1 pc stk frs w) :
    Runs ((Ccml.push v : VM Val Store Unit) s1) (Pushed pc stk frs) (.ok v w) :=
  ⟨_, rfl, h.stack ▸ h.withStack (v :: s1.th.stack)⟩

theorem Runs.pushInt (M : Mach e cx) {s1 : St Val Store} {v : I32} (h : At s1 pc stk frs w) :
    Runs ((Ccml.pushInt e v : VM Val Store Unit) s1) (Pushed pc stk frs) (.ok (.int v) w) := by
  have : Ccml.pushInt e v s1 = Ccml.push (.int v) s1 := by
    simp only [Ccml.pushInt, pushNew, M.mem, Mem.abs]; rfl
  rw [this]
  exact Runs.push h

theorem view_arr {v : Val} {m : Store} {k : Nat} (h : v.view m = .ok (.arr k)) :
    ∃ l elems, v = .arr l ∧ m[l]? = some elems ∧ elems.length = k := by
  cases v <;> simp only [Val.view, Except.ok.injEq, reduceCtorEq] at h
  rename_i l
  cases hl : m[l]? with
  | none => simp [hl] at h
  | some el => simp [hl] at h; exact ⟨l, el, rfl, hl, h⟩

theorem one_deref (M : Mach e cx) {a i : Val} (hc : CodeAt e fa pc ((.ins (.i0 .DEREF), t) :: l))
    (h : At s pc (a :: i :: stk) frs w) :
    Once e s (Pushed (pc + 1) stk frs) (Sem.index a i w) := by
  refine Once.instr h hc rfl M.code (fun _ _ _ h => At.bump h) (does_runs.2 ?_)
  have hs : (fetched s).th.stack = a :: i :: stk := h.stack
  have hx : exec e (some .DEREF) (fetched s) = derefCore e a i ((fetched s).withStack stk) := by
    show doDEREF e (fetched s) = _
    unfold doDEREF
    rw [vm_bind_ok (pop_cons hs), vm_bind_ok (pop_cons (withStack_stack _ _)), M.handlers]
    rfl
  have hq := h.fetched.withStack stk
  rw [hx]
  generalize (fetched s).withStack stk = s1 at hq
  have neg : ∀ k : I32, k.toInt < 0 ∨ 0 ≤ k.toInt ∧ k.toInt.toNat = k.toNat := fun k => by
    have := BitVec.toInt_eq_toNat_cond k
    split at this <;> omega
  refine Runs.look M hq.mem fun av hav => ?_
  have idx : ∀ {f : View → VM Val Store Unit} {g : View → Res Val},
      (∀ k, Runs (f (.int k) s1) (Pushed (pc + 1) stk frs) (g (.int k))) →
      (∀ x, (∀ k, x ≠ .int k) → f x = raise .bad_array_index ∧ g x = .err .bad_array_index w) →
      Runs ((do f (← view e i) : VM Val Store Unit) s1) (Pushed (pc + 1) stk frs) (Sem.look i w g) := by
    intro f g h1 h2
    refine Runs.look M hq.mem fun x _ => ?_
    by_cases hk : ∃ k, x = .int k
    · obtain ⟨k, rfl⟩ := hk
      exact h1 k
    · obtain ⟨e1, e2⟩ := h2 x (fun k hx => hk ⟨k, hx⟩)
      rw [e1, e2]
      exact Runs.raise hq.state
  cases av with
  | none => exact Runs.raise hq.state
  | arr k =>
    obtain ⟨l, elems, rfl, hl, rfl⟩ := view_arr hav
    refine idx (fun k => ?_) (by intro x hx; cases x <;> simp at hx <;> exact ⟨rfl, rfl⟩)
    simp only [hl]
    rcases neg k with hk | ⟨hk, hk'⟩
    · rw [if_pos (.inl hk), if_neg (by omega)]
      exact Runs.raise hq.state
    · rw [if_pos hk, hk']
      cases hg : elems[k.toNat]? with
      | none =>
        rw [List.getElem?_eq_none_iff] at hg
        rw [if_pos (.inr (by omega))]
        exact Runs.raise hq.state
      | some v =>
        have := (List.getElem?_eq_some_iff.1 hg).1
        rw [if_neg (by omega), vm_bind_ok (vm_get s1),
          vm_bind_ok (show lift (e.mem.arrGet s1.mem (.arr l) k.toNat) s1 = .ok (v, s1) by
            simp [lift, M.mem, Mem.abs, Val.arrGet, hq.mem, hl, hg])]
        exact Runs.push hq
  | str x =>
    obtain rfl : a = .str x := by
      cases a <;> simp only [Val.view, Except.ok.injEq, reduceCtorEq, View.str.injEq] at hav
      · rw [hav]
      · split at hav <;> simp at hav
    refine idx (fun k => ?_) (by intro x hx; cases x <;> simp at hx <;> exact ⟨rfl, rfl⟩)
    simp only
    rcases neg k with hk | ⟨hk, hk'⟩
    · rw [if_pos hk, if_neg (by omega)]
      exact Runs.raise hq.state
    · rw [if_neg (by omega), if_pos hk, hk']
      cases hg : x[k.toNat]? with
      | none => exact Runs.raise hq.state
      | some v => exact Runs.pushInt M hq
  | int x =>
    refine idx (fun k => ?_) (by intro x hx; cases x <;> simp at hx <;> exact ⟨rfl, rfl⟩)
    cases a <;> simp [Val.view] at hav
    · exact Runs.raise hq.state
    · split at hav <;> simp at hav
  | float x =>
    refine idx (fun k => ?_) (by intro x hx; cases x <;> simp at hx <;> exact ⟨rfl, rfl⟩)
    cases a <;> simp [Val.view] at hav
    · exact Runs.raise hq.state
    · split at hav <;> simp at hav
  | func x =>
    refine idx (fun k => ?_) (by intro x hx; cases x <;> simp at hx <;> exact ⟨rfl, rfl⟩)
    cases a <;> simp [Val.view] at hav
    · split at hav <;> simp at hav
    · exact Runs.raise hq.state
  | syscall x =>
    refine idx (fun k => ?_) (by intro x hx; cases x <;> simp at hx <;> exact ⟨rfl, rfl⟩)
    cases a <;> simp [Val.view] at hav
    · split at hav <;> simp at hav
    · exact Runs.raise hq.state

theorem one_seta (M : Mach e cx) {a i v : Val} (hc : CodeAt e fa pc ((.ins (.i0 .SETA), t) :: l))
    (h : At s pc (a :: i :: v :: stk) frs w) :
    Once e s (fun (_ : Unit) w' s' => At s' (pc + 1) stk frs w') (Sem.update a i v w) := by
  refine Once.instr h hc rfl M.code (fun _ _ _ h => At.bump h) (does_runs.2 ?_)
  have hs : (fetched s).th.stack = a :: i :: v :: stk := h.stack
  have hx : exec e (some .SETA) (fetched s) = setaCore e a i v ((fetched s).withStack stk) := by
    show doSETA e (fetched s) = _
    unfold doSETA
    rw [vm_bind_ok (pop_cons hs), vm_bind_ok (pop_cons (withStack_stack _ _)),
      vm_bind_ok (pop_cons (withStack_stack _ _)), M.handlers]
    rfl
  have hq := h.fetched.withStack stk
  rw [hx]
  generalize (fetched s).withStack stk = s1 at hq
  refine Runs.look M hq.mem fun av hav => ?_
  have bad : (∀ k, av ≠ .arr k) → Runs ((raise .bad_array_object : VM Val Store Unit) s1)
      (fun (_ : Unit) w' s' => At s' (pc + 1) stk frs w') (match (motive := Val → Res Unit) a with
      | .arr l => Sem.look i w fun iv =>
        match iv with
        | .int k =>
          match w.mem[l]? with
          | none => .fault .ub
          | some elems =>
            if 0 ≤ k.toInt ∧ k.toInt < elems.length then
              Sem.look v w fun _ => .ok () { w with mem := w.mem.set l (elems.set k.toInt.toNat v) }
            else .err .bad_array_bounds w
        | _ => .err .bad_array_index w
      | _ => .err .bad_array_object w) := by
    intro hk
    cases a with
    | arr l =>
      simp only [Val.view] at hav
      split at hav
      · simp at hav; exact (hk _ hav.symm).elim
      · simp at hav
    | _ => exact Runs.raise hq.state
  cases av with
  | arr k =>
    obtain ⟨l, elems, rfl, hl, rfl⟩ := view_arr hav
    refine Runs.look M hq.mem fun iv _ => ?_
    cases iv with
    | int k =>
      have neg : k.toInt < 0 ∨ 0 ≤ k.toInt ∧ k.toInt.toNat = k.toNat := by
        have := BitVec.toInt_eq_toNat_cond k
        split at this <;> omega
      simp only [hl]
      by_cases hk : 0 ≤ k.toInt ∧ k.toInt < elems.length
      · rw [if_pos hk, if_neg (by omega), vm_bind_ok (vm_get s1)]
        obtain ⟨-, hkn⟩ := neg.resolve_left (by omega)
        refine Runs.look M hq.mem fun x hvx => ?_
        have hset : ∀ m : Store, m = s1.mem → e.mem.arrSet m (.arr l) k.toNat v =
            .ok (w.mem.set l (elems.set k.toNat v)) := by
          rintro m rfl
          simp only [M.mem, Mem.abs, Val.arrSet, hq.mem, hl]
          rw [if_pos (by omega)]
        have hfin : ∃ s2, (modify fun s => { s with mem := w.mem.set l (elems.set k.toNat v) } :
            VM Val Store Unit) s1 = .ok ((), s2) ∧ At s2 (pc + 1) stk frs
              { w with mem := w.mem.set l (elems.set k.toInt.toNat v) } := by
          refine ⟨_, rfl, hq.pc, hq.stack, hq.frames, ?_, hq.finished, hq.error⟩
          rw [← hq.state, hkn]
          rfl
        have hcopy : (∀ j, x ≠ .arr j) → copyVal e s1.mem v = .ok (v, s1.mem) := by
          intro hj
          have hv2 : v.view s1.mem = .ok x := by rw [hq.mem]; exact hvx
          cases v <;> simp only [copyVal, M.mem, Mem.abs, Val.view]
          rename_i l2
          simp only [Val.view] at hv2
          split at hv2
          · simp at hv2; exact (hj _ hv2.symm).elim
          · simp at hv2
        cases x with
        | arr j =>
          simp only
          rw [vm_bind_ok (show lift (e.mem.arrSet s1.mem (.arr l) k.toNat v) s1 = .ok (_, s1) by
            rw [hset _ rfl]; rfl)]
          exact hfin
        | _ =>
          simp only
          rw [vm_bind_ok (show lift (copyVal e s1.mem v) s1 = .ok ((v, s1.mem), s1) by
            rw [hcopy (by simp)]; rfl)]
          simp only
          rw [vm_bind_ok (show lift (e.mem.arrSet s1.mem (.arr l) k.toNat v) s1 = .ok (_, s1) by
            rw [hset _ rfl]; rfl)]
          exact hfin
      · rw [if_neg hk, if_pos (by omega)]
        exact Runs.raise hq.state
    | _ => exact Runs.raise hq.state
  | _ => exact bad (by simp)

theorem memberName_eq {i : Nat} {x : Str} (hi : i < 2147483648) (hx : e.prog.strings[i]? = some x)
    (s1 : St Val Store) : memberName e (i32 i) s1 = .ok (x, s1) := by
  unfold memberName
  rw [toInt_i32 hi, if_neg (by omega), toNat_i32 hi, hx]
  rfl

theorem one_getm (M : Mach e cx) {a : Val} {i : Nat} {x : Str} (hi : i < 2147483648)
    (hx : e.prog.strings[i]? = some x) (hc : CodeAt e fa pc ((.ins (.i1 .GETM (i32 i)), t) :: l))
    (h : At s pc (a :: stk) frs w) :
    Once e s (Pushed (pc + 5) stk frs) (Sem.member a x w) := by
  refine Once.instr h hc rfl M.code (fun _ _ _ h => At.bump h) (does_runs.2 ?_)
  have hs : (fetched s).th.stack = a :: stk := h.stack
  show Runs (doGETM e (fetched s)) _ _
  unfold doGETM
  rw [vm_bind_ok (pop_cons hs), vm_bind_ok (operand_at' hc rfl h.pc M.code stk),
    vm_bind_ok (memberName_eq hi hx _)]
  have hq := (h.atPc (pc + 5)).withStack stk
  generalize (atPc s (pc + 5)).withStack stk = s1 at hq
  have hg : getmHandler e a x s1 = raise .bad_member_access s1 := by
    unfold getmHandler; rw [M.handlers]
  refine Runs.look M hq.mem fun av _ => ?_
  cases av with
  | arr k =>
    simp only
    by_cases hk : x = str "length"
    · rw [if_pos hk, if_pos hk]; exact Runs.pushInt M hq
    · rw [if_neg hk, if_neg hk, hg]; exact Runs.raise hq.state
  | _ => simp only [hg]; exact Runs.raise hq.state

theorem one_setm (M : Mach e cx) {a v : Val} {i : Nat} {x : Str} (hi : i < 2147483648)
    (hx : e.prog.strings[i]? = some x) (hc : CodeAt e fa pc ((.ins (.i1 .SETM (i32 i)), t) :: l))
    (h : At s pc (a :: v :: stk) frs w) {α : Type} {good : α → State → St Val Store → Prop}
    (hg : ∀ a w s, good a w s → good a w (bump e s)) :
    Once e s good (.err .bad_member_access w) := by
  refine Once.instr h hc rfl M.code hg (does_runs.2 ?_)
  have hs : (fetched s).th.stack = a :: v :: stk := h.stack
  show Runs (doSETM e (fetched s)) _ _
  unfold doSETM
  rw [vm_bind_ok (pop_cons hs), vm_bind_ok (pop_cons (withStack_stack _ _)),
    withStack_withStack, vm_bind_ok (operand_at' hc rfl h.pc M.code stk),
    vm_bind_ok (memberName_eq hi hx _), M.handlers]
  exact Runs.raise h.state

theorem one_array (M : Mach e cx) {vs : List Val} (hn : vs.length < 2147483648) (hne : vs ≠ [])
    (hc : CodeAt e fa pc ((.ins (.i1 .ARY_INIT (i32 vs.length)), t) :: l))
    (h : At s pc (vs.reverse ++ stk) frs w) : ∃ s', stepImp e s = .ok ((), s') ∧
      At s' (pc + 5) (.arr w.mem.length :: stk) frs { w with mem := w.mem ++ [vs] } := by
  refine step_to h hc rfl M.code (Props.C55_array_literal e M.mem _ _ (i32 vs.length) vs stk
    (operand_at hc rfl h.pc M.code) h.stack (by rw [toInt_i32 hn]) hne) ?_
  refine ⟨rfl, ?_, h.frames, ?_, h.finished, h.error⟩
  · rw [← h.mem]; rfl
  · rw [← h.state]; rfl

/-! ### The stack -/

theorem one_pop (M : Mach e cx) {v : Val} (hc : CodeAt e fa pc ((.ins (.i1 .POP 1), t) :: l))
    (h : At s pc (v :: stk) frs w) : ∃ s', stepImp e s = .ok ((), s') ∧ At s' (pc + 5) stk frs w :=
  step_to h hc rfl M.code (Props.C55_pop e _ _ 1 [v] stk (operand_at hc rfl h.pc M.code) h.stack rfl)
    ((h.atPc _).withStack _)

theorem one_locals (M : Mach e cx) {k : Nat} (hk : k < 2147483648)
    (hc : CodeAt e fa pc ((.ins (.i1 .LOCALS (i32 k)), t) :: l)) (h : At s pc stk frs w) :
    ∃ s', stepImp e s = .ok ((), s') ∧ At s' (pc + 5) (List.replicate k .none ++ stk) frs w := by
  have h1 := Props.C55_locals e _ _ (i32 k) (operand_at hc rfl h.pc M.code)
    (by rw [toInt_i32 hk]; omega)
  rw [toInt_i32 hk, Int.toNat_natCast, M.mem] at h1
  exact step_to h hc rfl M.code h1 (h.stack ▸ (h.atPc _).withStack _)

theorem one_globals (M : Mach e cx) {k : Nat} (hk : k < 2147483648)
    (hc : CodeAt e fa pc ((.ins (.i1 .GLOBALS (i32 k)), t) :: l)) (h : At s pc stk frs w) :
    ∃ s', stepImp e s = .ok ((), s') ∧ At s' (pc + 5) stk frs
      (if k = 0 then w else { w with globals := List.replicate k .none }) := by
  by_cases h0 : k = 0
  · subst h0
    rw [if_pos rfl]
    refine step_to h hc rfl M.code (s1 := atPc s (pc + 5)) ?_ (h.atPc _)
    show doGLOBALS e (fetched s) = _
    unfold doGLOBALS
    rw [vm_bind_ok (operand_at hc rfl h.pc M.code)]
    rfl
  · rw [if_neg h0]
    have h1 := Props.C55_globals e _ _ (i32 k) (operand_at hc rfl h.pc M.code)
      (by rw [toInt_i32 hk]; omega)
    rw [toInt_i32 hk, Int.toNat_natCast, M.mem] at h1
    refine step_to h hc rfl M.code h1 ⟨rfl, h.stack, h.frames, ?_, h.finished, h.error⟩
    rw [← h.state]
    rfl

/-! ### Jumps -/

theorem one_jmp (M : Mach e cx) {k : Nat} (hk : k < 2147483648)
    (hc : CodeAt e fa pc ((.ins (.i1 .JMP (i32 k)), t) :: l)) (h : At s pc stk frs w) :
    ∃ s', stepImp e s = .ok ((), s') ∧ At s' k stk frs w :=
  step_to h hc rfl M.code (Props.C55_jump e _ _ (i32 k) (operand_at hc rfl h.pc M.code))
    ⟨toInt_i32 hk, h.stack, h.frames, h.state, h.finished, h.error⟩

theorem one_tjmp (M : Mach e cx) {k : Nat} {v : Val} (hk : k < 2147483648)
    (hc : CodeAt e fa pc ((.ins (.i1 .TJMP (i32 k)), t) :: l)) (h : At s pc (v :: stk) frs w) :
    Once e s (fun (b : Bool) w' s' => w' = w ∧ At s' (if b then k else pc + 5) stk frs w)
      (Sem.look v w fun x => .ok (Sem.truth cx.fl x) w) := by
  refine Once.instr h hc rfl M.code (fun _ _ _ h => ⟨h.1, At.bump h.2⟩) (does_runs.2 ?_)
  show Runs (doTJMP e (fetched s)) _ _
  unfold doTJMP
  rw [vm_bind_ok (operand_at hc rfl h.pc M.code), vm_bind_ok (pop_cons (h.atPc (pc + 5)).stack)]
  have hq := (h.atPc (pc + 5)).withStack stk
  generalize (atPc s (pc + 5)).withStack stk = s1 at hq
  refine Runs.look M hq.mem fun x _ => ?_
  rw [asBool_truth, M.fl]
  cases Sem.truth cx.fl x with
  | true => exact ⟨_, rfl, rfl, toInt_i32 hk, hq.stack, hq.frames, hq.state, hq.finished, hq.error⟩
  | false => exact ⟨_, rfl, rfl, hq⟩

theorem one_fjmp (M : Mach e cx) {k : Nat} {v : Val} (hk : k < 2147483648)
    (hc : CodeAt e fa pc ((.ins (.i1 .FJMP (i32 k)), t) :: l)) (h : At s pc (v :: stk) frs w) :
    Once e s (fun (b : Bool) w' s' => w' = w ∧ At s' (if b then pc + 5 else k) stk frs w)
      (Sem.look v w fun x => .ok (Sem.truth cx.fl x) w) := by
  refine Once.instr h hc rfl M.code (fun _ _ _ h => ⟨h.1, At.bump h.2⟩) (does_runs.2 ?_)
  show Runs (doFJMP e (fetched s)) _ _
  unfold doFJMP
  rw [vm_bind_ok (operand_at hc rfl h.pc M.code), vm_bind_ok (pop_cons (h.atPc (pc + 5)).stack)]
  have hq := (h.atPc (pc + 5)).withStack stk
  generalize (atPc s (pc + 5)).withStack stk = s1 at hq
  refine Runs.look M hq.mem fun x _ => ?_
  rw [asBool_truth, M.fl]
  cases Sem.truth cx.fl x with
  | false => exact ⟨_, rfl, rfl, toInt_i32 hk, hq.stack, hq.frames, hq.state, hq.finished, hq.error⟩
  | true => exact ⟨_, rfl, rfl, hq⟩

/-! ### Calls -/

/-- Back behind the call. -/
structure Returned (fr : Frame) (outer : List Frame) (below : List Val) (v : Val) (w : State)
    (s : St Val Store) : Prop where
  pc : s.th.pc = fr.ret
  stack : s.th.stack = v :: below
  frames : s.th.frames = outer
  state : stOf s = w
  finished : s.th.finished = (fr.terminal || outer.isEmpty)
  error : s.th.error = .success

theorem Returned.bump {fr outer below v} (h : Returned fr outer below v w s) :
    Returned fr outer below v w (bump e s) := by
  obtain ⟨h1, h2, h3, h4, h5, h6⟩ := checkBreak_same e s.th
  refine ⟨h1.trans h.pc, h2.trans h.stack, h3.trans h.frames, ?_, h4.trans h.finished,
    h5.trans h.error⟩
  rw [← h.state]
  simp [stOf, Ccml.bump, h6]

theorem one_ret (M : Mach e cx) {k : Nat} {v : Val} {top below : List Val} {fr : Frame}
    {outer : List Frame} (hk : k < 2147483648) (ht : top.length = k)
    (hc : CodeAt e fa pc ((.ins (.i1 .RET (i32 k)), t) :: l))
    (h : At s pc (v :: (top ++ below)) (fr :: outer) w) :
    ∃ s', stepImp e s = .ok ((), s') ∧ Returned fr outer below v w s' := by
  have h1 := Props.C28_return e _ _ (i32 k) v top below fr outer (operand_at hc rfl h.pc M.code)
    h.stack (by rw [toInt_i32 hk, ht]) h.frames
  exact ⟨_, step_ok h hc rfl M.code h1,
    Returned.bump ⟨rfl, rfl, rfl, h.state, rfl, h.error⟩⟩

theorem one_call (M : Mach e cx) {k : I32} {f : Str} {q : Nat} (hq : (fa f).toInt = q)
    (hc : CodeAt e fa pc ((.call k f, t) :: l)) (h : At s pc stk frs w) :
    ∃ s', stepImp e s = .ok ((), s') ∧
      At s' q stk (⟨stk.length, (pc + 9 : Nat), q, false⟩ :: frs) w := by
  obtain ⟨s1, h1, h2⟩ := operands_eq hc rfl h.pc M.code
  refine step_to h hc rfl M.code (Props.C28_call e _ _ _ k (fa f) h1 h2)
    ⟨hq, h.stack, ?_, h.state, h.finished, h.error⟩
  show (_ : Frame) :: s.th.frames = _
  rw [h.frames]
  simp only [h.stack, hq]

theorem one_icall (M : Mach e cx) {k : Nat} {a : I32} {q : Nat} {F : Function}
    (hk : k < 2147483648) (hq : a.toInt = q) (hF : e.prog.findByPc a = some F) (hn : F.numArgs = k)
    (hc : CodeAt e fa pc ((.ins (.i1 .ICALL (i32 k)), t) :: l)) (h : At s pc (.func a :: stk) frs w) :
    ∃ s', stepImp e s = .ok ((), s') ∧
      At s' q stk (⟨stk.length, (pc + 5 : Nat), q, false⟩ :: frs) w := by
  have h1 := Props.C55_indirect_call e M.mem _ _ (i32 k) a stk F (operand_at hc rfl h.pc M.code)
    h.stack hF (by rw [toInt_i32 hk, hn])
  refine step_to h hc rfl M.code h1 ⟨hq, rfl, ?_, h.state, h.finished, h.error⟩
  show (_ : Frame) :: s.th.frames = _
  rw [h.frames]
  simp only [hq]
  rfl

theorem one_icall_bad (M : Mach e cx) {k : Nat} {a : I32} {F : Function}
    (hk : k < 2147483648) (hF : e.prog.findByPc a = some F) (hn : F.numArgs ≠ k)
    (hc : CodeAt e fa pc ((.ins (.i1 .ICALL (i32 k)), t) :: l)) (h : At s pc (.func a :: stk) frs w) :
    ∃ s', stepImp e s = .ok ((), s') ∧ Failed s' .bad_num_args w := by
  have h1 : ∃ s1, exec e (some .ICALL) (fetched s) = .ok ((), s1) ∧ Failed s1 .bad_num_args w := by
    simp only [exec, doICALL]
    rw [vm_bind_ok (operand_at hc rfl h.pc M.code), vm_bind_ok (pop_cons (h.atPc (pc + 5)).stack),
      vm_bind_ok (view_ok (v := .func a) (by rw [M.mem]; rfl))]
    simp only [hF]
    rw [if_pos (by rw [toInt_i32 hk]; intro hh; exact hn (by omega))]
    exact ⟨_, rfl, rfl, rfl, h.state⟩
  obtain ⟨s1, h1, h2⟩ := h1
  exact ⟨_, step_ok h hc rfl M.code h1, h2.bump⟩

/-- What a host function in the table does. -/
def hostCall (cx : Sem.Ctx) (j : I32) (args : List Val) (w : State) : Res Val :=
  if j.toInt < 0 then .fault .assert
  else match cx.table[j.toInt.toNat]? with
    | none => .fault .assert
    | some s =>
      match s.call with
      | none => .fault .assert
      | some fn => cx.host fn args w

theorem runs_syscall (M : Mach e cx) {args : List Val} {j : I32} (hn : args.length < 2147483648)
    (h : At s pc (args.reverse ++ stk) frs w) :
    Runs (doSyscall e j (i32 args.length) s) (Pushed pc stk frs) (hostCall cx j args w) := by
  unfold hostCall doSyscall
  have neg : j.toInt < 0 ∨ 0 ≤ j.toInt ∧ j.toInt.toNat = j.toNat := by
    have := BitVec.toInt_eq_toNat_cond j
    split at this <;> omega
  by_cases hj : j.toInt < 0
  · rw [if_pos hj, if_pos hj]; exact rfl
  · rw [if_neg hj, if_neg hj, (neg.resolve_left hj).2, M.table]
    cases cx.table[j.toNat]? with
    | none => exact rfl
    | some sc =>
      simp only
      cases sc.call with
      | none => exact rfl
      | some fn =>
        simp only
        have := M.host fn args stk s hn h.stack h.finished h.error
        rw [h.state] at this
        cases hx : cx.host fn args w with
        | ok v w' =>
          rw [hx] at this
          obtain ⟨s', h1, h2, h3, h4, h5, h6, h7⟩ := this
          exact ⟨s', h1, h3.trans h.pc, h2, h4.trans h.frames, h7, h5, h6⟩
        | err x w' => rw [hx] at this; exact this
        | fault f => rw [hx] at this; exact this
        | timeout => rw [hx] at this; exact this
        | undef => trivial

theorem one_scall (M : Mach e cx) {args : List Val} {j : I32} (hn : args.length < 2147483648)
    (hc : CodeAt e fa pc ((.ins (.i2 .SCALL (i32 args.length) j), t) :: l))
    (h : At s pc (args.reverse ++ stk) frs w) :
    Once e s (Pushed (pc + 9) stk frs) (hostCall cx j args w) := by
  refine Once.instr h hc rfl M.code (fun _ _ _ h => At.bump h) (does_runs.2 ?_)
  obtain ⟨s1, h1, h2⟩ := operands_eq hc rfl h.pc M.code
  show Runs (doSCALL e (fetched s)) _ _
  unfold doSCALL
  rw [vm_bind_ok h1, vm_bind_ok h2]
  exact runs_syscall M hn (h.atPc (pc + 9))

theorem one_icall_sys (M : Mach e cx) {args : List Val} {j : I32} (hn : args.length < 2147483648)
    (hc : CodeAt e fa pc ((.ins (.i1 .ICALL (i32 args.length)), t) :: l))
    (h : At s pc (.syscall j :: (args.reverse ++ stk)) frs w) :
    Once e s (Pushed (pc + 5) stk frs) (hostCall cx j args w) := by
  refine Once.instr h hc rfl M.code (fun _ _ _ h => At.bump h) (does_runs.2 ?_)
  show Runs (doICALL e (fetched s)) _ _
  unfold doICALL
  rw [vm_bind_ok (operand_at hc rfl h.pc M.code), vm_bind_ok (pop_cons (h.atPc (pc + 5)).stack),
    vm_bind_ok (view_ok (v := .syscall j) (by rw [M.mem]; rfl))]
  exact runs_syscall M hn ((h.atPc (pc + 5)).withStack _)

theorem one_icall_none (M : Mach e cx) {k : I32} {α : Type} {good : α → State → St Val Store → Prop}
    (hg : ∀ a w s, good a w s → good a w (bump e s))
    (hc : CodeAt e fa pc ((.ins (.i1 .ICALL k), t) :: l)) (h : At s pc (.none :: stk) frs w) :
    Once e s good (.fault .assert) := by
  refine Once.instr h hc rfl M.code hg (does_runs.2 ?_)
  show doICALL e (fetched s) = _
  unfold doICALL
  rw [vm_bind_ok (operand_at hc rfl h.pc M.code), vm_bind_ok (pop_cons (h.atPc (pc + 5)).stack),
    vm_bind_ok (view_ok (v := .none) (by rw [M.mem]; rfl))]
  rfl

theorem one_icall_other (M : Mach e cx) {k : I32} {v : Val} {α : Type}
    {good : α → State → St Val Store → Prop} (hg : ∀ a w s, good a w s → good a w (bump e s))
    (hc : CodeAt e fa pc ((.ins (.i1 .ICALL k), t) :: l)) (h : At s pc (v :: stk) frs w)
    (h1 : v ≠ .none) (h2 : ∀ a, v ≠ .func a) (h3 : ∀ a, v ≠ .syscall a) :
    Once e s good (Sem.look v w fun _ => .err .bad_type_operation w) := by
  refine Once.instr h hc rfl M.code hg (does_runs.2 ?_)
  show Runs (doICALL e (fetched s)) _ _
  unfold doICALL
  rw [vm_bind_ok (operand_at hc rfl h.pc M.code), vm_bind_ok (pop_cons (h.atPc (pc + 5)).stack)]
  refine Runs.look M (s1 := (atPc s (pc + 5)).withStack stk) h.mem fun x hx => ?_
  cases v <;> simp only [Val.view, Except.ok.injEq, ne_eq, not_true_eq_false] at hx h1
  · subst hx; exact Runs.raise h.state
  · subst hx; exact Runs.raise h.state
  · subst hx; exact Runs.raise h.state
  · split at hx
    · cases hx; exact Runs.raise h.state
    · cases hx
  · exact (h2 _ rfl).elim
  · exact (h3 _ rfl).elim

/-! ### As parts of runs -/

theorem run_int (M : Mach e cx) {v : I32} (hc : CodeAt e fa pc ((.ins (.i1 .NEW_INT v), t) :: l))
    (h : At s pc stk frs w) : ∃ s', Steps e 1 s s' ∧ At s' (pc + 5) (.int v :: stk) frs w :=
  Steps.ofOne h.going (one_int M hc h.awake)

theorem run_float (M : Mach e cx) {v : F32} (hc : CodeAt e fa pc ((.ins (.i1 .NEW_FLT v), t) :: l))
    (h : At s pc stk frs w) : ∃ s', Steps e 1 s s' ∧ At s' (pc + 5) (.float v :: stk) frs w :=
  Steps.ofOne h.going (one_float M hc h.awake)

theorem run_func (M : Mach e cx) {f : Str} (hc : CodeAt e fa pc ((.fn f, t) :: l))
    (hf : 0 ≤ (fa f).toInt) (h : At s pc stk frs w) :
    ∃ s', Steps e 1 s s' ∧ At s' (pc + 5) (.func (fa f) :: stk) frs w :=
  Steps.ofOne h.going (one_func M hc hf h.awake)

theorem run_syscall (M : Mach e cx) {v : I32} (hc : CodeAt e fa pc ((.ins (.i1 .NEW_SCALL v), t) :: l))
    (hv : 0 ≤ v.toInt) (h : At s pc stk frs w) :
    ∃ s', Steps e 1 s s' ∧ At s' (pc + 5) (.syscall v :: stk) frs w :=
  Steps.ofOne h.going (one_syscall M hc hv h.awake)

theorem run_str (M : Mach e cx) {i : Nat} {x : Str}
    (hc : CodeAt e fa pc ((.ins (.i1 .NEW_STR (i32 i)), t) :: l))
    (hi : i < 2147483648) (hx : e.prog.strings[i]? = some x) (h : At s pc stk frs w) :
    ∃ s', Steps e 1 s s' ∧ At s' (pc + 5) (.str x :: stk) frs w :=
  Steps.ofOne h.going (one_str M hc hi hx h.awake)

theorem run_none (M : Mach e cx) (hc : CodeAt e fa pc ((.ins (.i0 .NEW_NONE), t) :: l))
    (h : At s pc stk frs w) : ∃ s', Steps e 1 s s' ∧ At s' (pc + 1) (.none :: stk) frs w :=
  Steps.ofOne h.going (one_none M hc h.awake)

theorem run_getv (M : Mach e cx) {o : I32} {v : Val} {fr : Frame} {outer : List Frame}
    (hc : CodeAt e fa pc ((.ins (.i1 .GETV o), t) :: l)) (h : At s pc stk (fr :: outer) w)
    (hv : stackAt stk (fr.sp + o.toInt) = some v) :
    ∃ s', Steps e 1 s s' ∧ At s' (pc + 5) (v :: stk) (fr :: outer) w :=
  Steps.ofOne h.going (one_getv M hc h.awake hv)

theorem run_setv (M : Mach e cx) {o : I32} {v : Val} {fr : Frame} {outer : List Frame} {i : Nat}
    (hc : CodeAt e fa pc ((.ins (.i1 .SETV o), t) :: l)) (h : At s pc (v :: stk) (fr :: outer) w)
    (hi : (fr.sp : Int) + o.toInt = i) (hlt : i < stk.length) :
    ∃ s', Steps e 1 s s' ∧ At s' (pc + 5) (stackPut stk i v) (fr :: outer) w :=
  Steps.ofOne h.going (one_setv M hc h.awake hi hlt)

theorem run_getg (M : Mach e cx) {i : Nat} (hi : i < 2147483648)
    (hc : CodeAt e fa pc ((.ins (.i1 .GETG (i32 i)), t) :: l)) (h : At s pc stk frs w) :
    Follows e n s (Pushed (pc + 5) stk frs) (match w.globals[i]? with
      | some v => .ok v w
      | none => .err .bad_get_global w) :=
  Once.follows h.going (one_getg M hi hc h.awake)

theorem run_setg (M : Mach e cx) {i : Nat} {v : Val} (hi : i < 2147483648)
    (hc : CodeAt e fa pc ((.ins (.i1 .SETG (i32 i)), t) :: l)) (h : At s pc (v :: stk) frs w) :
    Follows e n s (fun (_ : Unit) w' s' => At s' (pc + 5) stk frs w')
      (if i < w.globals.length then .ok () { w with globals := w.globals.set i v }
       else .err .bad_set_global w) :=
  Once.follows h.going (one_setg M hi hc h.awake)

theorem run_binary (M : Mach e cx) {tok : Tok} {o : Op} {a b : Val} (ho : opIns tok = some o)
    (hc : CodeAt e fa pc ((.ins (.i0 o), t) :: l)) (h : At s pc (b :: a :: stk) frs w) :
    Follows e n s (Pushed (pc + 1) stk frs) (Sem.binaryV cx.fl tok a b w) :=
  Once.follows h.going (one_binary M ho hc h.awake)

theorem run_neg (M : Mach e cx) {a : Val} (hc : CodeAt e fa pc ((.ins (.i0 .NEG), t) :: l))
    (h : At s pc (a :: stk) frs w) :
    Follows e n s (Pushed (pc + 1) stk frs) (Sem.unaryV cx.fl .SUB a w) :=
  Once.follows h.going (one_neg M hc h.awake)

theorem run_not (M : Mach e cx) {a : Val} (hc : CodeAt e fa pc ((.ins (.i0 .NOT), t) :: l))
    (h : At s pc (a :: stk) frs w) :
    Follows e n s (Pushed (pc + 1) stk frs) (Sem.unaryV cx.fl .NOT a w) :=
  Once.follows h.going (one_not M hc h.awake)

theorem run_deref (M : Mach e cx) {a i : Val} (hc : CodeAt e fa pc ((.ins (.i0 .DEREF), t) :: l))
    (h : At s pc (a :: i :: stk) frs w) :
    Follows e n s (Pushed (pc + 1) stk frs) (Sem.index a i w) :=
  Once.follows h.going (one_deref M hc h.awake)

theorem run_seta (M : Mach e cx) {a i v : Val} (hc : CodeAt e fa pc ((.ins (.i0 .SETA), t) :: l))
    (h : At s pc (a :: i :: v :: stk) frs w) :
    Follows e n s (fun (_ : Unit) w' s' => At s' (pc + 1) stk frs w') (Sem.update a i v w) :=
  Once.follows h.going (one_seta M hc h.awake)

theorem run_getm (M : Mach e cx) {a : Val} {i : Nat} {x : Str} (hi : i < 2147483648)
    (hx : e.prog.strings[i]? = some x) (hc : CodeAt e fa pc ((.ins (.i1 .GETM (i32 i)), t) :: l))
    (h : At s pc (a :: stk) frs w) :
    Follows e n s (Pushed (pc + 5) stk frs) (Sem.member a x w) :=
  Once.follows h.going (one_getm M hi hx hc h.awake)

theorem run_setm (M : Mach e cx) {a v : Val} {i : Nat} {x : Str} (hi : i < 2147483648)
    (hx : e.prog.strings[i]? = some x) (hc : CodeAt e fa pc ((.ins (.i1 .SETM (i32 i)), t) :: l))
    (h : At s pc (a :: v :: stk) frs w) {α : Type} {good : α → State → St Val Store → Prop}
    (hg : ∀ a w s, good a w s → good a w (bump e s)) :
    Follows e n s good (.err .bad_member_access w) :=
  Once.follows h.going (one_setm M hi hx hc h.awake hg)

theorem run_array (M : Mach e cx) {vs : List Val} (hn : vs.length < 2147483648) (hne : vs ≠ [])
    (hc : CodeAt e fa pc ((.ins (.i1 .ARY_INIT (i32 vs.length)), t) :: l))
    (h : At s pc (vs.reverse ++ stk) frs w) : ∃ s', Steps e 1 s s' ∧
      At s' (pc + 5) (.arr w.mem.length :: stk) frs { w with mem := w.mem ++ [vs] } :=
  Steps.ofOne h.going (one_array M hn hne hc h.awake)

theorem run_pop (M : Mach e cx) {v : Val} (hc : CodeAt e fa pc ((.ins (.i1 .POP 1), t) :: l))
    (h : At s pc (v :: stk) frs w) : ∃ s', Steps e 1 s s' ∧ At s' (pc + 5) stk frs w :=
  Steps.ofOne h.going (one_pop M hc h.awake)

theorem run_locals (M : Mach e cx) {k : Nat} (hk : k < 2147483648)
    (hc : CodeAt e fa pc ((.ins (.i1 .LOCALS (i32 k)), t) :: l)) (h : At s pc stk frs w) :
    ∃ s', Steps e 1 s s' ∧ At s' (pc + 5) (List.replicate k .none ++ stk) frs w :=
  Steps.ofOne h.going (one_locals M hk hc h.awake)

theorem run_globals (M : Mach e cx) {k : Nat} (hk : k < 2147483648)
    (hc : CodeAt e fa pc ((.ins (.i1 .GLOBALS (i32 k)), t) :: l)) (h : At s pc stk frs w) :
    ∃ s', Steps e 1 s s' ∧ At s' (pc + 5) stk frs
      (if k = 0 then w else { w with globals := List.replicate k .none }) :=
  Steps.ofOne h.going (one_globals M hk hc h.awake)

theorem run_jmp (M : Mach e cx) {k : Nat} (hk : k < 2147483648)
    (hc : CodeAt e fa pc ((.ins (.i1 .JMP (i32 k)), t) :: l)) (h : At s pc stk frs w) :
    ∃ s', Steps e 1 s s' ∧ At s' k stk frs w :=
  Steps.ofOne h.going (one_jmp M hk hc h.awake)

theorem run_tjmp (M : Mach e cx) {k : Nat} {v : Val} (hk : k < 2147483648)
    (hc : CodeAt e fa pc ((.ins (.i1 .TJMP (i32 k)), t) :: l)) (h : At s pc (v :: stk) frs w) :
    Follows e n s (fun (b : Bool) w' s' => w' = w ∧ At s' (if b then k else pc + 5) stk frs w)
      (Sem.look v w fun x => .ok (Sem.truth cx.fl x) w) :=
  Once.follows h.going (one_tjmp M hk hc h.awake)

theorem run_fjmp (M : Mach e cx) {k : Nat} {v : Val} (hk : k < 2147483648)
    (hc : CodeAt e fa pc ((.ins (.i1 .FJMP (i32 k)), t) :: l)) (h : At s pc (v :: stk) frs w) :
    Follows e n s (fun (b : Bool) w' s' => w' = w ∧ At s' (if b then pc + 5 else k) stk frs w)
      (Sem.look v w fun x => .ok (Sem.truth cx.fl x) w) :=
  Once.follows h.going (one_fjmp M hk hc h.awake)

theorem run_ret (M : Mach e cx) {k : Nat} {v : Val} {top below : List Val} {fr : Frame}
    {outer : List Frame} (hk : k < 2147483648) (ht : top.length = k)
    (hc : CodeAt e fa pc ((.ins (.i1 .RET (i32 k)), t) :: l))
    (h : At s pc (v :: (top ++ below)) (fr :: outer) w) :
    ∃ s', Steps e 1 s s' ∧ Returned fr outer below v w s' :=
  Steps.ofOne h.going (one_ret M hk ht hc h.awake)

theorem run_call (M : Mach e cx) {k : I32} {f : Str} {q : Nat} (hq : (fa f).toInt = q)
    (hc : CodeAt e fa pc ((.call k f, t) :: l)) (h : At s pc stk frs w) :
    ∃ s', Steps e 1 s s' ∧
      At s' q stk (⟨stk.length, (pc + 9 : Nat), q, false⟩ :: frs) w :=
  Steps.ofOne h.going (one_call M hq hc h.awake)

theorem run_icall (M : Mach e cx) {k : Nat} {a : I32} {q : Nat} {F : Function}
    (hk : k < 2147483648) (hq : a.toInt = q) (hF : e.prog.findByPc a = some F) (hn : F.numArgs = k)
    (hc : CodeAt e fa pc ((.ins (.i1 .ICALL (i32 k)), t) :: l)) (h : At s pc (.func a :: stk) frs w) :
    ∃ s', Steps e 1 s s' ∧
      At s' q stk (⟨stk.length, (pc + 5 : Nat), q, false⟩ :: frs) w :=
  Steps.ofOne h.going (one_icall M hk hq hF hn hc h.awake)

theorem run_icall_bad (M : Mach e cx) {k : Nat} {a : I32} {F : Function}
    (hk : k < 2147483648) (hF : e.prog.findByPc a = some F) (hn : F.numArgs ≠ k)
    (hc : CodeAt e fa pc ((.ins (.i1 .ICALL (i32 k)), t) :: l)) (h : At s pc (.func a :: stk) frs w) :
    ∃ s', Steps e 1 s s' ∧ Failed s' .bad_num_args w :=
  Steps.ofOne h.going (one_icall_bad M hk hF hn hc h.awake)

theorem run_scall (M : Mach e cx) {args : List Val} {j : I32} (hn : args.length < 2147483648)
    (hc : CodeAt e fa pc ((.ins (.i2 .SCALL (i32 args.length) j), t) :: l))
    (h : At s pc (args.reverse ++ stk) frs w) :
    Follows e n s (Pushed (pc + 9) stk frs) (hostCall cx j args w) :=
  Once.follows h.going (one_scall M hn hc h.awake)

theorem run_icall_sys (M : Mach e cx) {args : List Val} {j : I32} (hn : args.length < 2147483648)
    (hc : CodeAt e fa pc ((.ins (.i1 .ICALL (i32 args.length)), t) :: l))
    (h : At s pc (.syscall j :: (args.reverse ++ stk)) frs w) :
    Follows e n s (Pushed (pc + 5) stk frs) (hostCall cx j args w) :=
  Once.follows h.going (one_icall_sys M hn hc h.awake)

theorem run_icall_none (M : Mach e cx) {k : I32} {α : Type} {good : α → State → St Val Store → Prop}
    (hg : ∀ a w s, good a w s → good a w (bump e s))
    (hc : CodeAt e fa pc ((.ins (.i1 .ICALL k), t) :: l)) (h : At s pc (.none :: stk) frs w) :
    Follows e n s good (.fault .assert) :=
  Once.follows h.going (one_icall_none M hg hc h.awake)

theorem run_icall_other (M : Mach e cx) {k : I32} {v : Val} {α : Type}
    {good : α → State → St Val Store → Prop} (hg : ∀ a w s, good a w s → good a w (bump e s))
    (hc : CodeAt e fa pc ((.ins (.i1 .ICALL k), t) :: l)) (h : At s pc (v :: stk) frs w)
    (h1 : v ≠ .none) (h2 : ∀ a, v ≠ .func a) (h3 : ∀ a, v ≠ .syscall a) :
    Follows e n s good (Sem.look v w fun _ => .err .bad_type_operation w) :=
  Once.follows h.going (one_icall_other M hg hc h.awake h1 h2 h3)

end

end Ccml
