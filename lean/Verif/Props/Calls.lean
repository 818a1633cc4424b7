import Verif.Props.Thread
/-!
Control flow of the machine: C28 (calls and returns), C51 (which opcodes may branch).
-/
set_option linter.unusedSimpArgs false
set_option linter.unusedVariables false
namespace Ccml.Props
open Ccml
variable {P M : Type} {α β : Type}

/-! ### C28 Calls and returns -/

/-- C28: a call leaves the stack alone, and opens a frame that remembers the stack height and the
position behind the call. -/
theorem C28_call (e : Env P M) (s s1 s2 : St P M) (n callee : I32)
    (h1 : readOperand e s = .ok (n, s1)) (h2 : readOperand e s1 = .ok (callee, s2)) :
    exec e (some .CALL) s = .ok ((), { s2 with th := { s2.th with
      pc := callee.toInt
      frames := { sp := s2.th.stack.length, ret := s2.th.pc, callee := callee.toInt,
                  terminal := false } :: s2.th.frames } }) := by
  simp only [exec, doCALL]
  rw [vm_bind_ok h1, vm_bind_ok h2]
  rfl

/-- C28: a return drops the callee's arguments and locals (as many values as its operand says),
leaves the returned value in their place, and continues behind the call in the caller's frame. -/
theorem C28_return (e : Env P M) (s s1 : St P M) (k : I32) (v : P) (mine rest : List P)
    (f : Frame) (fs : List Frame) (h1 : readOperand e s = .ok (k, s1))
    (hs : s1.th.stack = v :: (mine ++ rest)) (hk : (mine.length : Int) = k.toInt)
    (hf : s1.th.frames = f :: fs) :
    exec e (some .RET) s = .ok ((), { s1 with th := { s1.th with
      stack := v :: rest
      pc := f.ret
      frames := fs
      finished := f.terminal || fs.isEmpty } }) := by
  have hkn : k.toNat = mine.length := by
    have := BitVec.toInt_eq_toNat_cond k
    split at this <;> omega
  simp only [exec, doRET]
  rw [vm_bind_ok h1, vm_bind_ok (pop_cons hs)]
  rw [vm_bind_ok (show getTh (s1.withStack (mine ++ rest)) = .ok (_, _) from rfl),
    if_neg (by rw [withStack_stack]; simp; omega)]
  have hd : discard k.toNat (s1.withStack (mine ++ rest)) = .ok ((), s1.withStack rest) := by
    unfold discard
    rw [withStack_stack, if_pos (by simp; omega), hkn, List.drop_left]
    rfl
  simp only [vm_bind, hd, push, modTh, leave, withStack_stack]
  have : (s1.withStack rest).th.frames = f :: fs := hf
  simp only [this]
  rw [if_neg (by simp)]
  simp only [jump, modTh]
  rfl

/-- C28: with fewer values on the stack than it is to drop, a return stops the thread instead. -/
theorem C28_return_underflow (e : Env P M) (s s1 : St P M) (k : I32) (v : P) (rest : List P)
    (h1 : readOperand e s = .ok (k, s1)) (hs : s1.th.stack = v :: rest)
    (hk : (rest.length : Int) < k.toInt) :
    exec e (some .RET) s = .ok ((), { s1 with th := { s1.th with
      stack := rest, error := .stack_underflow, finished := true } }) := by
  simp only [exec, doRET]
  rw [vm_bind_ok h1, vm_bind_ok (pop_cons hs)]
  rw [vm_bind_ok (show getTh (s1.withStack rest) = .ok (_, _) from rfl),
    if_pos (by rw [withStack_stack]; exact hk)]
  rfl

theorem stackAt_mid (above : List P) (v : P) (below : List P) (i : Int)
    (hi : i = below.length) : stackAt (above ++ v :: below) i = some v := by
  unfold stackAt
  rw [if_pos (by omega), hi]
  simp

theorem stackPut_mid (above : List P) (v w : P) (below : List P) (i : Nat)
    (hi : i = below.length) : stackPut (above ++ v :: below) i w = above ++ w :: below := by
  unfold stackPut
  subst hi
  simp

/-- C28: reading the variable at offset `o` of the current frame pushes the value that lies `o`
places above the frame's base (below it for parameters). -/
theorem C28_read_variable (e : Env P M) (s s1 : St P M) (o : I32) (above below : List P) (v : P)
    (f : Frame) (fs : List Frame) (h1 : readOperand e s = .ok (o, s1))
    (hs : s1.th.stack = above ++ v :: below) (hf : s1.th.frames = f :: fs)
    (ho : (f.sp : Int) + o.toInt = below.length) :
    exec e (some .GETV) s = .ok ((), s1.withStack (v :: above ++ v :: below)) := by
  have hc : curFrame s1 = .ok (f, s1) := by simp only [curFrame, hf]
  have hg : stackGet e (f.sp + o.toInt) s1 = .ok (v, s1) := by
    simp only [stackGet, hs, stackAt_mid above v below _ ho]
  simp only [exec, doGETV]
  rw [vm_bind_ok h1, vm_bind_ok hc, vm_bind_ok hg]
  simp only [push, modTh, hs]
  rfl

/-- C28: writing it replaces exactly that value. -/
theorem C28_write_variable (e : Env P M) (s s1 : St P M) (o : I32) (above below : List P) (v w : P)
    (f : Frame) (fs : List Frame) (h1 : readOperand e s = .ok (o, s1))
    (hs : s1.th.stack = w :: above ++ v :: below) (hf : s1.th.frames = f :: fs)
    (ho : (f.sp : Int) + o.toInt = below.length) :
    exec e (some .SETV) s = .ok ((), s1.withStack (above ++ w :: below)) := by
  have hp : pop s1 = .ok (w, s1.withStack (above ++ v :: below)) := pop_cons (by simpa using hs)
  have hc : curFrame (s1.withStack (above ++ v :: below)) =
      .ok (f, s1.withStack (above ++ v :: below)) := by
    unfold curFrame
    rw [show (s1.withStack (above ++ v :: below)).th.frames = f :: fs from hf]
  simp only [exec, doSETV]
  rw [vm_bind_ok h1, vm_bind_ok hp, vm_bind_ok hc]
  unfold stackSet
  rw [withStack_stack, if_pos (by simp; omega), ho,
    stackPut_mid above v w below _ (Int.toNat_natCast _)]
  rfl

/-- C28: outside the stack both stop the thread. -/
theorem C28_bad_variable (e : Env P M) (s s1 : St P M) (o : I32)
    (f : Frame) (fs : List Frame) (h1 : readOperand e s = .ok (o, s1))
    (hf : s1.th.frames = f :: fs) (w : P) (rest : List P) (hs : s1.th.stack = w :: rest)
    (ho : (f.sp : Int) + o.toInt < 0 ∨ (s1.th.stack.length : Int) ≤ f.sp + o.toInt) :
    (∃ s2, exec e (some .GETV) s = .ok ((), s2) ∧ s2.th.error = .bad_getv ∧
      s2.th.finished = true) ∧
    (∃ s2, exec e (some .SETV) s = .ok ((), s2) ∧ s2.th.error = .bad_setv ∧
      s2.th.finished = true) := by
  constructor
  · have hc : curFrame s1 = .ok (f, s1) := by simp only [curFrame, hf]
    have hn : stackAt s1.th.stack (f.sp + o.toInt) = none := by
      unfold stackAt
      split
      · rw [List.getElem?_eq_none]
        rw [List.length_reverse]; omega
      · rfl
    have hg : stackGet e (f.sp + o.toInt) s1 = .ok (e.mem.nil, { s1 with th := { s1.th with
        error := .bad_getv, finished := true } }) := by
      simp only [stackGet, hn, raise, modTh]
    simp only [exec, doGETV]
    rw [vm_bind_ok h1, vm_bind_ok hc, vm_bind_ok hg]
    exact ⟨_, rfl, rfl, rfl⟩
  · have hc : curFrame (s1.withStack rest) = .ok (f, s1.withStack rest) := by
      unfold curFrame
      rw [show (s1.withStack rest).th.frames = f :: fs from hf]
    simp only [exec, doSETV]
    rw [vm_bind_ok h1, vm_bind_ok (pop_cons hs), vm_bind_ok hc]
    unfold stackSet
    rw [withStack_stack, if_neg (by rw [hs] at ho; simp at ho; omega)]
    exact ⟨_, rfl, rfl, rfl⟩

/-- A call with one argument, returning it: the frame, the argument and the caller's value below. -/
example : exec (toyEnv (Op.RET.code :: le32 1)) (some .RET)
    (atPc { toySt [.int 9, .int 5, .none] with th := { (toySt [.int 9, .int 5, .none]).th with
      frames := [⟨2, 77, 10, false⟩, ⟨0, 0, 0, true⟩] } } 1) =
    .ok ((), atPc (toySt [.int 9, .none]) 77) :=
  C28_return (toyEnv (Op.RET.code :: le32 1)) _
    (atPc { toySt [.int 9, .int 5, .none] with th := { (toySt [.int 9, .int 5, .none]).th with
      frames := [⟨2, 77, 10, false⟩, ⟨0, 0, 0, true⟩] } } 5) 1 (.int 9) [.int 5] [.none] ⟨2, 77, 10, false⟩
    [⟨0, 0, 0, true⟩] rfl rfl rfl rfl

/-! ### C51 Branching opcodes -/

/-- `x` moves the program counter forward by `d`. -/
structure Moves (d : Int) (x : VM P M α) : Prop where
  run : ∀ s a s', x s = .ok (a, s') → s'.th.pc = s.th.pc + d

theorem Moves.pure (a : α) : Moves 0 (Pure.pure a : VM P M α) :=
  ⟨fun s b s' h => by cases h; simp⟩

theorem Moves.bind {d d' : Int} {x : VM P M α} {f : α → VM P M β} (hx : Moves d x)
    (hf : ∀ a, Moves d' (f a)) : Moves (d + d') (x >>= f) := by
  refine ⟨fun s b s' h => ?_⟩
  rw [vm_bind] at h
  split at h
  · rename_i a s1 h1
    rw [(hf a).run _ _ _ h, hx.run _ _ _ h1, Int.add_assoc]
  · cases h

theorem Moves.bind0 {d : Int} {x : VM P M α} {f : α → VM P M β} (hx : Moves 0 x)
    (hf : ∀ a, Moves d (f a)) : Moves d (x >>= f) := by
  have := Moves.bind hx hf
  rwa [Int.zero_add] at this

theorem Moves.fault (d : Int) (f : Fault) : Moves d (fault f : VM P M α) :=
  ⟨fun s a s' h => by cases h⟩

theorem Moves.lift (o : Out α) : Moves 0 (lift o : VM P M α) := by
  refine ⟨fun s a s' h => ?_⟩
  unfold Ccml.lift at h
  split at h <;> cases h
  simp

theorem Moves.getTh : Moves 0 (getTh : VM P M (Thread P)) := ⟨fun s a s' h => by cases h; simp⟩
theorem Moves.get : Moves 0 (MonadState.get : VM P M (St P M)) := ⟨fun s a s' h => by cases h; simp⟩
theorem Moves.raise (x : TErr) : Moves 0 (raise x : VM P M Unit) := ⟨fun s a s' h => by cases h; simp⟩
theorem Moves.push (v : P) : Moves 0 (push v : VM P M Unit) := ⟨fun s a s' h => by cases h; simp⟩
theorem Moves.reserve (e : Env P M) (n : Nat) : Moves 0 (reserve e n) :=
  ⟨fun s a s' h => by cases h; simp⟩

theorem Moves.modify (f : St P M → St P M) (h : ∀ s, (f s).th.pc = s.th.pc) :
    Moves 0 (modify f : VM P M Unit) := ⟨fun s a s' hx => by cases hx; simp [h]⟩

theorem Moves.pop : Moves 0 (pop : VM P M P) := by
  refine ⟨fun s a s' h => ?_⟩
  unfold Ccml.pop at h
  split at h <;> cases h
  simp

theorem Moves.pushNew (f : M → Out (P × M)) : Moves 0 (pushNew f) := by
  refine ⟨fun s a s' h => ?_⟩
  unfold Ccml.pushNew at h
  split at h <;> cases h
  simp

theorem Moves.view (e : Env P M) (p : P) : Moves 0 (view e p) :=
  ⟨fun _ _ _ h => (Moves.lift _).run _ _ _ h⟩

theorem Moves.curFrame : Moves 0 (curFrame : VM P M Frame) := by
  refine ⟨fun s a s' h => ?_⟩
  unfold Ccml.curFrame at h
  split at h <;> cases h
  simp

theorem Moves.stackGet (e : Env P M) (i : Int) : Moves 0 (stackGet e i) := by
  refine ⟨fun s a s' h => ?_⟩
  unfold Ccml.stackGet at h
  split at h
  · cases h; simp
  · simp only [Ccml.raise, modTh] at h
    cases h; simp

theorem Moves.stackSet (i : Int) (v : P) : Moves 0 (stackSet i v : VM P M Unit) := by
  refine ⟨fun s a s' h => ?_⟩
  unfold Ccml.stackSet at h
  split at h
  · cases h; simp
  · exact (Moves.raise _).run _ _ _ h

theorem Moves.setGlobals (g : List P) :
    Moves 0 (fun s => .ok ((), { s with globals := g }) : VM P M Unit) :=
  ⟨fun s a s' h => by cases h; simp⟩

theorem Moves.readOperand (e : Env P M) : Moves 4 (readOperand e) := by
  refine ⟨fun s a s' h => ?_⟩
  unfold Ccml.readOperand at h
  split at h
  · cases h
  · split at h
    · cases h
    · split at h <;> cases h
      simp

theorem Moves.operand {e : Env P M} {f : I32 → VM P M β} (hf : ∀ a, Moves 0 (f a)) :
    Moves 4 (Ccml.readOperand e >>= f) := Moves.bind (d' := 0) (Moves.readOperand e) hf

theorem Moves.operand2 {e : Env P M} {f : I32 → VM P M β} (hf : ∀ a, Moves 4 (f a)) :
    Moves 8 (Ccml.readOperand e >>= f) := Moves.bind (d' := 4) (Moves.readOperand e) hf

/-- Host functions and handlers leave the program counter alone. -/
structure HostMoves (e : Env P M) : Prop where
  native : ∀ f n, Moves 0 (e.native f n)
  memberGet : ∀ h, e.handlers.onMemberGet = some h → ∀ a b, Moves 0 (h a b)
  memberSet : ∀ h, e.handlers.onMemberSet = some h → ∀ a b c, Moves 0 (h a b c)
  arrayGet : ∀ h, e.handlers.onArrayGet = some h → ∀ a b, Moves 0 (h a b)
  arraySet : ∀ h, e.handlers.onArraySet = some h → ∀ a b c, Moves 0 (h a b c)
  equals : ∀ h, e.handlers.onEquals = some h → ∀ a b, Moves 0 (h a b)
  add : ∀ h, e.handlers.onAdd = some h → ∀ a b, Moves 0 (h a b)
  sub : ∀ h, e.handlers.onSub = some h → ∀ a b, Moves 0 (h a b)
  mul : ∀ h, e.handlers.onMul = some h → ∀ a b, Moves 0 (h a b)
  div : ∀ h, e.handlers.onDiv = some h → ∀ a b, Moves 0 (h a b)

macro "moves" : tactic => `(tactic| repeat' with_reducible (first
  | intro _
  | exact Moves.pure _ | exact Moves.fault _ _ | exact Moves.lift _ | exact Moves.getTh
  | exact Moves.get | exact Moves.raise _ | exact Moves.push _ | exact Moves.pop
  | exact Moves.pushNew _ | exact Moves.view _ _ | exact Moves.curFrame
  | exact Moves.stackGet _ _ | exact Moves.stackSet _ _ | exact Moves.reserve _ _
  | exact Moves.setGlobals _
  | exact Moves.modify _ (fun _ => by rfl)
  | refine Moves.operand2 ?_
  | refine Moves.operand ?_
  | refine Moves.bind0 ?_ ?_
  | split))

theorem tryHandler_moves {h : Option (P → P → VM P M Bool)}
    (hh : ∀ f, h = some f → ∀ a b, Moves 0 (f a b)) (l r : P) : Moves 0 (tryHandler h l r) := by
  unfold tryHandler
  split
  · rename_i f
    exact Moves.bind0 (hh f rfl l r) fun b => by moves
  · moves

theorem popN_moves (n : Nat) : Moves 0 (popN n : VM P M Unit) := by
  induction n with
  | zero => exact Moves.pure _
  | succ n ih => exact Moves.bind0 Moves.pop fun _ => ih

theorem fillArray_moves (e : Env P M) (a : P) (n : Nat) : Moves 0 (fillArray e a n) := by
  induction n with
  | zero => exact Moves.pure _
  | succ n ih =>
    unfold fillArray
    moves
    exact ih

/-- Every opcode with the bytes of operands the code generator gives it. -/
inductive OperandBytes : Op → Int → Prop
  | none {o bs} : emit0 o = .ok bs → OperandBytes o 0
  | one {o a bs} : emit1 o a = .ok bs → OperandBytes o 4
  | two {o a b bs} : emit2 o a b = .ok bs → OperandBytes o 8

/-- C51 (partial): an opcode not classified as branching, other than ICALL, always continues with
the instruction behind it.  Missing: ICALL, see `C51_will_branch_wrong`. -/
theorem C51_will_branch_partial (e : Env P M) (hh : HostMoves e) (o : Op) (d : Int)
    (hd : OperandBytes o d) (hb : o.willBranch = false) (hi : o ≠ .ICALL) (s s' : St P M)
    (h : exec e (some o) s = .ok ((), s')) : s'.th.pc = s.th.pc + d := by
  have hsys : ∀ a b, Moves 0 (doSyscall e a b) := by
    intro a b; unfold doSyscall
    split
    · moves
    · split
      · moves
      · split
        · moves
        · exact hh.native _ _
  have hgetm : ∀ a b, Moves 0 (getmHandler e a b) := by
    intro a b; unfold getmHandler
    split
    · rename_i h hq
      exact Moves.bind0 (hh.memberGet h hq _ _) (fun b => by moves)
    · moves
  suffices hm : Moves d (exec e (some o)) from hm.run _ _ _ h
  clear h
  cases hd with
  | none hd =>
    revert hd hb hi
    cases o <;> intro hb hi hd <;> (first | (exfalso; revert hb; decide) | exact absurd rfl hi |
        (exfalso; simp [emit0, emit1, emit2, Op.emits0, Op.emits1, Op.emits2] at hd; done) | skip) <;>
      simp only [exec, doADD, doSUB, doMUL, doDIV, doMOD, doAND, doOR, doNOT, doNEG, doLT, doGT,
        doLEQ, doGEQ, doCompare, doEQ, doNEW_NONE, doDEREF, derefCore, doSETA, setaCore,
        pushInt, pushFloat, pushStr, pushFunc, pushSyscall, pushBool] <;>
      moves
    all_goals first
      | exact tryHandler_moves hh.add _ _
      | exact tryHandler_moves hh.sub _ _
      | exact tryHandler_moves hh.mul _ _
      | exact tryHandler_moves hh.div _ _
      | exact tryHandler_moves hh.equals _ _
      | exact hh.arrayGet _ (by assumption) _ _
      | exact hh.arraySet _ (by assumption) _ _ _
  | one hd =>
    revert hd hb hi
    cases o <;> intro hb hi hd <;> (first | (exfalso; revert hb; decide) | exact absurd rfl hi |
        (exfalso; simp [emit0, emit1, emit2, Op.emits0, Op.emits1, Op.emits2] at hd; done) | skip) <;>
      simp only [exec, doPOP, doNEW_INT, doNEW_STR, doNEW_ARY, doNEW_FLT, doNEW_FUNC, doNEW_SCALL,
        doGLOBALS, doLOCALS, doGETV, doSETV, doGETG, doSETG, memberName, doSETM, doGETM, doARY_INIT,
        pushInt, pushFloat, pushStr, pushFunc, pushSyscall, pushBool] <;>
      moves
    all_goals first
      | exact popN_moves _
      | exact fillArray_moves _ _ _
      | exact hgetm _ _
      | exact hh.memberSet _ (by assumption) _ _ _
  | two hd =>
    revert hd hb hi
    cases o <;> intro hb hi hd <;> (first | (exfalso; revert hb; decide) | exact absurd rfl hi |
        (exfalso; simp [emit0, emit1, emit2, Op.emits0, Op.emits1, Op.emits2] at hd; done) | skip) <;>
      simp only [exec, doSCALL] <;> moves
    all_goals exact hsys _ _

/-- C51: the violation.  ICALL is not classified as branching but enters the called function. -/
theorem C51_will_branch_wrong : Op.willBranch .ICALL = false ∧
    ∃ (e : Env Val Store) (s s' : St Val Store), HostMoves e ∧ OperandBytes .ICALL 4 ∧
      exec e (some .ICALL) s = .ok ((), s') ∧ s'.th.pc ≠ s.th.pc + 4 := by
  refine ⟨rfl, { Env.std { Program.empty with
      code := Op.ICALL.code :: le32 0
      functions := [⟨str "f", 0, 5, [], []⟩] } toyFl Mem.abs with native := fun _ _ => fault .ub },
    atPc (toySt [.func 0]) 1, _, ?_, .one (a := 0) rfl, rfl, by decide⟩
  exact ⟨fun _ _ => Moves.fault _ _, nofun, nofun, nofun, nofun, nofun, nofun, nofun, nofun, nofun⟩

/-- C51: each opcode classified as branching can leave the straight line. -/
theorem C51_will_branch_can (o : Op) (d : Int) (hd : OperandBytes o d) (hb : o.willBranch = true) :
    ∃ (e : Env Val Store) (s s' : St Val Store), exec e (some o) s = .ok ((), s') ∧
      s'.th.pc ≠ s.th.pc + d := by
  let e : Env Val Store := toyEnv (o.code :: le32 50 ++ le32 50)
  have d1 : ∀ bs a, emit1 o a = .ok bs → d = 4 := by
    intro bs a h1
    cases hd with
    | none h => revert h h1; cases o <;> (intro h1 h; first | (exfalso; simp [emit0, emit1, emit2, Op.emits0, Op.emits1, Op.emits2] at h; done) | (exfalso; simp [emit0, emit1, emit2, Op.emits0, Op.emits1, Op.emits2] at h1; done))
    | one h => rfl
    | two h => revert h h1; cases o <;> (intro h1 h; first | (exfalso; simp [emit0, emit1, emit2, Op.emits0, Op.emits1, Op.emits2] at h; done) | (exfalso; simp [emit0, emit1, emit2, Op.emits0, Op.emits1, Op.emits2] at h1; done))
  have d2 : ∀ bs a b, emit2 o a b = .ok bs → d = 8 := by
    intro bs a b h1
    cases hd with
    | none h => revert h h1; cases o <;> (intro h1 h; first | (exfalso; simp [emit0, emit1, emit2, Op.emits0, Op.emits1, Op.emits2] at h; done) | (exfalso; simp [emit0, emit1, emit2, Op.emits0, Op.emits1, Op.emits2] at h1; done))
    | one h => revert h h1; cases o <;> (intro h1 h; first | (exfalso; simp [emit0, emit1, emit2, Op.emits0, Op.emits1, Op.emits2] at h; done) | (exfalso; simp [emit0, emit1, emit2, Op.emits0, Op.emits1, Op.emits2] at h1; done))
    | two h => rfl
  cases o <;> try cases hb
  · rw [d1 _ 0 rfl]; exact ⟨e, atPc (toySt []) 1, _, rfl, by decide⟩
  · rw [d1 _ 0 rfl]; exact ⟨e, atPc (toySt [.int 1]) 1, _, rfl, by decide⟩
  · rw [d1 _ 0 rfl]; exact ⟨e, atPc (toySt [.int 0]) 1, _, rfl, by decide⟩
  · rw [d2 _ 0 0 rfl]; exact ⟨e, atPc (toySt []) 1, _, rfl, by decide⟩
  · rw [d1 _ 0 rfl]
    exact ⟨toyEnv (Op.RET.code :: le32 0), atPc (toySt [.int 1]) 1, _, rfl, by decide⟩

end Ccml.Props
