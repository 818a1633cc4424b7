import Verif.Frame
/-!
Where the program counter is after an instruction.
-/
namespace Ccml
variable {P M : Type} {α β : Type}

/-- `x` moves the program counter by `k`. -/
structure Adv (k : Int) (x : VM P M α) : Prop where
  run : ∀ s a s', x s = .ok (a, s') → s'.th.pc = s.th.pc + k

theorem Adv.pure (a : α) : Adv 0 (Pure.pure a : VM P M α) := by
  refine ⟨fun s b s' h => ?_⟩; cases h; simp

theorem Adv.bind {x : VM P M α} {f : α → VM P M β} {k : Int} (hx : Adv 0 x) (hf : ∀ a, Adv k (f a)) :
    Adv k (x >>= f) := by
  refine ⟨fun s b s' h => ?_⟩
  rw [vm_bind] at h
  split at h
  · rename_i a s1 h1
    rw [(hf a).run _ _ _ h, hx.run _ _ _ h1]
    omega
  · cases h

theorem Adv.fault (f : Fault) {k : Int} : Adv k (fault f : VM P M α) := by
  refine ⟨fun s a s' h => ?_⟩; cases h

theorem Adv.lift (o : Out α) : Adv 0 (lift o : VM P M α) := by
  refine ⟨fun s a s' h => ?_⟩
  unfold Ccml.lift at h
  split at h <;> cases h
  simp

theorem Adv.modTh {f : Thread P → Thread P} (hf : ∀ t, (f t).pc = t.pc) : Adv 0 (modTh f : VM P M Unit) := by
  refine ⟨fun s a s' h => ?_⟩
  cases h
  simp [hf]

theorem Adv.getTh : Adv 0 (getTh : VM P M (Thread P)) := by
  refine ⟨fun s a s' h => ?_⟩; cases h; simp

theorem Adv.get : Adv 0 (MonadState.get : VM P M (St P M)) := by
  refine ⟨fun s a s' h => ?_⟩; cases h; simp

theorem Adv.raise (x : TErr) : Adv 0 (raise x : VM P M Unit) := Adv.modTh fun _ => rfl

theorem Adv.push (v : P) : Adv 0 (push v : VM P M Unit) := Adv.modTh fun _ => rfl

theorem Adv.reserve (e : Env P M) (n : Nat) : Adv 0 (reserve e n) := Adv.modTh fun _ => rfl

theorem Adv.pop : Adv 0 (pop : VM P M P) := by
  refine ⟨fun s a s' h => ?_⟩
  unfold Ccml.pop at h
  split at h <;> cases h
  simp

theorem Adv.discard (n : Nat) : Adv 0 (discard n : VM P M Unit) := by
  refine ⟨fun s a s' h => ?_⟩
  unfold Ccml.discard at h
  split at h <;> cases h
  simp

theorem Adv.pushNew (f : M → Out (P × M)) : Adv 0 (pushNew f) := by
  refine ⟨fun s a s' h => ?_⟩
  unfold Ccml.pushNew at h
  split at h <;> cases h
  simp

theorem Adv.view (e : Env P M) (p : P) : Adv 0 (view e p) := by
  refine ⟨fun s a s' h => ?_⟩
  exact (Adv.lift _).run _ _ _ h

theorem Adv.curFrame : Adv 0 (curFrame : VM P M Frame) := by
  refine ⟨fun s a s' h => ?_⟩
  unfold Ccml.curFrame at h
  split at h <;> cases h
  simp

theorem Adv.stackGet (e : Env P M) (i : Int) : Adv 0 (stackGet e i) := by
  refine ⟨fun s a s' h => ?_⟩
  unfold Ccml.stackGet at h
  split at h
  · cases h; simp
  · cases h; simp

theorem Adv.stackSet (i : Int) (v : P) : Adv 0 (stackSet i v : VM P M Unit) := by
  refine ⟨fun s a s' h => ?_⟩
  unfold Ccml.stackSet at h
  split at h
  · cases h; simp
  · exact (Adv.raise _).run _ _ _ h

theorem Adv.setMem (m : M) : Adv 0 (modify fun s => { s with mem := m } : VM P M Unit) := by
  refine ⟨fun s a s' h => ?_⟩; cases h; simp

theorem Adv.setGlobal (i : Nat) (v : P) :
    Adv 0 (modify fun s => { s with globals := s.globals.set i v } : VM P M Unit) := by
  refine ⟨fun s a s' h => ?_⟩; cases h; simp

theorem Adv.setGlobals (g : List P) :
    Adv 0 (fun s => .ok ((), { s with globals := g }) : VM P M Unit) := by
  refine ⟨fun s a s' h => ?_⟩; cases h; simp

theorem Adv.modIo (f : Io → Io) : Adv 0 (modIo f : VM P M Unit) := by
  refine ⟨fun s a s' h => ?_⟩; cases h; simp

theorem Adv.getIo : Adv 0 (getIo : VM P M Io) := by
  refine ⟨fun s a s' h => ?_⟩; cases h; simp

theorem Adv.readOperand (e : Env P M) : Adv 4 (readOperand e) := by
  refine ⟨fun s a s' h => ?_⟩
  unfold Ccml.readOperand at h
  split at h
  · cases h
  · split at h
    · cases h
    · split at h <;> cases h
      rfl

theorem Adv.read4 {e : Env P M} {f : I32 → VM P M β} (hf : ∀ a, Adv 0 (f a)) : Adv 4 (Ccml.readOperand e >>= f) := by
  refine ⟨fun s b s' h => ?_⟩
  rw [vm_bind] at h
  split at h
  · rename_i a s1 h1
    rw [(hf a).run _ _ _ h, (Adv.readOperand e).run _ _ _ h1]
    omega
  · cases h

theorem Adv.read8 {e : Env P M} {f : I32 → VM P M β} (hf : ∀ a, Adv 4 (f a)) : Adv 8 (Ccml.readOperand e >>= f) := by
  refine ⟨fun s b s' h => ?_⟩
  rw [vm_bind] at h
  split at h
  · rename_i a s1 h1
    rw [(hf a).run _ _ _ h, (Adv.readOperand e).run _ _ _ h1]
    omega
  · cases h

/-- Decompose a machine program into its primitives. -/
macro "adv" : tactic => `(tactic|
  repeat' (first
    | with_reducible exact Adv.pure _
    | with_reducible exact Adv.fault _
    | with_reducible exact Adv.lift _
    | with_reducible exact Adv.raise _
    | with_reducible exact Adv.push _
    | with_reducible exact Adv.pop
    | with_reducible exact Adv.reserve _ _
    | with_reducible exact Adv.discard _
    | with_reducible exact Adv.pushNew _
    | with_reducible exact Adv.view _ _
    | with_reducible exact Adv.curFrame
    | with_reducible exact Adv.stackGet _ _
    | with_reducible exact Adv.stackSet _ _
    | with_reducible exact Adv.setMem _
    | with_reducible exact Adv.setGlobal _ _
    | with_reducible exact Adv.setGlobals _
    | with_reducible exact Adv.modIo _
    | with_reducible exact Adv.getIo
    | with_reducible exact Adv.getTh
    | with_reducible exact Adv.get
    | with_reducible exact Adv.readOperand _
    | with_reducible refine Adv.read4 ?_
    | with_reducible refine Adv.read8 ?_
    | with_reducible refine Adv.bind ?_ ?_
    | intro _
    | split
    | dsimp only))

theorem popN_adv (n : Nat) : Adv 0 (popN n : VM P M Unit) := by
  induction n with
  | zero => exact Adv.pure _
  | succ n ih => exact Adv.bind Adv.pop (fun _ => ih)

theorem popArgs_adv (n : Nat) (acc : List P) : Adv 0 (popArgs n acc : VM P M (List P)) := by
  induction n generalizing acc with
  | zero => exact Adv.pure _
  | succ n ih => exact Adv.bind Adv.pop (fun v => ih _)

theorem fillArray_adv (e : Env P M) (a : P) (n : Nat) : Adv 0 (fillArray e a n) := by
  induction n with
  | zero => exact Adv.pure _
  | succ n ih =>
    unfold fillArray
    exact Adv.bind Adv.pop fun v => Adv.bind Adv.get fun s =>
      Adv.bind (Adv.lift _) fun m => Adv.bind (Adv.setMem _) fun _ => ih

theorem spawn_adv (e : Env P M) (f : Function) (as : List P) : Adv 0 (spawn e f as) := by
  refine ⟨fun s a s' h => ?_⟩
  unfold spawn at h
  split at h <;> cases h <;> simp

theorem builtin_adv (e : Env P M) (b : Builtin) (n : I32) : Adv 0 (b.run e n) := by
  cases b <;>
    simp only [Builtin.run, builtinAbs, builtinPick, builtinBitand, builtinLen, builtinChr,
      builtinMath, builtinNewThread, builtinNewArray, builtinWait, pushInt, pushFloat, pushStr] <;>
    adv
  all_goals first
    | exact popArgs_adv _ _
    | exact spawn_adv _ _ _
    | exact Adv.modTh fun _ => rfl

theorem popViews_adv (e : Env P M) (n : Nat) (acc : List View) : Adv 0 (popViews e n acc) := by
  induction n generalizing acc with
  | zero => exact Adv.pure _
  | succ n ih => exact Adv.bind Adv.pop fun _ => Adv.bind (Adv.view _ _) fun _ => ih _

theorem hostFn_adv (e : Env P M) (b : HostFn) : Adv 0 (b.run e) := by
  cases b <;> simp only [HostFn.run, hostPutc, hostPuts, hostRand, hostGetc, hostGets, hostSdl, pushInt, pushStr] <;> adv
  all_goals first
    | exact popViews_adv _ _ _
    | exact Adv.modTh fun _ => rfl

theorem native_adv (e : Env P M) (f : FnPtr) (n : I32) : Adv 0 (nativeBuiltins e f n) := by
  unfold nativeBuiltins
  split
  · exact builtin_adv _ _ _
  · split
    · exact hostFn_adv _ _
    · exact Adv.fault _

section
variable (prog : Program) (fl : FloatOps) (mem : MemOps P M)

theorem syscall_adv (a b : I32) : Adv 0 (doSyscall (Env.std prog fl mem) a b) := by
  unfold doSyscall
  split
  · exact Adv.fault _
  · split
    · exact Adv.fault _
    · split
      · exact Adv.fault _
      · exact native_adv _ _ _

/-- The bytes of the operands an instruction reads, for instructions that are no jumps. -/
def Op.reads : Op → Option Int
  | .JMP | .TJMP | .FJMP | .CALL | .RET | .ICALL => none
  | .POP | .NEW_INT | .NEW_STR | .NEW_ARY | .NEW_FLT | .NEW_FUNC | .NEW_SCALL | .LOCALS | .GLOBALS | .GETV | .SETV
  | .GETG | .SETG | .GETM | .SETM | .ARY_INIT => some 4
  | .SCALL => some 8
  | _ => some 0

set_option maxHeartbeats 1000000 in
theorem exec_adv {op : Op} {k : Int} (h : op.reads = some k) : Adv k (exec (Env.std prog fl mem) (some op)) := by
  have hh : (Env.std prog fl mem).handlers = {} := rfl
  cases op <;> simp only [Op.reads, Option.some.injEq, reduceCtorEq] at h <;> subst h <;>
      simp only [exec, doADD, doSUB, doMUL, doDIV, doMOD, doAND, doOR, doNOT, doNEG, doLT, doGT,
        doLEQ, doGEQ, doCompare, doEQ, doSCALL, doPOP,
        doNEW_INT, doNEW_STR, doNEW_ARY, doNEW_NONE, doNEW_FLT, doNEW_FUNC, doNEW_SCALL, doGLOBALS,
        doLOCALS, doGETV, doSETV, doGETG, doSETG, doDEREF, derefCore, doSETA, setaCore, memberName, getmHandler,
        doSETM, doGETM, doARY_INIT, pushInt, pushFloat, pushStr, pushFunc, pushSyscall, pushBool, tryHandler, hh] <;>
      adv
  all_goals first
    | exact popN_adv _
    | exact fillArray_adv _ _ _
    | exact syscall_adv _ _ _ _ _

/-- `x` does not change the recorded error. -/
structure Mute (x : VM P M α) : Prop where
  run : ∀ s a s', x s = .ok (a, s') → s'.th.error = s.th.error

theorem Mute.bind {x : VM P M α} {f : α → VM P M β} (hx : Mute x) (hf : ∀ a, Mute (f a)) : Mute (x >>= f) := by
  refine ⟨fun s b s' h => ?_⟩
  rw [vm_bind] at h
  split at h
  · rename_i a s1 h1
    rw [(hf a).run _ _ _ h, hx.run _ _ _ h1]
  · cases h

theorem Mute.pure (a : α) : Mute (Pure.pure a : VM P M α) := by
  refine ⟨fun s b s' h => ?_⟩; cases h; rfl

theorem Mute.modTh {f : Thread P → Thread P} (hf : ∀ t, (f t).error = t.error) : Mute (modTh f : VM P M Unit) := by
  refine ⟨fun s a s' h => ?_⟩
  cases h
  exact hf _

theorem Mute.getTh : Mute (getTh : VM P M (Thread P)) := by
  refine ⟨fun s a s' h => ?_⟩; cases h; rfl

theorem Mute.readOperand (e : Env P M) : Mute (readOperand e) := by
  refine ⟨fun s a s' h => ?_⟩
  unfold Ccml.readOperand at h
  split at h
  · cases h
  · split at h
    · cases h
    · split at h <;> cases h
      rfl

theorem Mute.pop : Mute (pop : VM P M P) := by
  refine ⟨fun s a s' h => ?_⟩
  unfold Ccml.pop at h
  split at h <;> cases h
  rfl

theorem Mute.view (e : Env P M) (p : P) : Mute (view e p) := by
  refine ⟨fun s a s' h => ?_⟩
  unfold Ccml.view Ccml.lift at h
  split at h <;> cases h
  rfl

/-- Jumps raise no errors. -/
theorem exec_quiet (e : Env P M) {op : Op} (h : op = .JMP ∨ op = .TJMP ∨ op = .FJMP ∨ op = .CALL) :
    Mute (exec e (some op)) := by
  rcases h with h | h | h | h <;> subst h
  · show Mute (doJMP e)
    unfold doJMP
    exact Mute.bind (Mute.readOperand e) fun _ => Mute.modTh fun _ => rfl
  · show Mute (doTJMP e)
    unfold doTJMP
    refine Mute.bind (Mute.readOperand e) fun _ => Mute.bind Mute.pop fun _ => Mute.bind (Mute.view e _) fun _ => ?_
    split
    · exact Mute.modTh fun _ => rfl
    · exact Mute.pure _
  · show Mute (doFJMP e)
    unfold doFJMP
    refine Mute.bind (Mute.readOperand e) fun _ => Mute.bind Mute.pop fun _ => Mute.bind (Mute.view e _) fun _ => ?_
    split
    · exact Mute.pure _
    · exact Mute.modTh fun _ => rfl
  · show Mute (doCALL e)
    unfold doCALL
    exact Mute.bind (Mute.readOperand e) fun _ => Mute.bind (Mute.readOperand e) fun _ =>
      Mute.bind Mute.getTh fun _ => Mute.modTh fun _ => rfl

theorem readOperand_ok {e : Env P M} {s : St P M} {a : I32} {s1 : St P M} (h : readOperand e s = .ok (a, s1)) :
    s1 = { s with th := { s.th with pc := s.th.pc + 4 } } := by
  unfold Ccml.readOperand at h
  split at h
  · cases h
  · split at h
    · cases h
    · split at h <;> cases h
      rfl

/-- An error of `RET`: it is behind the instruction, or there was no frame to leave. -/
theorem ret_error {e : Env P M} {s s' : St P M} (h : exec e (some .RET) s = .ok ((), s'))
    (he : s'.th.error ≠ s.th.error) : s'.th.pc = s.th.pc + 4 ∨ (s.th.frames = [] ∧ s'.th.pc = 0) := by
  change doRET e s = _ at h
  unfold doRET at h
  rw [vm_bind] at h
  split at h
  case h_2 => cases h
  rename_i a s1 h1
  rw [readOperand_ok h1] at h
  rw [vm_bind] at h
  split at h
  case h_2 => cases h
  rename_i v s2 h2
  have e2 : s2.th.error = s.th.error ∧ s2.th.pc = s.th.pc + 4 ∧ s2.th.frames = s.th.frames := by
    unfold Ccml.pop at h2
    split at h2 <;> cases h2
    exact ⟨rfl, rfl, rfl⟩
  change (if (s2.th.stack.length : Int) < a.toInt then raise .stack_underflow
    else do
      discard a.toNat
      push v
      jump (← leave)) s2 = _ at h
  split at h
  · cases h
    exact Or.inl e2.2.1
  · rw [vm_bind] at h
    split at h
    case h_2 => cases h
    rename_i u s3 h3
    have e3 : s3.th.error = s.th.error ∧ s3.th.frames = s.th.frames := by
      unfold Ccml.discard at h3
      split at h3 <;> cases h3
      exact ⟨e2.1, e2.2.2⟩
    rw [vm_bind] at h
    change (leave >>= jump) { s3 with th := { s3.th with stack := v :: s3.th.stack } } = _ at h
    rw [vm_bind] at h
    unfold leave at h
    dsimp only at h
    split at h
    · rename_i x s4 h4
      split at h4
      · rename_i hf
        rw [e3.2] at hf
        cases h4
        cases h
        exact Or.inr ⟨hf, rfl⟩
      · split at h4
        · cases h4
        · cases h4
          cases h
          exact absurd e3.1 he
    · cases h

/-- An error of `ICALL`: it is behind the instruction, unless the number of arguments was wrong, when
the function has been entered. -/
theorem icall_error {s s' : St P M} (h : exec (Env.std prog fl mem) (some .ICALL) s = .ok ((), s'))
    (he : s'.th.error ≠ s.th.error) : s'.th.pc = s.th.pc + 4 ∨
      (∃ v r addr, s.th.stack = v :: r ∧ mem.view s.mem v = .ok (.func addr) ∧ s'.th.error = .bad_num_args ∧
        s'.th.pc = addr.toInt) := by
  change doICALL (Env.std prog fl mem) s = _ at h
  unfold doICALL at h
  rw [vm_bind] at h
  split at h
  case h_2 => cases h
  rename_i a s1 h1
  rw [readOperand_ok h1] at h
  rw [vm_bind] at h
  unfold Ccml.pop at h
  dsimp only at h
  split at h
  case h_2 => cases h
  rename_i v s2 h2
  split at h2
  · cases h2
  rename_i v' r hst
  cases h2
  rw [vm_bind] at h
  split at h
  case h_2 => cases h
  rename_i w s3 h3
  have hs3 : s3 = { s with th := { s.th with pc := s.th.pc + 4, stack := r } } ∧ mem.view s.mem v = .ok w := by
    unfold Ccml.view Ccml.lift at h3
    dsimp only at h3
    split at h3
    · rename_i x hx
      cases h3
      exact ⟨rfl, hx⟩
    · cases h3
  obtain ⟨rfl, hv⟩ := hs3
  split at h
  · cases h
  · exact Or.inl ((syscall_adv prog fl mem _ _).run _ _ _ h |>.trans (by simp))
  · rename_i addr
    cases hf : prog.findByPc addr with
    | none =>
      have hf' : (Env.std prog fl mem).prog.findByPc addr = none := hf
      rw [hf'] at h
      cases h
    | some f =>
      have hf' : (Env.std prog fl mem).prog.findByPc addr = some f := hf
      rw [hf'] at h
      refine Or.inr ⟨v, r, addr, hst, hv, ?_⟩
      dsimp only at h
      split at h
      · rw [vm_bind] at h
        cases h
        exact ⟨rfl, rfl⟩
      · rw [vm_bind] at h
        cases h
        exact absurd rfl he
  · cases h
    exact Or.inl rfl

end
end Ccml
