import Verif.Frame
/-!
Instructions look neither at the rest of the thread list nor at the number of passes the thread has still to
wait (proof infrastructure).
-/
namespace Ccml
variable {P M : Type} {α β : Type}

/-- The same state with another thread list around the executing thread and another number of passes to wait. -/
def St.mask (s : St P M) (b a : List (Thread P)) (w : I32) : St P M :=
  { s with before := b, after := a, th := { s.th with waits := w } }

theorem St.mask_mask (s : St P M) (b a b' a' : List (Thread P)) (w w' : I32) :
    (s.mask b a w).mask b' a' w' = s.mask b' a' w' := rfl

theorem St.mask_self (s : St P M) : s.mask s.before s.after s.th.waits = s := rfl

/-- `x` does not depend on what `mask` changes. -/
structure Blind (x : VM P M α) : Prop where
  run : ∀ s b a w, match x s with
    | .ok (r, s') => ∃ b' a' w', x (s.mask b a w) = .ok (r, s'.mask b' a' w')
    | .error f => x (s.mask b a w) = .error f

theorem Blind.pure (r : α) : Blind (Pure.pure r : VM P M α) := ⟨fun _ b a w => ⟨b, a, w, rfl⟩⟩

theorem Blind.bind {x : VM P M α} {f : α → VM P M β} (hx : Blind x) (hf : ∀ r, Blind (f r)) :
    Blind (x >>= f) := by
  refine ⟨fun s b a w => ?_⟩
  have h := hx.run s b a w
  rw [vm_bind, vm_bind]
  cases hs : x s with
  | error g => rw [hs] at h; dsimp only at h; rw [h]
  | ok p =>
    obtain ⟨r, s1⟩ := p
    rw [hs] at h
    obtain ⟨b1, a1, w1, h⟩ := h
    rw [h]
    exact (hf r).run s1 b1 a1 w1

theorem Blind.fault (f : Fault) : Blind (fault f : VM P M α) := ⟨fun _ _ _ _ => rfl⟩

theorem Blind.lift (o : Out α) : Blind (lift o : VM P M α) := by
  refine ⟨fun s b a w => ?_⟩
  unfold Ccml.lift
  cases o with
  | error f => rfl
  | ok r => exact ⟨b, a, w, rfl⟩

theorem Blind.modTh {f : Thread P → Thread P} (hf : ∀ t w, ∃ w', f { t with waits := w } = { f t with waits := w' }) :
    Blind (modTh f : VM P M Unit) := by
  refine ⟨fun s b a w => ?_⟩
  obtain ⟨w', h⟩ := hf s.th w
  exact ⟨b, a, w', by simp only [Ccml.modTh, St.mask, h]⟩

theorem Blind.bindTh {f : Thread P → VM P M β} (h : ∀ t, Blind (f t))
    (hf : ∀ t w, f { t with waits := w } = f t) : Blind (getTh >>= f) := by
  refine ⟨fun s b a w => ?_⟩
  have := (h s.th).run s b a w
  rw [vm_bind, vm_bind]
  show match f s.th s with
    | .ok (r, s') => ∃ b' a' w', f { s.th with waits := w } (s.mask b a w) = .ok (r, s'.mask b' a' w')
    | .error g => f { s.th with waits := w } (s.mask b a w) = .error g
  rw [hf s.th w]
  exact this

theorem Blind.bindGet {f : St P M → VM P M β} (h : ∀ t, Blind (f t))
    (hf : ∀ s b a w, f (s.mask b a w) = f s) : Blind (MonadState.get >>= f) := by
  refine ⟨fun s b a w => ?_⟩
  have := (h s).run s b a w
  rw [vm_bind, vm_bind]
  show match f s s with
    | .ok (r, s') => ∃ b' a' w', f (s.mask b a w) (s.mask b a w) = .ok (r, s'.mask b' a' w')
    | .error g => f (s.mask b a w) (s.mask b a w) = .error g
  rw [hf]
  exact this

theorem Blind.raise (x : TErr) : Blind (raise x : VM P M Unit) := Blind.modTh fun _ w => ⟨w, rfl⟩

theorem Blind.push (v : P) : Blind (push v : VM P M Unit) := Blind.modTh fun _ w => ⟨w, rfl⟩

theorem Blind.jump (x : Int) : Blind (jump x : VM P M Unit) := Blind.modTh fun _ w => ⟨w, rfl⟩

theorem Blind.enter (a : Nat) (b c : Int) : Blind (enter a b c : VM P M Unit) := Blind.modTh fun _ w => ⟨w, rfl⟩

theorem Blind.reserve (e : Env P M) (n : Nat) : Blind (reserve e n) := Blind.modTh fun _ w => ⟨w, rfl⟩

theorem Blind.pop : Blind (pop : VM P M P) := by
  refine ⟨fun s b a w => ?_⟩
  unfold Ccml.pop
  rw [show (s.mask b a w).th.stack = s.th.stack from rfl]
  cases s.th.stack with
  | nil => rfl
  | cons v r => exact ⟨b, a, w, rfl⟩

theorem Blind.discard (n : Nat) : Blind (discard n : VM P M Unit) := by
  refine ⟨fun s b a w => ?_⟩
  unfold Ccml.discard
  rw [show (s.mask b a w).th.stack = s.th.stack from rfl]
  by_cases h : n ≤ s.th.stack.length
  · rw [if_pos h, if_pos h]; exact ⟨b, a, w, rfl⟩
  · rw [if_neg h, if_neg h]

theorem Blind.pushNew (f : M → Out (P × M)) : Blind (pushNew f : VM P M Unit) := by
  refine ⟨fun s b a w => ?_⟩
  unfold Ccml.pushNew
  rw [show (s.mask b a w).mem = s.mem from rfl]
  cases f s.mem with
  | error g => rfl
  | ok p => exact ⟨b, a, w, rfl⟩

theorem Blind.view (e : Env P M) (p : P) : Blind (view e p) := by
  refine ⟨fun s b a w => ?_⟩
  exact (Blind.lift (e.mem.view s.mem p)).run s b a w

theorem Blind.readOpcode (e : Env P M) : Blind (readOpcode e) := by
  refine ⟨fun s b a w => ?_⟩
  unfold Ccml.readOpcode
  rw [show (s.mask b a w).th.pc = s.th.pc from rfl]
  by_cases h : ¬ 4 < e.prog.code.length
  · rw [if_pos h, if_pos h]
  · rw [if_neg h, if_neg h]
    by_cases h : s.th.pc < 0
    · rw [if_pos h, if_pos h]
    · rw [if_neg h, if_neg h]
      cases e.prog.code[s.th.pc.toNat]? with
      | none => rfl
      | some c => exact ⟨b, a, w, rfl⟩

theorem Blind.readOperand (e : Env P M) : Blind (readOperand e) := by
  refine ⟨fun s b a w => ?_⟩
  unfold Ccml.readOperand
  rw [show (s.mask b a w).th.pc = s.th.pc from rfl]
  by_cases h : ¬ 4 < e.prog.code.length
  · rw [if_pos h, if_pos h]
  · rw [if_neg h, if_neg h]
    by_cases h : s.th.pc < 0
    · rw [if_pos h, if_pos h]
    · rw [if_neg h, if_neg h]
      cases read32 e.prog.code s.th.pc.toNat with
      | none => rfl
      | some c => exact ⟨b, a, w, rfl⟩

theorem Blind.curFrame : Blind (curFrame : VM P M Frame) := by
  refine ⟨fun s b a w => ?_⟩
  unfold Ccml.curFrame
  rw [show (s.mask b a w).th.frames = s.th.frames from rfl]
  cases s.th.frames with
  | nil => rfl
  | cons v r => exact ⟨b, a, w, rfl⟩

theorem Blind.leave : Blind (leave : VM P M Int) := by
  refine ⟨fun s b a w => ?_⟩
  unfold Ccml.leave
  rw [show (s.mask b a w).th.frames = s.th.frames from rfl]
  cases s.th.frames with
  | nil => exact ⟨b, a, w, rfl⟩
  | cons f fs =>
    dsimp only
    rw [show (s.mask b a w).th.stack = s.th.stack from rfl]
    by_cases h : (f.terminal || fs.isEmpty) = true ∧ s.th.stack.length = 0
    · rw [if_pos h, if_pos h]
    · rw [if_neg h, if_neg h]; exact ⟨b, a, w, rfl⟩

theorem Blind.stackGet (e : Env P M) (i : Int) : Blind (stackGet e i) := by
  refine ⟨fun s b a w => ?_⟩
  unfold Ccml.stackGet
  rw [show (s.mask b a w).th.stack = s.th.stack from rfl]
  cases stackAt s.th.stack i with
  | none => exact ⟨b, a, w, rfl⟩
  | some v => exact ⟨b, a, w, rfl⟩

theorem Blind.stackSet (i : Int) (v : P) : Blind (stackSet i v : VM P M Unit) := by
  refine ⟨fun s b a w => ?_⟩
  unfold Ccml.stackSet
  rw [show (s.mask b a w).th.stack = s.th.stack from rfl]
  by_cases h : 0 ≤ i ∧ i < s.th.stack.length
  · rw [if_pos h, if_pos h]; exact ⟨b, a, w, rfl⟩
  · rw [if_neg h, if_neg h]; exact ⟨b, a, w, rfl⟩

theorem Blind.setMem (m : M) : Blind (modify fun s => { s with mem := m } : VM P M Unit) :=
  ⟨fun _ b a w => ⟨b, a, w, rfl⟩⟩

theorem Blind.setGlobal (i : Nat) (v : P) :
    Blind (modify fun s => { s with globals := s.globals.set i v } : VM P M Unit) :=
  ⟨fun _ b a w => ⟨b, a, w, rfl⟩⟩

theorem Blind.setGlobals (g : List P) : Blind (fun s => .ok ((), { s with globals := g }) : VM P M Unit) :=
  ⟨fun _ b a w => ⟨b, a, w, rfl⟩⟩

theorem Blind.modIo (f : Io → Io) : Blind (modIo f : VM P M Unit) := ⟨fun _ b a w => ⟨b, a, w, rfl⟩⟩

theorem Blind.getIo : Blind (getIo : VM P M Io) := ⟨fun _ b a w => ⟨b, a, w, rfl⟩⟩

/-- Decompose a machine program into its primitives. -/
macro "blind" : tactic => `(tactic|
  repeat' (first
    | with_reducible exact Blind.pure _
    | with_reducible exact Blind.fault _
    | with_reducible exact Blind.lift _
    | with_reducible exact Blind.raise _
    | with_reducible exact Blind.push _
    | with_reducible exact Blind.pop
    | with_reducible exact Blind.jump _
    | with_reducible exact Blind.enter _ _ _
    | with_reducible exact Blind.reserve _ _
    | with_reducible exact Blind.discard _
    | with_reducible exact Blind.pushNew _
    | with_reducible exact Blind.view _ _
    | with_reducible exact Blind.readOperand _
    | with_reducible exact Blind.readOpcode _
    | with_reducible exact Blind.curFrame
    | with_reducible exact Blind.leave
    | with_reducible exact Blind.stackGet _ _
    | with_reducible exact Blind.stackSet _ _
    | with_reducible exact Blind.setMem _
    | with_reducible exact Blind.setGlobal _ _
    | with_reducible exact Blind.setGlobals _
    | with_reducible exact Blind.modIo _
    | with_reducible exact Blind.getIo
    | with_reducible refine Blind.bindTh ?_ (fun _ _ => rfl)
    | with_reducible refine Blind.bindGet ?_ (fun _ _ _ _ => rfl)
    | with_reducible refine Blind.bind ?_ ?_
    | intro _
    | split
    | dsimp only))

theorem popN_blind (n : Nat) : Blind (popN n : VM P M Unit) := by
  induction n with
  | zero => exact Blind.pure _
  | succ n ih => exact Blind.bind Blind.pop (fun _ => ih)

theorem fillArray_blind (e : Env P M) (a : P) (n : Nat) : Blind (fillArray e a n) := by
  induction n with
  | zero => exact Blind.pure _
  | succ n ih =>
    unfold fillArray
    refine Blind.bind Blind.pop fun v => Blind.bindGet (fun s => ?_) (fun _ _ _ _ => rfl)
    exact Blind.bind (Blind.lift _) fun m => Blind.bind (Blind.setMem _) fun _ => ih

theorem popArgs_blind (n : Nat) (acc : List P) : Blind (popArgs n acc : VM P M (List P)) := by
  induction n generalizing acc with
  | zero => exact Blind.pure _
  | succ n ih => exact Blind.bind Blind.pop (fun v => ih _)

theorem spawn_blind (e : Env P M) (f : Function) (args : List P) : Blind (spawn e f args) := by
  refine ⟨fun s b a w => ?_⟩
  unfold spawn
  rw [show (s.mask b a w).mem = s.mem from rfl]
  cases prepare e s.mem f args with
  | error g => rfl
  | ok o =>
    cases o with
    | none => exact ⟨b, a, w, rfl⟩
    | some p => exact ⟨_, a, w, rfl⟩

set_option maxHeartbeats 1000000 in
theorem exec_blind (e : Env P M) (hh : e.handlers = {}) (hn : ∀ p n, Blind (e.native p n)) (op : Option Op) :
    Blind (exec e op) := by
  have hsys : ∀ a b, Blind (doSyscall e a b) := by
    intro a b; unfold doSyscall
    split
    · blind
    · split
      · blind
      · split
        · blind
        · exact hn _ _
  cases op with
  | none => exact Blind.raise _
  | some op =>
    cases op <;>
      simp only [exec, doADD, doSUB, doMUL, doDIV, doMOD, doAND, doOR, doNOT, doNEG, doLT, doGT,
        doLEQ, doGEQ, doCompare, doEQ, doJMP, doTJMP, doFJMP, doCALL, doSCALL, doICALL, doPOP, doRET,
        doNEW_INT, doNEW_STR, doNEW_ARY, doNEW_NONE, doNEW_FLT, doNEW_FUNC, doNEW_SCALL, doGLOBALS,
        doLOCALS, doGETV, doSETV, doGETG, doSETG, doDEREF, derefCore, doSETA, setaCore, memberName,
        doSETM, doGETM, getmHandler, doARY_INIT, pushInt, pushFloat, pushStr, pushFunc, pushSyscall, pushBool,
        tryHandler, hh] <;>
      blind
    all_goals first
      | exact hsys _ _
      | exact popN_blind _
      | exact fillArray_blind _ _ _

theorem builtin_blind (e : Env P M) (b : Builtin) (n : I32) : Blind (b.run e n) := by
  cases b <;>
    simp only [Builtin.run, builtinAbs, builtinPick, builtinBitand, builtinLen, builtinChr,
      builtinMath, builtinNewThread, builtinNewArray, builtinWait, pushInt, pushFloat, pushStr] <;>
    blind
  all_goals first
    | exact popArgs_blind _ _
    | exact spawn_blind _ _ _
    | exact Blind.modTh fun _ w => ⟨w, rfl⟩
    | exact Blind.modTh fun _ w => ⟨_, rfl⟩

theorem popViews_blind (e : Env P M) (n : Nat) (acc : List View) : Blind (popViews e n acc) := by
  induction n generalizing acc with
  | zero => exact Blind.pure _
  | succ n ih => exact Blind.bind Blind.pop fun _ => Blind.bind (Blind.view _ _) fun _ => ih _

theorem hostFn_blind (e : Env P M) (b : HostFn) : Blind (b.run e) := by
  cases b <;> simp only [HostFn.run, hostPutc, hostPuts, hostRand, hostGetc, hostGets, hostSdl, pushInt, pushStr] <;> blind
  all_goals first
    | exact popViews_blind _ _ _
    | exact Blind.modTh fun _ w => ⟨w, rfl⟩

theorem std_blind (prog : Program) (fl : FloatOps) (mem : MemOps P M) (p : FnPtr) (n : I32) :
    Blind ((Env.std prog fl mem).native p n) := by
  simp only [Env.std, nativeBuiltins]
  split
  · exact builtin_blind _ _ _
  · split
    · exact hostFn_blind _ _
    · exact Blind.fault _

/-- One instruction. -/
theorem stepImp_blind (prog : Program) (fl : FloatOps) (mem : MemOps P M) :
    Blind (stepImp (Env.std prog fl mem)) := by
  unfold stepImp
  refine Blind.bind (Blind.readOpcode _) fun b => Blind.bind (exec_blind _ rfl (std_blind prog fl mem) _) fun _ => ?_
  refine Blind.bind (Blind.modTh fun t w => ⟨w, ?_⟩) fun _ => Blind.modTh fun t w => ⟨w, rfl⟩
  unfold checkBreak
  dsimp only [sourceLine]
  split <;> rfl

end Ccml
