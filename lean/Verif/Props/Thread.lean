import Verif.GcHook
import Verif.Samples
import Verif.InstrLemmas
/-!
Running a thread: C03 (instruction fetch), C35 (quantum), C36 (finished threads), C39 (isolation),
C40 (breakpoints).
-/
namespace Ccml.Props
open Ccml
variable {P M : Type}

/-! ### C03 Instruction fetch -/

/-- The state with another program counter. -/
def atPc (s : St P M) (x : Int) : St P M := { s with th := { s.th with pc := x } }

theorem fetch_opcode (e : Env P M) (s : St P M) (p : Nat) (b : Byte) (rest : List Byte)
    (hp : s.th.pc = p) (h : e.prog.code.drop p = b :: rest) (h4 : 4 < e.prog.code.length) :
    readOpcode e s = .ok (b, atPc s (p + 1 : Nat)) := by
  have hg : e.prog.code[p]? = some b := by
    have := congrArg List.head? h
    rw [List.head?_drop] at this
    simpa using this
  simp only [readOpcode, hp, h4, not_true, if_false, Int.toNat_natCast, hg]
  rw [if_neg (by omega)]
  simp [atPc]

theorem fetch_operand (e : Env P M) (s : St P M) (p : Nat) (v : I32) (rest : List Byte)
    (hp : s.th.pc = p) (h : e.prog.code.drop p = le32 v ++ rest) (h4 : 4 < e.prog.code.length) :
    readOperand e s = .ok (v, atPc s (p + 4 : Nat)) := by
  simp only [readOperand, hp, h4, not_true, if_false, Int.toNat_natCast, read32_at h]
  rw [if_neg (by omega)]
  simp [atPc]

/-- C03: wherever the emitter put an instruction, the machine fetches exactly its opcode and
operands and stands right behind it (for programs longer than four bytes, which the machine
asserts). -/
theorem C03_machine_fetch (e : Env P M) (s : St P M) (i : Ins) (bs pre post : List Byte)
    (h : emitIns i = .ok bs) (hc : e.prog.code = pre ++ bs ++ post) (hp : s.th.pc = pre.length)
    (h4 : 4 < e.prog.code.length) :
    match i with
    | .i0 o => ∃ b, readOpcode e s = .ok (b, atPc s (pre ++ bs).length) ∧ Op.ofByte b = some o
    | .i1 o x => ∃ b s1, readOpcode e s = .ok (b, s1) ∧ Op.ofByte b = some o ∧
        readOperand e s1 = .ok (x, atPc s (pre ++ bs).length)
    | .i2 o x y => ∃ b s1 s2, readOpcode e s = .ok (b, s1) ∧ Op.ofByte b = some o ∧
        readOperand e s1 = .ok (x, s2) ∧ readOperand e s2 = .ok (y, atPc s (pre ++ bs).length) := by
  have hd : ∀ k (q r : List Byte), bs = q ++ r → k = pre.length + q.length →
      e.prog.code.drop k = r ++ post := by
    intro k q r hq hk
    rw [hc, hq, hk, List.append_assoc, List.append_assoc, ← List.append_assoc, ← List.append_assoc,
      ← List.length_append, List.append_assoc, List.drop_left]
  cases i with
  | i0 o =>
    simp only [emitIns, emit0] at h
    split at h <;> cases h
    refine ⟨o.code, ?_, ofByte_code o⟩
    rw [fetch_opcode e s pre.length o.code post hp (hd _ [] [o.code] rfl rfl) h4]
    simp
  | i1 o x =>
    simp only [emitIns, emit1] at h
    split at h <;> cases h
    refine ⟨o.code, _, fetch_opcode e s pre.length o.code (le32 x ++ post) hp
      (hd _ [] (o.code :: le32 x) rfl rfl) h4, ofByte_code o, ?_⟩
    rw [fetch_operand e _ (pre.length + 1) x post rfl (hd _ [o.code] (le32 x) rfl rfl) h4]
    simp [atPc, le32]
    omega
  | i2 o x y =>
    simp only [emitIns, emit2] at h
    split at h <;> cases h
    refine ⟨o.code, _, _, fetch_opcode e s pre.length o.code (le32 x ++ le32 y ++ post) hp
      (hd _ [] (o.code :: (le32 x ++ le32 y)) rfl rfl) h4, ofByte_code o,
      fetch_operand e _ (pre.length + 1) x (le32 y ++ post) rfl
        (by rw [hd (pre.length + 1) [o.code] (le32 x ++ le32 y) rfl rfl, List.append_assoc]) h4,
      ?_⟩
    rw [fetch_operand e _ (pre.length + 1 + 4) y post rfl
      (hd _ (o.code :: le32 x) (le32 y) rfl (by simp [le32])) h4]
    simp [atPc, le32]
    omega

example : ∃ b s1, readOpcode (toyEnv ([0] ++ (Op.NEW_INT.code :: le32 5) ++ [])) (atPc (toySt []) 1)
    = .ok (b, s1) ∧ Op.ofByte b = some .NEW_INT ∧
    readOperand (toyEnv ([0] ++ (Op.NEW_INT.code :: le32 5) ++ [])) s1 =
      .ok (5, atPc (atPc (toySt []) 1) 6) :=
  C03_machine_fetch _ (atPc (toySt []) 1) (.i1 .NEW_INT 5) _ [0] [] rfl rfl rfl (by decide)

/-! ### C35 A quantum bounds the instructions executed -/

/-- One instruction, preceded by a collection if memory is short. -/
def instruction (e : Env P M) : VM P M Unit := do
  tickGc e
  stepImp e

/-- `Executes e k s s'`: from `s` exactly `k` instructions are executed, ending in `s'`; the thread
neither finished nor halted before the last of them. -/
inductive Executes (e : Env P M) : Nat → St P M → St P M → Prop
  | none (s) : Executes e 0 s s
  | step {k s s1 s'} : instruction e s = .ok ((), s1) → (k ≠ 0 → s1.th.finished = false ∧
      s1.th.halted = false) → Executes e k s1 s' → Executes e (k + 1) s s'

theorem resumeLoop_executes (e : Env P M) (n : Nat) (s s' : St P M) (b : Bool)
    (h : resumeLoop e n s = .ok (b, s')) :
    ∃ k s1, k ≤ n ∧ Executes e k s s1 ∧
      (k < n → s1.th.finished = true ∨ s1.th.halted = true) ∧
      (b = false → k = n) ∧
      (if 0 < k ∧ s1.th.finished = true then finishHandlers e s1 = .ok ((), s') else s' = s1) := by
  induction n generalizing s with
  | zero => cases h; exact ⟨0, s', by omega, .none s', by omega, by omega, by simp⟩
  | succ n ih =>
    simp only [resumeLoop] at h
    rw [vm_bind] at h
    split at h
    rotate_left
    · cases h
    rename_i u s0 h0
    rw [vm_bind] at h
    split at h
    rotate_left
    · cases h
    rename_i u1 s1 h1
    have hi : instruction e s = .ok ((), s1) := by
      unfold instruction; rw [vm_bind_ok h0, h1]
    rw [vm_bind] at h
    simp only [getTh] at h
    split at h
    · rename_i hf
      rw [vm_bind] at h
      split at h
      rotate_left
      · cases h
      rename_i u2 s2 h2
      cases h
      refine ⟨1, s1, by omega, .step hi (by omega) (.none _), fun _ => .inl hf, by simp, ?_⟩
      rw [if_pos ⟨by omega, hf⟩]; exact h2
    · rename_i hf
      split at h
      · rename_i hh
        cases h
        refine ⟨1, s', by omega, .step hi (by omega) (.none _), fun _ => .inr hh, by simp, ?_⟩
        rw [if_neg (fun q => hf q.2)]
      · rename_i hh
        obtain ⟨k, s2, h1', h2, h3, h4, h5⟩ := ih s1 h
        refine ⟨k + 1, s2, by omega, .step hi (fun _ => ⟨by simpa using hf, by simpa using hh⟩) h2,
          fun hk => h3 (by omega), fun hb => by rw [h4 hb], ?_⟩
        by_cases hk : k = 0
        · subst hk
          cases h2
          rw [if_neg (fun q => hf q.2)]
          rwa [if_neg (by omega)] at h5
        · by_cases hs : s2.th.finished = true
          · rw [if_pos ⟨by omega, hs⟩]; rwa [if_pos ⟨by omega, hs⟩] at h5
          · rw [if_neg (fun q => hs q.2)]; rwa [if_neg (fun q => hs q.2)] at h5

/-- The thread as `resume` starts it: no longer halted. -/
def started (s : St P M) : St P M := { s with th := { s.th with halted := false } }

theorem resume_unfinished (e : Env P M) (n : I32) (s : St P M) (hn : 0 ≤ n.toInt)
    (hu : s.th.finished = false) :
    resume e n s = match resumeLoop e n.toNat (started s) with
      | .ok (_, s') => .ok (!s'.th.hasError, s')
      | .error f => .error f := by
  unfold resume
  rw [vm_bind]
  simp only [getTh]
  rw [if_neg (by rw [hu]; decide), vm_bind]
  simp only [modTh]
  rw [vm_bind]
  unfold runQuantum
  rw [if_pos hn, vm_bind]
  cases hl : resumeLoop e n.toNat (started s) with
  | error f => simp only [started] at hl; simp only [hl]
  | ok p => simp only [started] at hl; simp only [hl]; rfl

/-- C35: `resume(n)` on an unfinished thread executes some number `k ≤ n` of instructions, and
exactly `n` unless the thread finished or halted at the last one; the end-of-thread handlers run
after that exactly when it finished. -/
theorem C35_quantum (e : Env P M) (n : I32) (s s' : St P M) (b : Bool) (hn : 0 ≤ n.toInt)
    (hu : s.th.finished = false) (h : resume e n s = .ok (b, s')) :
    ∃ (k : Nat) (s1 : St P M), (k : Int) ≤ n.toInt ∧ Executes e k (started s) s1 ∧
      ((k : Int) < n.toInt → s1.th.finished = true ∨ s1.th.halted = true) ∧
      (if 0 < k ∧ s1.th.finished = true then finishHandlers e s1 = .ok ((), s') else s' = s1) ∧
      b = !s'.th.hasError := by
  have hnn : (n.toNat : Int) = n.toInt := by
    have h1 := BitVec.toInt_eq_toNat_cond n
    have := n.isLt
    split at h1 <;> omega
  rw [resume_unfinished e n s hn hu] at h
  split at h
  rotate_left
  · cases h
  rename_i b1 s2 hl
  cases h
  obtain ⟨k, s1, h1, h2, h3, -, h5⟩ := resumeLoop_executes e _ _ _ _ hl
  exact ⟨k, s1, by omega, h2, fun hk => h3 (by omega), h5, rfl⟩

theorem resumeLoop_add (e : Env P M) (a b : Nat) (s : St P M) :
    resumeLoop e (a + b) s = match resumeLoop e a s with
      | .error f => .error f
      | .ok (true, s1) => .ok (true, s1)
      | .ok (false, s1) => resumeLoop e b s1 := by
  induction a generalizing s with
  | zero => simp only [resumeLoop, vm_pure, Nat.zero_add]
  | succ a ih =>
    rw [show a + 1 + b = (a + b) + 1 by omega]
    simp only [resumeLoop]
    rw [vm_bind, vm_bind]
    cases tickGc e s with
    | error f => rfl
    | ok p =>
      obtain ⟨u, s0⟩ := p
      dsimp only
      rw [vm_bind, vm_bind]
      cases stepImp e s0 with
      | error f => rfl
      | ok p =>
        obtain ⟨u, s1⟩ := p
        dsimp only
        rw [vm_bind, vm_bind]
        simp only [getTh]
        cases hf : s1.th.finished with
        | true =>
          simp only [if_true, vm_bind]
          cases finishHandlers e s1 with
          | error f => rfl
          | ok p => rfl
        | false =>
          cases hh : s1.th.halted with
          | true => rfl
          | false =>
            simp only [Bool.false_eq_true, if_false]
            exact ih s1

/-- A loop that was left early left the thread finished or halted, unless a handler changed that. -/
theorem resumeLoop_true (e : Env P M) (n : Nat) (s s' : St P M)
    (hq : ∀ s u s', finishHandlers e s = .ok (u, s') → s.th.finished = true →
      s'.th.finished = true)
    (h : resumeLoop e n s = .ok (true, s')) : s'.th.finished = true ∨ s'.th.halted = true := by
  induction n generalizing s with
  | zero => cases h
  | succ n ih =>
    simp only [resumeLoop] at h
    rw [vm_bind] at h
    split at h
    rotate_left
    · cases h
    rw [vm_bind] at h
    split at h
    rotate_left
    · cases h
    rw [vm_bind] at h
    simp only [getTh] at h
    split at h
    · rename_i hf
      rw [vm_bind] at h
      split at h
      rotate_left
      · cases h
      rename_i h2
      cases h
      exact .inl (hq _ _ _ h2 hf)
    · split at h
      · rename_i hh
        cases h; exact .inr hh
      · exact ih _ h

theorem resumeLoop_false (e : Env P M) (n : Nat) (s s' : St P M) (hs : s.th.finished = false)
    (hh : s.th.halted = false)
    (h : resumeLoop e n s = .ok (false, s')) :
    s'.th.finished = false ∧ s'.th.halted = false := by
  induction n generalizing s with
  | zero => cases h; exact ⟨hs, hh⟩
  | succ n ih =>
    simp only [resumeLoop] at h
    rw [vm_bind] at h
    split at h
    rotate_left
    · cases h
    rw [vm_bind] at h
    split at h
    rotate_left
    · cases h
    rw [vm_bind] at h
    simp only [getTh] at h
    split at h
    · rw [vm_bind] at h
      split at h <;> cases h
    · rename_i h1
      split at h
      · cases h
      · rename_i h2
        exact ih _ (by simpa using h1) (by simpa using h2) h

theorem toNat_add_quantum (a b : I32) (ha : 0 ≤ a.toInt) (hb : 0 ≤ b.toInt)
    (hab : a.toInt + b.toInt ≤ 2147483647) :
    (a + b).toInt = a.toInt + b.toInt ∧ (a + b).toNat = a.toNat + b.toNat := by
  have h1 := BitVec.toInt_eq_toNat_cond a
  have h2 := BitVec.toInt_eq_toNat_cond b
  have h3 := BitVec.toInt_eq_toNat_cond (a + b)
  have := a.isLt
  have := b.isLt
  rw [BitVec.toNat_add] at *
  split at h1 <;> split at h2 <;> split at h3 <;> omega

/-- C35: splitting a quantum.  If the first part ends with the thread unfinished and not halted,
both parts together do what the whole does; otherwise the first part already did everything the
whole does.  (The handlers must not revive a finished thread.) -/
theorem C35_split (e : Env P M) (a b : I32) (s s1 : St P M) (r : Bool)
    (ha : 0 ≤ a.toInt) (hb : 0 ≤ b.toInt) (hab : a.toInt + b.toInt ≤ 2147483647)
    (hq : ∀ s u s', finishHandlers e s = .ok (u, s') → s.th.finished = true →
      s'.th.finished = true)
    (h : resume e a s = .ok (r, s1)) :
    (s1.th.finished = false → s1.th.halted = false → resume e (a + b) s = resume e b s1) ∧
    (s1.th.finished = true ∨ s1.th.halted = true → resume e (a + b) s = .ok (r, s1)) := by
  obtain ⟨h1, h2⟩ := toNat_add_quantum a b ha hb hab
  cases hu : s.th.finished with
  | true =>
    have hx : ∀ c, resume e c s = .ok (false, s) := by
      intro c
      simp only [resume, vm_bind, getTh, hu, if_true, vm_pure]
    rw [hx] at h ⊢
    cases h
    exact ⟨fun hf _ => by simp [hu] at hf, fun _ => rfl⟩
  | false =>
    rw [resume_unfinished e _ s ha hu] at h
    rw [resume_unfinished e _ s (by omega) hu, h2, resumeLoop_add]
    revert h
    cases hl : resumeLoop e a.toNat (started s) with
    | error f => intro h; cases h
    | ok p =>
      obtain ⟨fl, s2⟩ := p
      intro h
      cases h
      cases fl with
      | true =>
        have := resumeLoop_true e _ _ _ hq hl
        refine ⟨fun hf hh => ?_, fun _ => rfl⟩
        rw [hf, hh] at this
        simp at this
      | false =>
        obtain ⟨hf, hh⟩ := resumeLoop_false e _ (started s) _ hu rfl hl
        refine ⟨fun _ _ => ?_, fun ho => ?_⟩
        · rw [resume_unfinished e _ s1 hb hf]
          have : started s1 = s1 := by
            unfold started
            rw [← hh]
          rw [this]
        · rw [hf, hh] at ho
          simp at ho

/-! ### C36 Finished threads -/

/-- C36: on a finished thread `resume` returns false and changes nothing, for every cycle count and
however often it is called. -/
theorem C36_resume_finished (e : Env P M) (s : St P M) (h : s.th.finished = true) (ns : List I32) :
    ns.foldlM (fun _ n => resume e n) false s = .ok (false, s) := by
  have hx : ∀ c, resume e c s = .ok (false, s) := by
    intro c
    simp only [resume, vm_bind, getTh, h, if_true, vm_pure]
  induction ns with
  | nil => rfl
  | cons n ns ih =>
    rw [List.foldlM_cons, vm_bind_ok (hx n)]
    exact ih

/-- C36: also single stepping does nothing. -/
theorem C36_step_finished (e : Env P M) (s : St P M) (h : s.th.finished = true) (fuel : Nat) :
    stepInst e s = .ok (false, s) ∧ stepLine e fuel s = .ok (false, s) := by
  simp only [stepInst, stepLine, vm_bind, getTh, h, if_true, vm_pure, and_self]

/-- An error stops the thread. -/
def ErrorStops (s : St P M) : Prop := s.th.error ≠ .success → s.th.finished = true

theorem doRET_errorStops (e : Env P M) (s s' : St P M) (u : Unit) (hs : s.th.error = .success)
    (h : doRET e s = .ok (u, s')) : ErrorStops s' := by
  have key : ∀ (x : St P M) (a : Int) (x' : St P M), x.th.error = .success →
      leave x = .ok (a, x') → ErrorStops x' := by
    intro x a x' hx hl
    unfold leave at hl
    split at hl
    · cases hl
      intro _; rfl
    · dsimp only at hl
      split at hl
      · cases hl
      · cases hl
        intro hne; exact absurd hx hne
  unfold doRET at h
  rw [vm_bind] at h
  split at h
  rotate_left
  · cases h
  rename_i op s1 h1
  have e1 : s1.th.error = .success := by
    unfold readOperand at h1
    split at h1
    · cases h1
    · split at h1
      · cases h1
      · split at h1 <;> cases h1
        exact hs
  rw [vm_bind] at h
  split at h
  rotate_left
  · cases h
  rename_i v s2 h2
  have e2 : s2.th.error = .success := by
    unfold pop at h2
    split at h2 <;> cases h2
    exact e1
  rw [vm_bind] at h
  simp only [getTh] at h
  split at h
  · cases h; intro _; rfl
  · rw [vm_bind] at h
    split at h
    rotate_left
    · cases h
    rename_i h3
    unfold discard at h3
    split at h3
    rotate_left
    · cases h3
    cases h3
    rw [vm_bind] at h
    simp only [push, modTh] at h
    rw [vm_bind] at h
    split at h
    rotate_left
    · cases h
    rename_i a s3 h4
    have := key _ _ _ (by simpa using e2) h4
    cases h
    exact this

/-- C36: a thread that has an error is finished: every instruction executed by a thread without
error ends without error or with the thread finished (host functions must do the same). -/
theorem C36_error_finishes (e : Env P M) (s s' : St P M) (u : Unit)
    (hh : HostPres (fun s s' => ErrorStops s → ErrorStops s') e)
    (hs : s.th.error = .success) (h : stepImp e s = .ok (u, s')) : ErrorStops s' := by
  have hR : Preorderish (fun s s' : St P M => ErrorStops s → ErrorStops s') := by
    refine ⟨fun s s' hc hs hne => ?_, fun a b c h1 h2 h => h2 (h1 h)⟩
    rcases hc.status with h | ⟨h1, h2⟩
    · exact h
    · rw [h2]; exact hs (by rw [← h1]; exact hne)
  unfold stepImp at h
  rw [vm_bind] at h
  split at h
  rotate_left
  · cases h
  rename_i b s1 h1
  have e1 : s1.th.error = .success := by
    unfold readOpcode at h1
    split at h1
    · cases h1
    · split at h1
      · cases h1
      · split at h1 <;> cases h1
        exact hs
  rw [vm_bind] at h
  split at h
  rotate_left
  · cases h
  rename_i u2 s2 h2
  have e2 : ErrorStops s2 := by
    by_cases ho : Op.ofByte b = some .RET
    · rw [ho] at h2
      exact doRET_errorStops e s1 s2 _ e1 h2
    · exact (exec_pres hR e hh (Op.ofByte b) (fun hc => absurd hc ho)).run _ _ _ h2
        (fun hne => absurd e1 hne)
  cases h
  intro hne
  have : (checkBreak e s2.th).error = s2.th.error ∧
      (checkBreak e s2.th).finished = s2.th.finished := by
    unfold checkBreak; split <;> exact ⟨rfl, rfl⟩
  have := e2 (by rw [← this.1]; exact hne)
  simp_all

/-- The built-ins meet the requirement of `C36_error_finishes`. -/
theorem C36_builtins (prog : Program) (fl : FloatOps) (mem : MemOps P M) :
    HostPres (fun s s' => ErrorStops s → ErrorStops s') (Env.std prog fl mem) := by
  have hR : Preorderish (fun s s' : St P M => ErrorStops s → ErrorStops s') := by
    refine ⟨fun s s' hc hs hne => ?_, fun a b c h1 h2 h => h2 (h1 h)⟩
    rcases hc.status with h | ⟨h1, h2⟩
    · exact h
    · rw [h2]; exact hs (by rw [← h1]; exact hne)
  apply std_host_pres hR
  · intro e _ _ _ f a
    refine ⟨fun s b s' h hs => ?_⟩
    unfold spawn at h
    split at h <;> cases h <;> exact hs
  · intro e _ _ _
    unfold builtinWait
    simp only [pushInt]
    pres hR
    all_goals (refine ⟨fun s b s' h hs => ?_⟩; cases h; exact hs)
  · exact ⟨fun s b s' h hs => by cases h; exact hs⟩

example : ErrorStops (toySt [.int 3]) := fun h => absurd rfl h

/-! ### C39 Threads cannot touch each other -/

/-- All other threads are as before; new ones may have been put in front. -/
structure OthersUntouched (s s' : St P M) : Prop where
  after : s'.after = s.after
  before : ∃ new, s'.before = new ++ s.before

/-- As before except that the collector may have moved what their stacks refer to: same status,
program counter, frames, and stack height. -/
structure OthersRelocated (s s' : St P M) : Prop where
  after : s'.after.map Thread.shape = s.after.map Thread.shape
  before : ∃ new old, s'.before = new ++ old ∧ old.map Thread.shape = s.before.map Thread.shape

theorem coarse_untouched : Coarse (OthersUntouched (P := P) (M := M)) := by
  refine ⟨fun s t m g io _ => ⟨rfl, [], rfl⟩, fun a b c h k => ⟨k.1.trans h.1, ?_⟩⟩
  obtain ⟨n1, h1⟩ := h.2
  obtain ⟨n2, h2⟩ := k.2
  exact ⟨n2 ++ n1, by rw [h2, h1, List.append_assoc]⟩

theorem coarse_relocated : Coarse (OthersRelocated (P := P) (M := M)) := by
  refine ⟨fun s t m g io _ => ⟨rfl, [], _, rfl, rfl⟩, fun a b c h k => ⟨k.1.trans h.1, ?_⟩⟩
  obtain ⟨n1, o1, h1, g1⟩ := h.2
  obtain ⟨n2, o2, h2, g2⟩ := k.2
  rw [h1] at g2
  refine ⟨n2 ++ o2.take n1.length, o2.drop n1.length, ?_, ?_⟩
  · rw [List.append_assoc, List.take_append_drop, h2]
  · have := congrArg (List.drop n1.length) g2
    rw [List.map_append, ← List.length_map (f := Thread.shape), List.drop_left] at this
    rw [List.length_map] at this
    rw [List.map_drop, ← g1]; exact this

theorem relocated_of_untouched (s s' : St P M) (h : OthersUntouched s s') : OthersRelocated s s' := by
  obtain ⟨n, hn⟩ := h.before
  exact ⟨by rw [h.after], n, s.before, hn, rfl⟩

/-- C39: no instruction touches another thread, provided the host functions and handlers do not. -/
theorem C39_instruction_isolated (e : Env P M) (hh : HostPres OthersUntouched e) (s s' : St P M)
    (h : stepImp e s = .ok ((), s')) : OthersUntouched s s' :=
  (stepImp_pres coarse_untouched e hh).run _ _ _ h

/-- C39: the built-ins (including the one that starts threads) meet the requirement. -/
theorem C39_builtins_isolated (prog : Program) (fl : FloatOps) (mem : MemOps P M) :
    HostPres OthersUntouched (Env.std prog fl mem) := by
  apply std_host_pres coarse_untouched.pre
  · intro e _ _ _ f a
    refine ⟨fun s b s' h => ?_⟩
    unfold spawn at h
    split at h <;> cases h
    · exact ⟨rfl, [], rfl⟩
    · exact ⟨rfl, [_], rfl⟩
  · intro e _ _ _
    exact coarse_untouched.wait e
  · exact coarse_untouched.modTh _

theorem _root_.Ccml.HostPres.mono {R S : St P M → St P M → Prop} (hi : ∀ s s', R s s' → S s s') {e : Env P M}
    (h : HostPres R e) : HostPres S e where
  native f n := ⟨fun _ _ _ hx => hi _ _ ((h.native f n).run _ _ _ hx)⟩
  memberGet f hf a b := ⟨fun _ _ _ hx => hi _ _ ((h.memberGet f hf a b).run _ _ _ hx)⟩
  memberSet f hf a b c := ⟨fun _ _ _ hx => hi _ _ ((h.memberSet f hf a b c).run _ _ _ hx)⟩
  arrayGet f hf a b := ⟨fun _ _ _ hx => hi _ _ ((h.arrayGet f hf a b).run _ _ _ hx)⟩
  arraySet f hf a b c := ⟨fun _ _ _ hx => hi _ _ ((h.arraySet f hf a b c).run _ _ _ hx)⟩
  equals f hf a b := ⟨fun _ _ _ hx => hi _ _ ((h.equals f hf a b).run _ _ _ hx)⟩
  add f hf a b := ⟨fun _ _ _ hx => hi _ _ ((h.add f hf a b).run _ _ _ hx)⟩
  sub f hf a b := ⟨fun _ _ _ hx => hi _ _ ((h.sub f hf a b).run _ _ _ hx)⟩
  mul f hf a b := ⟨fun _ _ _ hx => hi _ _ ((h.mul f hf a b).run _ _ _ hx)⟩
  div f hf a b := ⟨fun _ _ _ hx => hi _ _ ((h.div f hf a b).run _ _ _ hx)⟩

/-- C39: a whole quantum of one thread, collections included, leaves the status, program counter,
frames and stack height of every other thread unchanged. -/
theorem C39_resume_isolated (e : Env P M) (hm : KeepsRootCount e.mem)
    (hh : HostPres OthersUntouched e) (hf : FinishPres OthersUntouched e) (n : I32) (b : Bool)
    (s s' : St P M) (h : resume e n s = .ok (b, s')) : OthersRelocated s s' := by
  refine (resume_pres coarse_relocated e (hh.mono relocated_of_untouched)
    ⟨fun f hf' => ⟨fun _ _ _ hx => relocated_of_untouched _ _ ((hf.error f hf').run _ _ _ hx)⟩,
     fun f hf' => ⟨fun _ _ _ hx => relocated_of_untouched _ _ ((hf.finish f hf').run _ _ _ hx)⟩⟩
    ⟨fun s u s' hx => ?_⟩ n).run _ _ _ h
  unfold tickGc at hx
  split at hx
  · obtain ⟨-, -, h3, h4⟩ := gcCollect_shape hm hx
    exact ⟨h4, [], s'.before, rfl, h3⟩
  · cases hx; exact ⟨rfl, [], _, rfl, rfl⟩

/-- C39 for a memory that moves nothing: the other threads are exactly as before. -/
theorem C39_resume_untouched (e : Env P M) (hm : KeepsRoots e.mem)
    (hh : HostPres OthersUntouched e) (hf : FinishPres OthersUntouched e) (n : I32) (b : Bool)
    (s s' : St P M) (h : resume e n s = .ok (b, s')) : OthersUntouched s s' := by
  refine (resume_pres coarse_untouched e hh hf ⟨fun s u s' hx => ?_⟩ n).run _ _ _ h
  unfold tickGc at hx
  split at hx
  · rw [gcCollect_keeps hm hx]; exact ⟨rfl, [], rfl⟩
  · cases hx; exact ⟨rfl, [], rfl⟩

theorem abs_keepsRoots : KeepsRoots Mem.abs := by
  intro m r r' m' h
  cases h; rfl

example : HostPres OthersUntouched (toyEnv [1]) := C39_builtins_isolated _ _ _

/-! ### C40 Breakpoints -/

/-- The breakpoints and the remembered line are as before. -/
structure BreakKept (s s' : St P M) : Prop where
  lastLine : s'.th.lastLine = s.th.lastLine
  breakpoints : s'.th.breakpoints = s.th.breakpoints

/-- Nor has the thread been halted or released. -/
structure HaltKept (s s' : St P M) : Prop extends BreakKept s s' where
  halted : s'.th.halted = s.th.halted

theorem breakKept_pre : Preorderish (BreakKept (P := P) (M := M)) :=
  ⟨fun _ _ h => ⟨h.th.lastLine, h.th.breakpoints⟩,
   fun _ _ _ h k => ⟨k.1.trans h.1, k.2.trans h.2⟩⟩

theorem haltKept_pre : Preorderish (HaltKept (P := P) (M := M)) :=
  ⟨fun _ _ h => ⟨⟨h.th.lastLine, h.th.breakpoints⟩, h.th.halted⟩,
   fun _ _ _ h k => ⟨⟨k.1.1.trans h.1.1, k.1.2.trans h.1.2⟩, k.2.trans h.2⟩⟩

/-- The source line of the next instruction. -/
def lineOf (e : Env P M) (s : St P M) : Line := e.prog.lines.get (BitVec.ofInt 32 s.th.pc)

/-- Executing one instruction leads from `s` into a line with a breakpoint that is not the line
remembered from the previous instruction. -/
def Enters (e : Env P M) (s s' : St P M) : Prop :=
  lineOf e s' ∈ s.th.breakpoints ∧ lineOf e s' ≠ s.th.lastLine

theorem instruction_break {R : St P M → St P M → Prop} (hR : Preorderish R)
    (hl : Pres R (leave : VM P M Int)) (e : Env P M)
    (hh : HostPres R e) (hg : Pres R (tickGc e)) (s s' : St P M)
    (h : instruction e s = .ok ((), s')) :
    ∃ s1, R s s1 ∧ s'.th = { checkBreak e s1.th with cycles := s1.th.cycles + 1 } := by
  unfold instruction at h
  rw [vm_bind] at h
  split at h
  rotate_left
  · cases h
  rename_i u s0 h0
  unfold stepImp at h
  rw [vm_bind] at h
  split at h
  rotate_left
  · cases h
  rename_i b s1 h1
  rw [vm_bind] at h
  split at h
  rotate_left
  · cases h
  rename_i u2 s2 h2
  have r2 := (exec_pres hR e hh (Op.ofByte b) (fun _ => doRET_pres hR e hl)).run _ _ _ h2
  refine ⟨s2, hR.trans _ _ _ (hg.run _ _ _ h0)
    (hR.trans _ _ _ ((Pres.readOpcode hR e).run _ _ _ h1) r2), ?_⟩
  cases h
  unfold checkBreak
  split <;> rfl

theorem tick_breakKept (e : Env P M) (hm : KeepsRootCount e.mem) : Pres HaltKept (tickGc e) := by
  refine ⟨fun s u s' hx => ?_⟩
  unfold tickGc at hx
  split at hx
  · obtain ⟨-, h2, -, -⟩ := gcCollect_shape hm hx
    unfold Thread.shape at h2
    simp only [Prod.mk.injEq, Thread.mk.injEq] at h2
    exact ⟨⟨h2.1.2.1, h2.1.2.2.2.2.2.2.2.2.2⟩, h2.1.2.2.2.2.2.1⟩
  · cases hx; exact ⟨⟨rfl, rfl⟩, rfl⟩

/-- C40: entering a line with a breakpoint halts the thread, so that `resume` returns (C35) before
the first instruction of that line is executed; the line is then remembered, so that resuming does
not stop again until another line is entered. -/
theorem C40_halts_on_entry (e : Env P M) (hm : KeepsRootCount e.mem) (hh : HostPres BreakKept e)
    (s s' : St P M) (h : instruction e s = .ok ((), s')) :
    (Enters e s s' → s'.th.halted = true) ∧
    (s.th.breakpoints ≠ [] → s'.th.lastLine = lineOf e s') ∧
    s'.th.breakpoints = s.th.breakpoints := by
  obtain ⟨s1, r, hs⟩ := instruction_break breakKept_pre
    (leave_pres fun _ _ _ _ => ⟨rfl, rfl⟩) e hh
    ⟨fun _ _ _ hx => ((tick_breakKept e hm).run _ _ _ hx).toBreakKept⟩ s s' h
  have hpc : lineOf e s' = sourceLine e s1.th := by
    unfold lineOf sourceLine
    rw [hs]
    unfold checkBreak; split <;> rfl
  have hbp : s'.th.breakpoints = s.th.breakpoints := by
    rw [hs, ← r.breakpoints]
    unfold checkBreak; split <;> rfl
  refine ⟨fun he => ?_, fun hne => ?_, hbp⟩
  · have hne : s1.th.breakpoints.isEmpty = false := by
      rw [r.breakpoints]
      cases hb : s.th.breakpoints with
      | nil => rw [Enters, hb] at he; simp at he
      | cons => rfl
    rw [hs]
    unfold checkBreak
    simp only [hne, Bool.false_eq_true, if_false, Bool.or_eq_true, Bool.and_eq_true,
      List.contains_iff_mem, bne_iff_ne]
    rw [← hpc, r.breakpoints, r.lastLine]
    exact .inr he
  · have hne : s1.th.breakpoints.isEmpty = false := by
      rw [r.breakpoints]
      cases hb : s.th.breakpoints with
      | nil => exact absurd hb hne
      | cons => rfl
    rw [hpc, hs]
    unfold checkBreak
    simp [hne]

/-- C40: when no host function halts the thread, entering a line with a breakpoint is the only
reason to halt; in particular without breakpoints the thread never halts. -/
theorem C40_halts_only_on_entry (e : Env P M) (hm : KeepsRootCount e.mem)
    (hh : HostPres HaltKept e) (s s' : St P M) (hs0 : s.th.halted = false)
    (h : instruction e s = .ok ((), s')) : s'.th.halted = true ↔ Enters e s s' := by
  obtain ⟨s1, r, hs⟩ := instruction_break haltKept_pre
    (leave_pres fun _ _ _ _ => ⟨⟨rfl, rfl⟩, rfl⟩) e hh (tick_breakKept e hm) s s' h
  have hpc : lineOf e s' = sourceLine e s1.th := by
    unfold lineOf sourceLine
    rw [hs]
    unfold checkBreak; split <;> rfl
  have hhalt : s1.th.halted = false := by rw [r.halted]; exact hs0
  rw [hs]
  unfold Enters checkBreak
  rw [hpc]
  split
  · rename_i hb
    rw [r.breakpoints] at hb
    simp [List.isEmpty_iff.mp hb, hhalt]
  · simp only [hhalt, Bool.false_or, Bool.and_eq_true, List.contains_iff_mem, bne_iff_ne,
      r.breakpoints, r.lastLine]

/-- C40: a `resume` with breakpoints, of a thread that does not finish in it: it executes `k`
instructions none of which, except the last, enters a line with a breakpoint, and if it stops before
its quantum is used up the last one does. -/
theorem C40_resume (e : Env P M) (hm : KeepsRootCount e.mem) (hh : HostPres HaltKept e)
    (n : I32) (s s' : St P M) (b : Bool) (hn : 0 ≤ n.toInt) (hu : s.th.finished = false)
    (h : resume e n s = .ok (b, s')) (hf : s'.th.finished = false)
    (hq : ∀ s u s', finishHandlers e s = .ok (u, s') → s.th.finished = true →
      s'.th.finished = true) :
    ∃ k : Nat, (k : Int) ≤ n.toInt ∧ Executes e k (started s) s' ∧
      (∀ i x x', i + 1 < k → Executes e i (started s) x → instruction e x = .ok ((), x') →
        ¬ Enters e x x') ∧
      ((k : Int) < n.toInt → ∃ x, Executes e (k - 1) (started s) x ∧
        instruction e x = .ok ((), s') ∧ Enters e x s') := by
  obtain ⟨k, s1, h1, h2, h3, h4, -⟩ := C35_quantum e n s s' b hn hu h
  have hs1 : s' = s1 := by
    split at h4
    · rename_i hc
      have := hq _ _ _ h4 hc.2
      rw [hf] at this; cases this
    · exact h4
  subst hs1
  have keys : ∀ (k : Nat) (a c : St P M), Executes e k a c → a.th.halted = false →
      (∀ i x x', i + 1 < k → Executes e i a x → instruction e x = .ok ((), x') →
        ¬ Enters e x x') ∧
      (k ≠ 0 → ∃ x, Executes e (k - 1) a x ∧ x.th.halted = false ∧
        instruction e x = .ok ((), c)) := by
    intro k a c hx
    induction hx with
    | none s => exact fun _ => ⟨fun i x x' hi => by omega, fun h => absurd rfl h⟩
    | @step k a s1 c hi hk hr ih =>
      intro ha
      have hne : k ≠ 0 → ¬ Enters e a s1 := by
        intro hk0 he
        have := (C40_halts_only_on_entry e hm hh a s1 ha hi).mpr he
        rw [(hk hk0).2] at this; cases this
      constructor
      · intro i x x' hik hx hi'
        cases hx with
        | none =>
          rw [hi] at hi'; cases hi'
          exact hne (by omega)
        | @step i _ s2 _ hj hj' hrest =>
          rw [hi] at hj; cases hj
          exact (ih (hk (by omega)).2).1 i x x' (by omega) hrest hi'
      · intro _
        by_cases hk0 : k = 0
        · subst hk0
          cases hr
          exact ⟨a, .none a, ha, hi⟩
        · obtain ⟨x, hx1, hx2, hx3⟩ := (ih (hk hk0).2).2 hk0
          refine ⟨x, ?_, hx2, hx3⟩
          have : k + 1 - 1 = (k - 1) + 1 := by omega
          rw [this]
          exact .step hi (fun _ => hk hk0) hx1
  obtain ⟨k1, k2⟩ := keys k _ _ h2 rfl
  refine ⟨k, h1, h2, k1, fun hk => ?_⟩
  have hh' : s'.th.halted = true := by
    rcases h3 hk with hc | hc
    · rw [hf] at hc; cases hc
    · exact hc
  by_cases hk0 : k = 0
  · subst hk0
    cases h2
    simp [started] at hh'
  · obtain ⟨x, hx1, hx2, hx3⟩ := k2 hk0
    exact ⟨x, hx1, hx3, (C40_halts_only_on_entry e hm hh x s' hx2 hx3).mp hh'⟩

/-! ### Examples -/

/-- `NEW_INT 5; NEW_INT 6; ADD; RET 0` on two source lines, with a breakpoint on the second. -/
def toyRun : Env Val Store :=
  Env.std { Program.empty with
    code := Op.NEW_INT.code :: le32 5 ++ Op.NEW_INT.code :: le32 6 ++
      Op.ADD.code :: Op.RET.code :: le32 0
    lines := [(0, ⟨0, 1⟩), (5, ⟨0, 2⟩), (10, ⟨0, 2⟩), (11, ⟨0, 3⟩)] } toyFl Mem.abs

/-- What can be seen of a thread after a `resume`: its result, the program counter, whether it is
finished or halted, and the stack. -/
def seen (r : Out (Bool × St Val Store)) : Option (Bool × Int × Bool × Bool × List Val) :=
  match r with
  | .ok (b, s) => some (b, s.th.pc, s.th.finished, s.th.halted, s.th.stack)
  | .error _ => none

/-- C35: three of four instructions; then the rest. -/
example : seen (resume toyRun 3 (toySt [])) = some (true, 11, false, false, [.int 11]) := by
  decide +kernel

example : seen ((do let _ ← resume toyRun 3; resume toyRun 100 : VM Val Store Bool) (toySt [])) =
    some (true, 0, true, false, [.int 11]) := by
  decide +kernel

example : ∀ s u s', finishHandlers toyRun s = .ok (u, s') → s.th.finished = true →
    s'.th.finished = true := by
  intro s u s' h hf
  have : finishHandlers toyRun s = .ok ((), s) := by
    simp only [finishHandlers, errorHandler, toyRun, Env.std, runHandler, vm_bind, getTh, ite_self]
    rfl
  rw [this] at h
  cases h
  exact hf

/-- C36: a finished thread. -/
example : resume toyRun 5 { toySt [] with th := { (toySt []).th with finished := true } } =
    .ok (false, { toySt [] with th := { (toySt []).th with finished := true } }) := rfl

/-- C40: with a breakpoint on line 2 the thread stops after one instruction, in front of line 2, and
goes on from there to the end. -/
example : seen (resume toyRun 100 { toySt [] with th := (toySt []).th.breakAdd ⟨0, 2⟩ }) =
    some (true, 5, false, true, [.int 5]) := by
  decide +kernel

example : seen ((do let _ ← resume toyRun 100; resume toyRun 100 : VM Val Store Bool)
    { toySt [] with th := (toySt []).th.breakAdd ⟨0, 2⟩ }) = some (true, 0, true, false, [.int 11]) := by
  decide +kernel

end Ccml.Props
