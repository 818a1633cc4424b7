import Verif.Blind
import Verif.Host
import Verif.Props.Sched
/-!
The run of one thread without the scheduler around it (proof infrastructure for C71).
-/
namespace Ccml.Props
open Ccml

/-! ### Which host functions a program calls -/

section
variable {P M : Type}

/-- The environment with the host functions `ok` does not accept taken away. -/
def restrict (e : Env P M) (ok : FnPtr → Bool) : Env P M :=
  { e with native := fun p n => if ok p then e.native p n else fault .ub }

theorem restrict_exec (e : Env P M) (ok : FnPtr → Bool)
    (h : ∀ s ∈ e.prog.syscalls, ∀ p, s.call = some p → ok p = true) (op : Option Op) :
    exec (restrict e ok) op = exec e op := by
  have hsys : ∀ a b, doSyscall (restrict e ok) a b = doSyscall e a b := by
    intro a b
    unfold doSyscall
    rw [show (restrict e ok).prog = e.prog from rfl]
    split
    · rfl
    · cases hs : e.prog.syscalls[a.toNat]? with
      | none => rfl
      | some s =>
        dsimp only
        cases hc : s.call with
        | none => rfl
        | some p =>
          dsimp only [restrict]
          rw [h s (List.mem_of_getElem? hs) p hc]
          rfl
  have hfill : ∀ a n, fillArray (restrict e ok) a n = fillArray e a n := by
    intro a n
    induction n with
    | zero => rfl
    | succ n ih => unfold fillArray; rw [ih]; rfl
  cases op with
  | none => rfl
  | some op =>
    cases op <;> try rfl
    · simp only [exec, doSCALL, hsys]; rfl
    · simp only [exec, doICALL, hsys]; rfl
    · simp only [exec, doARY_INIT, hfill]; rfl

theorem restrict_step (e : Env P M) (ok : FnPtr → Bool)
    (h : ∀ s ∈ e.prog.syscalls, ∀ p, s.call = some p → ok p = true) : stepImp (restrict e ok) = stepImp e := by
  unfold stepImp
  simp only [restrict_exec e ok h]
  rfl

theorem std_restrict_pres {R : St P M → St P M → Prop} (hR : Preorderish R) (prog : Program)
    (fl : FloatOps) (mem : MemOps P M) (ok : FnPtr → Bool) (hn : ok Builtin.new_thread.ptr = false)
    (hw : ok Builtin.wait.ptr = false ∨
      ∀ e : Env P M, e.prog = prog → e.fl = fl → e.mem = mem → Pres R (builtinWait e))
    (hh : ok (HostFn.sdl .sleep).ptr = false ∨ Pres R (haltTh : VM P M Unit)) :
    HostPres R (restrict (Env.std prog fl mem) ok) := by
  refine ⟨?_, ?_, ?_, ?_, ?_, ?_, ?_, ?_, ?_, ?_⟩
  · intro f n
    simp only [restrict, Env.std, nativeBuiltins]
    split
    rotate_left
    · exact Pres.fault hR _
    rename_i hok
    cases hb : Builtin.ofPtr f with
    | none =>
      dsimp only
      split
      · rename_i b hb
        refine hostFn_pres hR _ _ fun hq => ?_
        rcases hh with hh | hh
        · have hf : b.ptr = f := by
            unfold HostFn.ofPtr at hb
            split at hb
            · cases hb
            · rename_i hge
              obtain ⟨hlt, -⟩ := List.getElem?_eq_some_iff.1 hb
              have key : ∀ k < 15, HostFn.all[k]? = some b → Builtin.all.length + k = b.ptr := by
                subst hq
                clear hok hb hlt hge
                decide
              have := key _ hlt hb
              rw [← this]
              exact Nat.add_sub_cancel' (Nat.not_lt.1 hge)
          rw [← hf, hq, hh] at hok
          cases hok
        · exact hh
      · exact Pres.fault hR _
    | some b =>
      dsimp only
      have hf : b.ptr = f := by
        unfold Builtin.ofPtr at hb
        obtain ⟨hlt, -⟩ := List.getElem?_eq_some_iff.1 hb
        have key : ∀ f < 16, Builtin.all[f]? = some b → b.ptr = f := by
          clear hok hb hlt
          cases b <;> decide
        exact key f hlt hb
      rw [← hf] at hok
      cases b <;>
        simp only [Builtin.run, builtinAbs, builtinPick, builtinBitand, builtinLen, builtinChr,
          builtinMath, builtinNewArray, pushInt, pushFloat, pushStr] <;>
        first
          | (rw [hn] at hok; cases hok)
          | (rcases hw with hw | hw
             · rw [hw] at hok; cases hok
             · exact hw _ rfl rfl rfl)
          | pres hR
  all_goals (intro h hq; simp [Env.std, restrict] at hq)

end

/-- The program does not start threads. -/
def NoSpawn (prog : Program) : Prop := ∀ s ∈ prog.syscalls, s.call ≠ some Builtin.new_thread.ptr

/-- The program neither waits nor calls `sleep` of the graphical driver. -/
def NoWait (prog : Program) : Prop :=
  ∀ s ∈ prog.syscalls, s.call ≠ some Builtin.wait.ptr ∧ s.call ≠ some (HostFn.sdl .sleep).ptr

section
variable (prog : Program) (fl : FloatOps)

/-- The rest of the thread list. -/
def SameOthers (s s' : St Val Store) : Prop := s'.before = s.before ∧ s'.after = s.after

theorem sameOthers_pre : Preorderish SameOthers :=
  ⟨fun _ _ h => ⟨h.before, h.after⟩, fun _ _ _ h k => ⟨k.1.trans h.1, k.2.trans h.2⟩⟩

theorem step_others (hs : NoSpawn prog) {s s' : St Val Store} {u : Unit}
    (h : stepImp (Env.std prog fl Mem.abs) s = .ok (u, s')) : SameOthers s s' := by
  rw [← restrict_step _ (fun p => p != Builtin.new_thread.ptr) (by
    intro x hx p hp
    have := hs x hx
    rw [hp] at this
    simp only [bne_iff_ne, ne_eq]
    intro hc; exact this (by rw [hc]))] at h
  have hp : HostPres SameOthers (restrict (Env.std prog fl Mem.abs) (fun p => p != Builtin.new_thread.ptr)) := by
    refine std_restrict_pres sameOthers_pre prog fl _ _ (by decide) (.inr ?_)
      (.inr ⟨fun s b s' h => by cases h; exact ⟨rfl, rfl⟩⟩)
    intro e _ _ _
    unfold builtinWait
    simp only [pushInt]
    pres sameOthers_pre
    all_goals (refine ⟨fun s b s' h => ?_⟩; cases h; exact ⟨rfl, rfl⟩)
  have hx := exec_pres sameOthers_pre _ hp
  have : Pres SameOthers (stepImp (restrict (Env.std prog fl Mem.abs) (fun p => p != Builtin.new_thread.ptr))) := by
    unfold stepImp
    refine Pres.bind sameOthers_pre (Pres.readOpcode sameOthers_pre _) fun b =>
      Pres.bind sameOthers_pre (hx _ fun _ => doRET_pres sameOthers_pre _ (leave_pres fun _ _ _ _ => ⟨rfl, rfl⟩)) fun _ =>
        Pres.bind sameOthers_pre ⟨fun s b s' h => ?_⟩ fun _ => ⟨fun s b s' h => ?_⟩
    · cases h; exact ⟨rfl, rfl⟩
    · cases h; exact ⟨rfl, rfl⟩
  exact this.run _ _ _ h

/-- A thread without breakpoints stays awake. -/
def StaysAwake (s s' : St Val Store) : Prop :=
  s.th.breakpoints = [] → s'.th.breakpoints = [] ∧ s'.th.halted = s.th.halted ∧ s'.th.waits = s.th.waits

theorem staysAwake_pre : Preorderish StaysAwake := by
  refine ⟨fun _ _ h hb => ⟨h.th.breakpoints.trans hb, h.th.halted, h.th.waits⟩, fun _ _ _ h k hb => ?_⟩
  obtain ⟨h1, h2, h3⟩ := h hb
  obtain ⟨k1, k2, k3⟩ := k h1
  exact ⟨k1, k2.trans h2, k3.trans h3⟩

theorem step_awake (hs : NoSpawn prog) (hw : NoWait prog) {s s' : St Val Store} {u : Unit}
    (h : stepImp (Env.std prog fl Mem.abs) s = .ok (u, s')) : StaysAwake s s' := by
  let ok : FnPtr → Bool := fun p => p != Builtin.new_thread.ptr && (p != Builtin.wait.ptr && p != (HostFn.sdl .sleep).ptr)
  rw [← restrict_step _ ok (by
    intro x hx p hp
    have h1 := hs x hx
    have h2 := hw x hx
    rw [hp] at h1 h2
    simp only [ok, Bool.and_eq_true, bne_iff_ne, ne_eq]
    exact ⟨fun hc => h1 (by rw [hc]), fun hc => h2.1 (by rw [hc]), fun hc => h2.2 (by rw [hc])⟩)] at h
  have hp : HostPres StaysAwake (restrict (Env.std prog fl Mem.abs) ok) :=
    std_restrict_pres staysAwake_pre prog fl _ _ (by decide) (.inl (by decide)) (.inl (by decide))
  have hx := exec_pres staysAwake_pre _ hp
  have : Pres StaysAwake (stepImp (restrict (Env.std prog fl Mem.abs) ok)) := by
    unfold stepImp
    refine Pres.bind staysAwake_pre (Pres.readOpcode staysAwake_pre _) fun b =>
      Pres.bind staysAwake_pre (hx _ fun _ => doRET_pres staysAwake_pre _
        (leave_pres fun _ _ _ _ hb => ⟨hb, rfl, rfl⟩)) fun _ =>
        Pres.bind staysAwake_pre ⟨fun s b s' h hb => ?_⟩ fun _ => ⟨fun s b s' h hb => ?_⟩
    · cases h
      unfold checkBreak
      rw [if_pos (by rw [hb]; rfl)]
      exact ⟨hb, rfl, rfl⟩
    · cases h; exact ⟨hb, rfl, rfl⟩
  exact this.run _ _ _ h

/-- Every instruction is counted. -/
theorem step_cycles {s s' : St Val Store} {u : Unit}
    (h : stepImp (Env.std prog fl Mem.abs) s = .ok (u, s')) : s'.th.cycles = s.th.cycles + 1 := by
  have hR : Preorderish (fun s s' : St Val Store => s'.th.cycles = s.th.cycles) :=
    ⟨fun _ _ h => h.th.cycles, fun _ _ _ h k => k.trans h⟩
  have hp : HostPres (fun s s' : St Val Store => s'.th.cycles = s.th.cycles) (Env.std prog fl Mem.abs) := by
    apply std_host_pres hR
    · intro e _ _ _ f a
      refine ⟨fun s b s' h => ?_⟩
      unfold spawn at h
      split at h <;> cases h <;> rfl
    · intro e _ _ _
      unfold builtinWait
      simp only [pushInt]
      pres hR
      all_goals (refine ⟨fun s b s' h => ?_⟩; cases h; rfl)
    · exact ⟨fun s b s' h => by cases h; rfl⟩
  unfold stepImp at h
  rw [vm_bind] at h
  split at h
  rotate_left
  · cases h
  rename_i b s1 h1
  rw [vm_bind] at h
  split at h
  rotate_left
  · cases h
  rename_i u2 s2 h2
  have e1 := (Pres.readOpcode hR _).run _ _ _ h1
  have e2 := (exec_pres hR _ hp (Op.ofByte b) fun _ => doRET_pres hR _ (leave_pres fun _ _ _ _ => rfl)).run _ _ _ h2
  cases h
  show (checkBreak _ s2.th).cycles + 1 = _
  rw [← e1, ← e2]
  unfold checkBreak
  split <;> rfl

theorem step_errorStops {s s' : St Val Store} {u : Unit} (he : ErrorStops s) (hf : s.th.finished = false)
    (h : stepImp (Env.std prog fl Mem.abs) s = .ok (u, s')) : ErrorStops s' := by
  refine C36_error_finishes _ s s' u (C36_builtins prog fl Mem.abs) ?_ h
  by_cases hx : s.th.error = .success
  · exact hx
  · rw [he hx] at hf; cases hf

/-! ### The run of a thread -/

/-- The thread executes `n` instructions, each time it is halted it is woken up. -/
inductive Goes : Nat → St Val Store → St Val Store → Prop
  | done (s) : Goes 0 s s
  | step {n s s1 s'} : s.th.finished = false → stepImp (Env.std prog fl Mem.abs) (started s) = .ok ((), s1) →
      Goes n s1 s' → Goes (n + 1) s s'

variable {prog fl}

theorem Goes.trans {m n : Nat} {a b c : St Val Store} (h : Goes prog fl m a b) (k : Goes prog fl n b c) :
    Goes prog fl (m + n) a c := by
  induction h with
  | done s => rw [Nat.zero_add]; exact k
  | step hf hs _ ih =>
    rw [Nat.add_right_comm]
    exact .step hf hs (ih k)

theorem Goes.wake {n : Nat} {s s' : St Val Store} (h : Goes prog fl n (started s) s') (hn : 0 < n) :
    Goes prog fl n s s' := by
  cases h with
  | done => omega
  | step hf hs k => exact .step hf hs k

theorem Goes.mask {n : Nat} {s s' : St Val Store} (h : Goes prog fl n s s') (b a : List (Thread Val)) (w : I32) :
    ∃ b' a' w', Goes prog fl n (s.mask b a w) (s'.mask b' a' w') := by
  induction h generalizing b a w with
  | done s => exact ⟨b, a, w, .done _⟩
  | step hf hs _ ih =>
    rename_i s s1 s' _
    have := (stepImp_blind prog fl Mem.abs).run (started s) b a w
    rw [hs] at this
    obtain ⟨b1, a1, w1, h1⟩ := this
    obtain ⟨b2, a2, w2, h2⟩ := ih b1 a1 w1
    exact ⟨b2, a2, w2, .step hf h1 h2⟩

/-- From a state changed by `mask` back. -/
theorem Goes.unmask {n : Nat} {s s' : St Val Store} {b a : List (Thread Val)} {w : I32}
    (h : Goes prog fl n (s.mask b a w) s') : ∃ b' a' w', Goes prog fl n s (s'.mask b' a' w') := by
  have := h.mask s.before s.after s.th.waits
  rwa [St.mask_mask, St.mask_self] at this

theorem Goes.unique {m n : Nat} {s a b : St Val Store} (h : Goes prog fl m s a) (k : Goes prog fl n s b)
    (ha : a.th.finished = true) (hb : b.th.finished = true) : m = n ∧ a = b := by
  induction h generalizing n b with
  | done s =>
    cases k with
    | done => exact ⟨rfl, rfl⟩
    | step hf => rw [ha] at hf; cases hf
  | step hf hs _ ih =>
    cases k with
    | done => rw [hb] at hf; cases hf
    | step hf' hs' k =>
      rw [hs] at hs'
      cases hs'
      obtain ⟨h1, h2⟩ := ih k ha hb
      exact ⟨by rw [h1], h2⟩

theorem Goes.errorStops {n : Nat} {s s' : St Val Store} (h : Goes prog fl n s s') (he : ErrorStops s) :
    ErrorStops s' := by
  induction h with
  | done => exact he
  | step hf hs _ ih => exact ih (step_errorStops prog fl (s := started _) he hf hs)

theorem Goes.others (hsp : NoSpawn prog) {n : Nat} {s s' : St Val Store} (h : Goes prog fl n s s') :
    SameOthers s s' := by
  induction h with
  | done => exact ⟨rfl, rfl⟩
  | step hf hs _ ih =>
    have := step_others prog fl hsp hs
    exact ⟨ih.1.trans this.1, ih.2.trans this.2⟩

theorem Goes.cycles {n : Nat} {s s' : St Val Store} (h : Goes prog fl n s s') :
    s'.th.cycles = s.th.cycles + BitVec.ofNat 32 n := by
  induction h with
  | done => simp
  | step hf hs _ ih =>
    have := step_cycles prog fl hs
    rw [ih, this]
    rename_i n s _ _ _
    show s.th.cycles + 1 + _ = _
    rw [BitVec.ofNat_add, BitVec.add_assoc, BitVec.add_comm 1]
    rfl

/-- The loop of `resume` on the store that never collects. -/
theorem resumeLoop_abs (n : Nat) (s : St Val Store) :
    resumeLoop (Env.std prog fl Mem.abs) (n + 1) s = match stepImp (Env.std prog fl Mem.abs) s with
      | .error f => .error f
      | .ok (_, s1) => if s1.th.finished = true then .ok (true, s1)
        else if s1.th.halted = true then .ok (true, s1)
        else resumeLoop (Env.std prog fl Mem.abs) n s1 := by
  simp only [resumeLoop]
  rw [vm_bind]
  have : tickGc (Env.std prog fl Mem.abs) s = .ok ((), s) := rfl
  rw [this]
  dsimp only
  rw [vm_bind]
  cases stepImp (Env.std prog fl Mem.abs) s with
  | error f => rfl
  | ok p =>
    obtain ⟨u, s1⟩ := p
    dsimp only
    rw [vm_bind]
    simp only [getTh]
    by_cases h1 : s1.th.finished = true
    · rw [if_pos h1, if_pos h1, vm_bind]
      have : finishHandlers (Env.std prog fl Mem.abs) s1 = .ok ((), s1) := by
        unfold finishHandlers errorHandler
        rw [vm_bind, vm_bind]
        simp only [getTh]
        split
        · rename_i hq; split at hq <;> cases hq <;> rfl
        · rename_i hq; split at hq <;> cases hq
      rw [this]
      rfl
    · rw [if_neg h1, if_neg h1]
      by_cases h2 : s1.th.halted = true
      · rw [if_pos h2, if_pos h2]; rfl
      · rw [if_neg h2, if_neg h2]

theorem started_awake {s : St Val Store} (h : s.th.halted = false) : started s = s := by
  unfold started
  rw [← h]

theorem resumeLoop_goes (n : Nat) : ∀ (s s' : St Val Store) (b : Bool), s.th.finished = false →
    s.th.halted = false → resumeLoop (Env.std prog fl Mem.abs) n s = .ok (b, s') → ∃ j, Goes prog fl j s s' := by
  induction n with
  | zero => intro s s' b _ _ h; cases h; exact ⟨0, .done _⟩
  | succ n ih =>
    intro s s' b hf hh h
    rw [resumeLoop_abs] at h
    cases hs : stepImp (Env.std prog fl Mem.abs) s with
    | error f => rw [hs] at h; cases h
    | ok p =>
      obtain ⟨u, s1⟩ := p
      rw [hs] at h
      dsimp only at h
      have hone : ∀ {j s'}, Goes prog fl j s1 s' → Goes prog fl (j + 1) s s' := fun k =>
        .step hf (by rw [started_awake hh]; exact hs) k
      by_cases h1 : s1.th.finished = true
      · rw [if_pos h1] at h; cases h; exact ⟨1, hone (.done _)⟩
      · rw [if_neg h1] at h
        by_cases h2 : s1.th.halted = true
        · rw [if_pos h2] at h; cases h; exact ⟨1, hone (.done _)⟩
        · rw [if_neg h2] at h
          obtain ⟨j, hj⟩ := ih s1 s' b (by simpa using h1) (by simpa using h2) h
          exact ⟨j + 1, hone hj⟩

/-- A quantum is a part of the run. -/
theorem resume_goes (n : I32) (s s' : St Val Store) (b : Bool) (hf : s.th.finished = false)
    (h : resume (Env.std prog fl Mem.abs) n s = .ok (b, s')) :
    (∃ j, Goes prog fl j (started s) s') ∧ b = !s'.th.hasError := by
  unfold resume at h
  rw [vm_bind] at h
  simp only [getTh] at h
  rw [if_neg (by rw [hf]; decide), vm_bind] at h
  simp only [modTh] at h
  rw [vm_bind] at h
  unfold runQuantum at h
  split at h
  rotate_left
  · cases h
  rename_i u s1 hq
  rw [vm_bind] at h
  cases h
  refine ⟨?_, rfl⟩
  split at hq
  · rw [vm_bind] at hq
    split at hq
    rotate_left
    · cases hq
    rename_i b1 s2 hl
    cases hq
    exact resumeLoop_goes _ (started s) _ _ hf rfl hl
  · rw [vm_bind] at hq
    split at hq
    rotate_left
    · cases hq
    rename_i b1 s2 hl
    split at hq
    · cases hq
      exact resumeLoop_goes _ (started s) _ _ hf rfl hl
    · cases hq

/-- The loop makes progress on a run that ends. -/
theorem goes_loop (n : Nat) : ∀ (j : Nat) (s s' : St Val Store), Goes prog fl (j + 1) s s' → s'.th.finished = true →
    s.th.halted = false →
    ∃ i b s1, i ≤ j ∧ resumeLoop (Env.std prog fl Mem.abs) (n + 1) s = .ok (b, s1) ∧ Goes prog fl i s1 s' := by
  induction n with
  | zero =>
    intro j s s' h hq hh
    cases h with
    | step hf hs k =>
      rw [started_awake hh] at hs
      rename_i s1
      rw [resumeLoop_abs, hs]
      dsimp only
      split
      · exact ⟨j, _, _, Nat.le_refl _, rfl, k⟩
      · split <;> exact ⟨j, _, _, Nat.le_refl _, rfl, k⟩
  | succ n ih =>
    intro j s s' h hq hh
    cases h with
    | step hf hs k =>
      rw [started_awake hh] at hs
      rename_i s1
      rw [resumeLoop_abs, hs]
      dsimp only
      split
      · exact ⟨j, _, _, Nat.le_refl _, rfl, k⟩
      · split
        · exact ⟨j, _, _, Nat.le_refl _, rfl, k⟩
        · rename_i h1 h2
          cases j with
          | zero =>
            cases k
            exact absurd hq h1
          | succ j =>
            obtain ⟨i, b, s2, hi, hl, hk⟩ := ih j s1 s' k hq (by simpa using h2)
            exact ⟨i, b, s2, by omega, hl, hk⟩

theorem resume_std (n : I32) (s : St Val Store) (hn : 0 ≤ n.toInt) (hf : s.th.finished = false) :
    resume (Env.std prog fl Mem.abs) n s = match resumeLoop (Env.std prog fl Mem.abs) n.toNat (started s) with
      | .ok (_, s') => .ok (!s'.th.hasError, s')
      | .error f => .error f := by
  rw [resume_unfinished (Env.std prog fl Mem.abs) n s hn hf]
  cases resumeLoop (Env.std prog fl Mem.abs) n.toNat (started s) <;> rfl

theorem hasError_false {s : St Val Store} (he : ErrorStops s) (hf : s.th.finished = false) : s.th.hasError = false := by
  unfold Thread.hasError
  by_cases hx : s.th.error = .success
  · simp [hx]
  · rw [he hx] at hf; cases hf

theorem hasError_true {s : St Val Store} (he : ErrorStops s) (hx : s.th.hasError = true) : s.th.finished = true := by
  apply he
  simpa [Thread.hasError] using hx

/-- `call_once` runs the thread to its end. -/
theorem goes_call : ∀ (j : Nat) (s s' : St Val Store), Goes prog fl j s s' → s'.th.finished = true → ErrorStops s →
    ∀ fuel, j < fuel → callLoop (Env.std prog fl Mem.abs) fuel s = .ok ((), s') := by
  intro j
  induction j using Nat.strongRecOn with
  | ind j ih =>
    intro s s' h hq he fuel hfuel
    obtain ⟨fuel, rfl⟩ : ∃ k, fuel = k + 1 := ⟨fuel - 1, by omega⟩
    unfold callLoop
    rw [vm_bind]
    simp only [getTh]
    cases hj : j with
    | zero =>
      subst hj
      cases h
      rw [if_pos (.inl hq)]
      rfl
    | succ j =>
      subst hj
      have hf : s.th.finished = false := by cases h; assumption
      rw [if_neg (by rw [hf, hasError_false he hf]; simp)]
      rw [vm_bind, resume_std _ _ (by decide) hf]
      have hgo : Goes prog fl (j + 1) (started s) s' := by
        cases h with
        | step a b c => exact .step a b c
      obtain ⟨i, b, s1, hi, hl, hk⟩ := goes_loop (prog := prog) (fl := fl) 131071 j (started s) s' hgo hq rfl
      have he1 : ErrorStops s1 := by
        obtain ⟨j1, hj1⟩ := resumeLoop_goes _ (started s) s1 b hf rfl hl
        exact hj1.errorStops he
      rw [show (131072 : I32).toNat = 131071 + 1 from rfl, hl]
      dsimp only
      cases hx : s1.th.hasError with
      | false =>
        simp only [Bool.not_false, if_true]
        exact ih i (by omega) s1 s' hk hq he1 fuel (by omega)
      | true =>
        have hf1 := hasError_true he1 hx
        cases hk with
        | done => rfl
        | step hf2 => rw [hf1] at hf2; cases hf2

/-- Conversely, a call that comes back has run the thread to its end. -/
theorem call_goes : ∀ (fuel : Nat) (s s' : St Val Store) (u : Unit), ErrorStops s →
    callLoop (Env.std prog fl Mem.abs) fuel s = .ok (u, s') → (∃ j, Goes prog fl j s s') ∧ s'.th.finished = true := by
  intro fuel
  induction fuel with
  | zero => intro s s' u _ h; cases h
  | succ fuel ih =>
    intro s s' u he h
    unfold callLoop at h
    rw [vm_bind] at h
    simp only [getTh] at h
    split at h
    · rename_i hd
      cases h
      refine ⟨⟨0, .done _⟩, ?_⟩
      rcases hd with hd | hd
      · exact hd
      · exact hasError_true he hd
    · rename_i hd
      have hf : s.th.finished = false := by
        cases hx : s.th.finished with
        | false => rfl
        | true => exact absurd (.inl hx) hd
      rw [vm_bind] at h
      split at h
      rotate_left
      · cases h
      rename_i b s1 hr
      rw [resume_std _ _ (by decide) hf] at hr
      split at hr
      rotate_left
      · cases hr
      rename_i b2 s2 hl
      cases hr
      have hpos : ∃ j, 0 < j ∧ Goes prog fl j (started s) s1 := by
        rw [show (131072 : I32).toNat = 131071 + 1 from rfl, resumeLoop_abs] at hl
        cases hst : stepImp (Env.std prog fl Mem.abs) (started s) with
        | error f => rw [hst] at hl; cases hl
        | ok p =>
          obtain ⟨u, s3⟩ := p
          rw [hst] at hl
          dsimp only at hl
          split at hl
          · cases hl; exact ⟨1, by omega, .step hf hst (.done _)⟩
          · rename_i h1
            split at hl
            · cases hl; exact ⟨1, by omega, .step hf hst (.done _)⟩
            · rename_i h2
              obtain ⟨j, hj⟩ := resumeLoop_goes _ s3 s1 _ (by simpa using h1) (by simpa using h2) hl
              exact ⟨j + 1, by omega, .step hf hst hj⟩
      obtain ⟨j, hjp, hj⟩ := hpos
      have he1 : ErrorStops s1 := hj.errorStops he
      have hj := hj.wake hjp
      split at h
      · obtain ⟨⟨i, hi⟩, hq⟩ := ih s1 s' u he1 h
        exact ⟨⟨j + i, hj.trans hi⟩, hq⟩
      · rename_i hx
        cases h
        exact ⟨⟨j, hj⟩, hasError_true he1 (by simpa using hx)⟩

/-! ### Passes over a list with one live thread -/

/-- A thread the next pass drops. -/
def Dead {P : Type} (t : Thread P) : Prop := t.waits = 0 ∧ (t.finished = true ∨ t.error ≠ .success)

theorem pass_dead (e : Env Val Store) (n : I32) (m : Store) (g : List Val) (io : Io) (before : List (Thread Val)) :
    ∀ (ds : List (Thread Val)) (k : Nat), ds.length ≤ k → (∀ t ∈ ds, Dead t) →
      passLoop e n k m g io before ds = .ok (true, ⟨m, g, before, io⟩)
  | [], k, _, _ => by unfold passLoop; cases k <;> rfl
  | t :: ds, 0, h, _ => by simp at h
  | t :: ds, k + 1, h, hd => by
    unfold passLoop
    obtain ⟨h1, h2⟩ := hd t List.mem_cons_self
    rw [if_neg (by simpa using h1), if_pos (by
      rcases h2 with h2 | h2
      · exact .inl h2
      · exact .inr (by simpa [Thread.hasError] using h2))]
    exact pass_dead e n m g io before ds k (by simpa using h) fun t ht => hd t (List.mem_cons_of_mem _ ht)

/-- The machine as its first thread sees it. -/
def headSt (v : VmState Val Store) (t : Thread Val) (ds : List (Thread Val)) : St Val Store :=
  { th := t, mem := v.mem, globals := v.globals, before := [], after := ds, io := v.io }

/-- A pass over one thread and dead ones. -/
theorem pass_cases (hsp : NoSpawn prog) {v v' : VmState Val Store} {n : I32} {b : Bool} {t : Thread Val} {ds : List (Thread Val)}
    (hv : v.threads = t :: ds) (hd : ∀ t ∈ ds, Dead t) (he : ErrorStops (headSt v t ds))
    (h : v.resume (Env.std prog fl Mem.abs) n = .ok (b, v')) :
    (t.waits ≠ 0 ∧ b = true ∧ v' = ⟨v.mem, v.globals, [{ t with waits := t.waits - 1 }], v.io⟩) ∨
    (t.waits = 0 ∧ t.finished = true ∧ b = true ∧ v' = ⟨v.mem, v.globals, [], v.io⟩) ∨
    (t.waits = 0 ∧ t.finished = false ∧ ∃ s, resume (Env.std prog fl Mem.abs) n (headSt v t ds) = .ok (b, s) ∧
      b = !s.th.hasError ∧ v' = ⟨s.mem, s.globals, s.th :: (if b then [] else ds), s.io⟩) := by
  unfold VmState.resume at h
  rw [hv] at h
  rw [List.length_cons] at h
  unfold passLoop at h
  split at h
  · rename_i hw
    split at h
    · cases h
    · rename_i w hr
      have := ret32_pred _ _ hr
      subst this
      rw [pass_dead _ _ _ _ _ _ _ _ (Nat.le_refl _) hd] at h
      cases h
      exact .inl ⟨hw, rfl, rfl⟩
  · rename_i hw
    have hw : t.waits = 0 := by simpa using hw
    split at h
    · rename_i hf
      rw [pass_dead _ _ _ _ _ _ _ _ (Nat.le_refl _) hd] at h
      cases h
      refine .inr (.inl ⟨hw, ?_, rfl, rfl⟩)
      rcases hf with hf | hf
      · exact hf
      · exact hasError_true (s := headSt v t ds) he hf
    · rename_i hf
      have hf : t.finished = false := by
        cases hx : t.finished with
        | false => rfl
        | true => exact absurd (.inl hx) hf
      refine .inr (.inr ⟨hw, hf, ?_⟩)
      rw [show (⟨t, v.mem, v.globals, [], ds, v.io⟩ : St Val Store) = headSt v t ds from rfl] at h
      cases hr : resume (Env.std prog fl Mem.abs) n (headSt v t ds) with
      | error f => rw [hr] at h; cases h
      | ok p =>
        obtain ⟨ok, s⟩ := p
        rw [hr] at h
        dsimp only at h
        obtain ⟨⟨j, hj⟩, hb⟩ := resume_goes n _ _ _ hf hr
        obtain ⟨h1, h2⟩ := hj.others hsp
        have h1 : s.before = [] := h1
        have h2 : s.after = ds := h2
        cases ok with
        | true =>
          rw [if_pos rfl, h1, h2, pass_dead _ _ _ _ _ _ _ _ (Nat.le_refl _) hd] at h
          cases h
          exact ⟨s, rfl, hb, rfl⟩
        | false =>
          rw [if_neg (by decide)] at h
          split at h
          · cases h
            refine ⟨s, rfl, hb, ?_⟩
            rw [h1, h2]
            rfl
          · cases h

/-- The calls `resume(n)` for each of `ns`. -/
def resumes (ns : List I32) : List HostOp := ns.map .resume

theorem session_resume {e : Env Val Store} {n : I32} {ns : List I32} {v v2 : VmState Val Store} {os : List HostOut}
    (h : session e v (resumes (n :: ns)) = (os, .ok v2)) :
    ∃ b v1 os1, v.resume e n = .ok (b, v1) ∧ session e v1 (resumes ns) = (os1, .ok v2) ∧ os = .flag b :: os1 := by
  simp only [resumes, List.map_cons, session] at h
  have hst : hostStep e v (.resume n) = (v.resume e n >>= fun p => pure (.flag p.1, p.2)) := rfl
  rw [hst] at h
  cases hr : v.resume e n with
  | error f => rw [hr] at h; cases h
  | ok p =>
    obtain ⟨b, v1⟩ := p
    rw [hr] at h
    have h : ((HostOut.flag b :: (session e v1 (resumes ns)).1), (session e v1 (resumes ns)).2) = (os, .ok v2) := h
    rcases hx : session e v1 (resumes ns) with ⟨os1, r⟩
    rw [hx] at h
    cases h
    exact ⟨b, v1, os1, rfl, hx, rfl⟩

theorem resumes_none (e : Env Val Store) (ns : List I32) : ∀ (v v2 : VmState Val Store) (os : List HostOut),
    v.threads = [] → session e v (resumes ns) = (os, .ok v2) → v2.threads = [] := by
  induction ns with
  | nil => intro v v2 os hv h; cases h; exact hv
  | cons n ns ih =>
    intro v v2 os hv h
    obtain ⟨b, v1, os1, hr, hs, -⟩ := session_resume h
    refine ih v1 v2 os1 ?_ hs
    unfold VmState.resume at hr
    rw [hv] at hr
    unfold passLoop at hr
    cases hr
    rfl

/-- A finished thread is only dropped. -/
theorem resumes_finished (hsp : NoSpawn prog) (ns : List I32) : ∀ (v v2 : VmState Val Store) (os : List HostOut) (t t2 : Thread Val)
    (ds r2 : List (Thread Val)), v.threads = t :: ds → (∀ t ∈ ds, Dead t) → t.finished = true →
    session (Env.std prog fl Mem.abs) v (resumes ns) = (os, .ok v2) → v2.threads = t2 :: r2 →
    v2.mem = v.mem ∧ v2.globals = v.globals ∧ v2.io = v.io ∧ ∃ w, t2 = { t with waits := w } := by
  induction ns with
  | nil =>
    intro v v2 os t t2 ds r2 hv _ _ h h2
    cases h
    rw [hv] at h2
    cases h2
    exact ⟨rfl, rfl, rfl, t.waits, rfl⟩
  | cons n ns ih =>
    intro v v2 os t t2 ds r2 hv hd hf h h2
    obtain ⟨b, v1, os1, hr, hs, -⟩ := session_resume h
    rcases pass_cases hsp hv hd (fun _ => hf) hr with ⟨-, -, rfl⟩ | ⟨-, -, -, rfl⟩ | ⟨-, hx, -⟩
    · obtain ⟨a1, a2, a3, w, a4⟩ := ih _ v2 os1 { t with waits := t.waits - 1 } t2 [] r2 rfl (by simp) hf hs h2
      exact ⟨a1, a2, a3, w, a4⟩
    · rw [resumes_none _ ns _ v2 os1 rfl hs] at h2
      cases h2
    · rw [hf] at hx; cases hx

/-- Passes that bring the thread to its end run it to its end. -/
theorem resumes_goes (hsp : NoSpawn prog) (ns : List I32) : ∀ (v v2 : VmState Val Store) (os : List HostOut) (t t2 : Thread Val)
    (ds r2 : List (Thread Val)), v.threads = t :: ds → (∀ t ∈ ds, Dead t) → t.finished = false →
    ErrorStops (headSt v t ds) →
    session (Env.std prog fl Mem.abs) v (resumes ns) = (os, .ok v2) → v2.threads = t2 :: r2 → t2.finished = true →
    ∃ j b' a' w', 0 < j ∧ Goes prog fl j (headSt v t ds) ((headSt v2 t2 r2).mask b' a' w') := by
  induction ns with
  | nil =>
    intro v v2 os t t2 ds r2 hv _ hf _ h h2 hf2
    cases h
    rw [hv] at h2
    cases h2
    rw [hf2] at hf; cases hf
  | cons n ns ih =>
    intro v v2 os t t2 ds r2 hv hd hf he h h2 hf2
    obtain ⟨b, v1, os1, hr, hs, -⟩ := session_resume h
    rcases pass_cases hsp hv hd he hr with ⟨-, -, rfl⟩ | ⟨-, hx, -⟩ | ⟨-, -, s, hq, hb, rfl⟩
    · obtain ⟨j, b', a', w', hj, hg⟩ := ih _ v2 os1 { t with waits := t.waits - 1 } t2 [] r2 rfl (by simp) hf he hs h2 hf2
      have : headSt ⟨v.mem, v.globals, [{ t with waits := t.waits - 1 }], v.io⟩ { t with waits := t.waits - 1 } [] =
          (headSt v t ds).mask [] [] (t.waits - 1) := rfl
      rw [this] at hg
      obtain ⟨b1, a1, w1, hg⟩ := hg.unmask
      exact ⟨j, b1, a1, w1, hj, hg⟩
    · rw [hf] at hx; cases hx
    · obtain ⟨⟨j, hj⟩, -⟩ := resume_goes n _ _ _ hf hq
      have he1 : ErrorStops s := hj.errorStops he
      have hd1 : ∀ t ∈ (if b then [] else ds), Dead t := by
        cases b with
        | true => simp
        | false => exact hd
      cases hfs : s.th.finished with
      | true =>
        obtain ⟨a1, a2, a3, w, a4⟩ := resumes_finished hsp ns _ v2 os1 s.th t2 _ r2 rfl hd1 hfs hs h2
        have hs2 : s = (headSt v2 t2 r2).mask s.before s.after s.th.waits := by
          unfold headSt St.mask
          dsimp only
          rw [a1, a2, a3, a4]
        have hpos : 0 < j := by
          cases hj with
          | done => rw [show (started (headSt v t ds)).th.finished = t.finished from rfl, hf] at hfs; cases hfs
          | step => omega
        rw [hs2] at hj
        exact ⟨j, _, _, _, hpos, hj.wake hpos⟩
      | false =>
        obtain ⟨j2, b', a', w', hj2, hg⟩ := ih _ v2 os1 s.th t2 _ r2 rfl hd1 hfs he1 hs h2 hf2
        have : headSt ⟨s.mem, s.globals, s.th :: (if b then [] else ds), s.io⟩ s.th (if b then [] else ds) =
            s.mask [] (if b then [] else ds) s.th.waits := rfl
        rw [this] at hg
        obtain ⟨b1, a1, w1, hg⟩ := hg.unmask
        exact ⟨j + j2, b1, a1, w1, by omega, (hj.trans hg).wake (by omega)⟩

end
end Ccml.Props
