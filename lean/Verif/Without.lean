import Verif.SdlDriver
import Verif.Host
import Verif.MachineLemmas
/-!
A program some host functions are taken away from (proof infrastructure for C71 and C79): calling one of them
fails an assertion, up to there nothing changes.
-/
namespace Ccml
section
variable {P M : Type}

/-- The program with the host functions `fs` not bound: `do_syscall_` fails an assertion when one of them is
called, lib_vm/thread.cpp:414-420. -/
def Program.without (fs : List FnPtr) (p : Program) : Program :=
  { p with syscalls := p.syscalls.map fun s => { s with call := s.call.filter fun f => !fs.contains f } }

/-- `x` fails an assertion or does what `y` does. -/
def UpTo {α : Type} (x y : Out α) : Prop := x = .error .assert ∨ x = y

theorem UpTo.rfl {α : Type} (x : Out α) : UpTo x x := .inr (Eq.refl x)

theorem UpTo.eq {α : Type} {x y : Out α} (h : UpTo x y) {r : α} (hx : x = .ok r) : y = .ok r := by
  rcases h with h | h
  · rw [h] at hx; cases hx
  · rw [← h, hx]

theorem UpTo.error {α : Type} {x y : Out α} (h : UpTo x y) {f : Fault} (hx : x = .error f) (hf : f ≠ .assert) :
    y = .error f := by
  rcases h with h | h
  · rw [h] at hx; cases hx; exact absurd (Eq.refl _) hf
  · rw [← h, hx]

/-- The same for actions of the machine. -/
def UpToVM {α : Type} (x y : VM P M α) : Prop := ∀ s, UpTo (x s) (y s)

theorem UpToVM.rfl {α : Type} (x : VM P M α) : UpToVM x x := fun _ => .rfl _

theorem UpToVM.bind {α β : Type} {x y : VM P M α} {f g : α → VM P M β} (h : UpToVM x y) (k : ∀ a, UpToVM (f a) (g a)) :
    UpToVM (x >>= f) (y >>= g) := by
  intro s
  rw [vm_bind, vm_bind]
  rcases h s with h | h
  · rw [h]; exact .inl (Eq.refl _)
  · rw [h]
    cases y s with
    | error => exact .inr (Eq.refl _)
    | ok p => exact k p.1 p.2

theorem UpToVM.ite {α : Type} {c : Prop} [Decidable c] {x y x' y' : VM P M α} (h : UpToVM x y) (k : UpToVM x' y') :
    UpToVM (if c then x else x') (if c then y else y') := by
  split
  · exact h
  · exact k

variable (fs : List FnPtr) (prog : Program) (fl : FloatOps) (mem : MemOps P M)

theorem copyArgs_env {e e' : Env P M} (h : ∀ m a, copyVal e m a = copyVal e' m a) : ∀ (as : List P) (m : M) (acc : List P),
    copyArgs e m acc as = copyArgs e' m acc as
  | [], _, _ => rfl
  | a :: as, m, acc => by
    unfold copyArgs
    rw [h]
    cases copyVal e' m a with
    | error => rfl
    | ok p => exact copyArgs_env h as _ _

theorem popViews_env {e e' : Env P M} (h : ∀ a, view e a = view e' a) : ∀ (n : Nat) (acc : List View),
    popViews e n acc = popViews e' n acc
  | 0, _ => rfl
  | n + 1, acc => by
    unfold popViews
    simp only [h, popViews_env h n]

theorem native_without : (Env.std (prog.without fs) fl mem).native = (Env.std prog fl mem).native := by
  funext p n
  simp only [Env.std, nativeBuiltins]
  cases Builtin.ofPtr p with
  | some b =>
    cases b <;> try rfl
    dsimp only [Builtin.run, builtinNewThread]
    have : ∀ f (args : List P), spawn { prog := prog.without fs, fl := fl, mem := mem, handlers := {}, native := fun _ _ => fault .ub } f args =
        spawn { prog := prog, fl := fl, mem := mem, handlers := {}, native := fun _ _ => fault .ub } f args := by
      intro f args
      unfold spawn prepare
      simp only [copyArgs_env (e := { prog := prog.without fs, fl := fl, mem := mem, handlers := {}, native := fun _ _ => fault .ub })
        (e' := { prog := prog, fl := fl, mem := mem, handlers := {}, native := fun _ _ => fault .ub }) fun _ _ => rfl]
    simp only [this]
    rfl
  | none =>
    dsimp only
    cases HostFn.ofPtr p with
    | some b =>
      cases b <;> try rfl
      dsimp only [HostFn.run, hostSdl]
      simp only [popViews_env (e := { prog := prog.without fs, fl := fl, mem := mem, handlers := {}, native := fun _ _ => fault .ub })
        (e' := { prog := prog, fl := fl, mem := mem, handlers := {}, native := fun _ _ => fault .ub }) fun _ => rfl]
      rfl
    | none => rfl

theorem syscall_less (a n : I32) :
    UpToVM (doSyscall (Env.std (prog.without fs) fl mem) a n) (doSyscall (Env.std prog fl mem) a n) := by
  intro s
  unfold doSyscall
  split
  · exact .rfl _
  · rw [show (Env.std (prog.without fs) fl mem).prog.syscalls[a.toNat]? = ((Env.std prog fl mem).prog.syscalls[a.toNat]?).map
      (fun s => { s with call := s.call.filter fun f => !fs.contains f }) from List.getElem?_map ..]
    cases (Env.std prog fl mem).prog.syscalls[a.toNat]? with
    | none => exact .rfl _
    | some y =>
      dsimp only [Option.map_some]
      cases hc : y.call with
      | none => exact .rfl _
      | some p =>
        rw [Option.filter_some]
        split
        · rw [native_without]; exact .rfl _
        · exact .inl rfl

theorem exec_less (op : Option Op) :
    UpToVM (exec (Env.std (prog.without fs) fl mem) op) (exec (Env.std prog fl mem) op) := by
  have hfill : ∀ a n, fillArray (Env.std (prog.without fs) fl mem) a n = fillArray (Env.std prog fl mem) a n := by
    intro a n
    induction n with
    | zero => rfl
    | succ n ih => unfold fillArray; rw [ih]; rfl
  cases op with
  | none => exact .rfl _
  | some op =>
    cases op <;> first
      | exact .rfl _
      | skip
    · exact UpToVM.bind (.rfl _) fun n => UpToVM.bind (.rfl _) fun a => syscall_less fs prog fl mem a n
    · refine UpToVM.bind (.rfl _) fun n => UpToVM.bind (.rfl _) fun c => UpToVM.bind (.rfl _) fun x => ?_
      cases x <;> first
        | exact .rfl _
        | exact syscall_less fs prog fl mem _ n
    · simp only [exec, doARY_INIT, hfill]
      exact .rfl _

theorem step_less : UpToVM (stepImp (Env.std (prog.without fs) fl mem)) (stepImp (Env.std prog fl mem)) :=
  UpToVM.bind (.rfl _) fun b => UpToVM.bind (exec_less fs prog fl mem _) fun _ => .rfl _

theorem loop_less : ∀ n, UpToVM (resumeLoop (Env.std (prog.without fs) fl mem) n) (resumeLoop (Env.std prog fl mem) n)
  | 0 => .rfl _
  | n + 1 => UpToVM.bind (.rfl _) fun _ => UpToVM.bind (step_less fs prog fl mem) fun _ => UpToVM.bind (.rfl _) fun t =>
      UpToVM.ite (.rfl _) (UpToVM.ite (.rfl _) (loop_less n))

theorem quantum_less (n : I32) :
    UpToVM (runQuantum (Env.std (prog.without fs) fl mem) n) (runQuantum (Env.std prog fl mem) n) := by
  unfold runQuantum
  exact UpToVM.ite (UpToVM.bind (loop_less fs prog fl mem _) fun _ => .rfl _)
    (UpToVM.bind (loop_less fs prog fl mem _) fun _ => .rfl _)

theorem resume_less (n : I32) : UpToVM (resume (Env.std (prog.without fs) fl mem) n) (resume (Env.std prog fl mem) n) :=
  UpToVM.bind (.rfl _) fun _ => UpToVM.ite (.rfl _) (UpToVM.bind (.rfl _) fun _ =>
    UpToVM.bind (quantum_less fs prog fl mem n) fun _ => .rfl _)

theorem pass_less (c : I32) : ∀ (n : Nat) (m : M) (g : List P) (io : Io) (b a : List (Thread P)),
    UpTo (passLoop (Env.std (prog.without fs) fl mem) c n m g io b a) (passLoop (Env.std prog fl mem) c n m g io b a)
  | n, m, g, io, b, [] => by unfold passLoop; cases n <;> exact .rfl _
  | 0, m, g, io, b, t :: a => .rfl _
  | n + 1, m, g, io, b, t :: a => by
    unfold passLoop
    split
    · cases ret32 (t.waits.toInt - 1) with
      | error => exact .rfl _
      | ok w => exact pass_less c n _ _ _ _ _
    · split
      · exact pass_less c n _ _ _ _ _
      · rcases resume_less fs prog fl mem c ⟨t, m, g, b, a, io⟩ with h | h
        · rw [h]; exact .inl rfl
        · rw [h]
          rcases resume (Env.std prog fl mem) c ⟨t, m, g, b, a, io⟩ with f | ⟨ok, s⟩
          · exact .rfl _
          · dsimp only
            split
            · exact pass_less c n _ _ _ _ _
            · exact .rfl _

theorem vmResume_less (v : VmState P M) (n : I32) :
    UpTo (v.resume (Env.std (prog.without fs) fl mem) n) (v.resume (Env.std prog fl mem) n) :=
  pass_less fs prog fl mem n _ _ _ _ _ _

theorem newThread_without (v : VmState P M) (f : Function) (args : List P) :
    v.newThread (Env.std (prog.without fs) fl mem) f args = v.newThread (Env.std prog fl mem) f args := by
  unfold VmState.newThread prepare
  rw [copyArgs_env (e := Env.std (prog.without fs) fl mem) (e' := Env.std prog fl mem) fun _ _ => rfl]

theorem callLoop_less : ∀ n, UpToVM (callLoop (Env.std (prog.without fs) fl mem) n) (callLoop (Env.std prog fl mem) n)
  | 0 => .rfl _
  | n + 1 => UpToVM.bind (.rfl _) fun _ => UpToVM.ite (.rfl _) (UpToVM.bind (resume_less fs prog fl mem _) fun _ =>
      UpToVM.ite (callLoop_less n) (.rfl _))

theorem callOnce_less (v : VmState P M) (fuel : Nat) (f : Function) (args : List P) :
    UpTo (v.callOnce (Env.std (prog.without fs) fl mem) fuel f args) (v.callOnce (Env.std prog fl mem) fuel f args) := by
  unfold VmState.callOnce
  rw [newThread_without]
  rcases v.newThread (Env.std prog fl mem) f args with x | ⟨_ | _, v⟩
  · exact .rfl _
  · exact .rfl _
  dsimp only
  cases v.threads with
  | nil => exact .rfl _
  | cons t rest =>
    dsimp only
    have h : UpToVM (P := P) (M := M) (do gcCollect (Env.std (prog.without fs) fl mem); callLoop (Env.std (prog.without fs) fl mem) fuel)
        (do gcCollect (Env.std prog fl mem); callLoop (Env.std prog fl mem) fuel) :=
      UpToVM.bind (.rfl _) fun _ => callLoop_less fs prog fl mem fuel
    rcases h { th := t, mem := v.mem, globals := v.globals, before := [], after := rest, io := v.io } with h | h
    · rw [h]; exact .inl rfl
    · rw [h]; exact .rfl _

theorem sdlLoop_less : ∀ (rounds : List SdlRound) (v : VmState P M),
    UpTo (sdlLoop (Env.std (prog.without fs) fl mem) rounds v) (sdlLoop (Env.std prog fl mem) rounds v)
  | [], v => .rfl _
  | r :: rs, v => by
    unfold sdlLoop
    by_cases ht : v.io.sdl.tickMark < r.ticks
    · rw [if_pos ht, if_pos ht]
      rcases vmResume_less fs prog fl mem v 1024 with h | h
      · rw [h]; exact .inl rfl
      · rw [h]
        rcases v.resume (Env.std prog fl mem) 1024 with f | ⟨_ | _, v⟩
        · exact .rfl _
        · exact .rfl _
        · dsimp only
          split
          · exact .rfl _
          · exact sdlLoop_less rs v
    · rw [if_neg ht, if_neg ht]
      dsimp only
      split
      · exact .rfl _
      · exact sdlLoop_less rs v
end
end Ccml
