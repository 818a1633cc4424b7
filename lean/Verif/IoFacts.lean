import Verif.GcHook
import Verif.Host
/-!
Input and output over a whole run (proof infrastructure).
-/
namespace Ccml
variable {P M : Type} {α : Type}

/-- Input and output change as host functions change them. -/
def IoStep (s s' : St P M) : Prop := IoNext s.io s'.io

theorem coarse_io : Coarse (IoStep (P := P) (M := M)) :=
  ⟨fun _ _ _ _ _ h => h, fun _ _ _ h k => IoNext.trans h k⟩

theorem spawn_io (e : Env P M) (f : Function) (a : List P) : Pres IoStep (spawn e f a) := by
  refine ⟨fun s b s' h => ?_⟩
  unfold spawn at h
  split at h <;> cases h <;> exact IoNext.refl _

theorem host_io (prog : Program) (fl : FloatOps) (mem : MemOps P M) : HostPres IoStep (Env.std prog fl mem) :=
  std_host_pres coarse_io.pre prog fl mem (fun e _ _ _ => spawn_io e) (fun e _ _ _ => coarse_io.wait e) (coarse_io.modTh _)

theorem collect_io (e : Env P M) : Pres IoStep (gcCollect e) := by
  refine ⟨fun s b s' h => ?_⟩
  unfold gcCollect at h
  dsimp only at h
  split at h
  · cases h
  · split at h
    · cases h
    · split at h
      · cases h
      · cases h
        exact IoNext.refl _

theorem tick_io (e : Env P M) : Pres IoStep (tickGc e) := by
  refine ⟨fun s b s' h => ?_⟩
  unfold tickGc at h
  split at h
  · exact (collect_io e).run _ _ _ h
  · cases h; exact IoNext.refl _

theorem finish_io (prog : Program) (fl : FloatOps) (mem : MemOps P M) : FinishPres IoStep (Env.std prog fl mem) :=
  ⟨fun _ h => (by cases h), fun _ h => (by cases h)⟩

section
variable (prog : Program) (fl : FloatOps) (mem : MemOps P M)

theorem resume_io (n : I32) : Pres IoStep (resume (Env.std prog fl mem) n) :=
  resume_pres coarse_io _ (host_io prog fl mem) (finish_io prog fl mem) (tick_io _) n

theorem step_io : Pres IoStep (stepImp (Env.std prog fl mem)) := stepImp_pres coarse_io _ (host_io prog fl mem)

theorem stepInst_io : Pres IoStep (stepInst (Env.std prog fl mem)) := by
  have hR := (coarse_io (P := P) (M := M)).pre
  unfold stepInst
  pres hR
  · exact collect_io _
  · exact step_io prog fl mem

theorem stepLineLoop_io (l : Line) : ∀ n, Pres IoStep (stepLineLoop (Env.std prog fl mem) l n)
  | 0 => Pres.fault coarse_io.pre _
  | n + 1 => by
    have hR := (coarse_io (P := P) (M := M)).pre
    unfold stepLineLoop assertThat
    pres hR
    · exact step_io prog fl mem
    · exact stepLineLoop_io l n

theorem stepLine_io (n : Nat) : Pres IoStep (stepLine (Env.std prog fl mem) n) := by
  have hR := (coarse_io (P := P) (M := M)).pre
  unfold stepLine
  pres hR
  exact stepLineLoop_io prog fl mem _ n

theorem runSched_io : ∀ cs, Pres IoStep (runSched (Env.std prog fl mem) cs)
  | [] => Pres.pure coarse_io.pre _
  | c :: cs => by
    have hR := (coarse_io (P := P) (M := M)).pre
    unfold runSched
    pres hR
    all_goals first
      | exact collect_io _
      | exact step_io prog fl mem
      | exact runSched_io cs

theorem callLoop_io : ∀ n, Pres IoStep (callLoop (Env.std prog fl mem) n)
  | 0 => Pres.fault coarse_io.pre _
  | n + 1 => by
    have hR := (coarse_io (P := P) (M := M)).pre
    unfold callLoop
    pres hR
    · exact resume_io prog fl mem _
    · exact callLoop_io n

theorem passLoop_io (c : I32) : ∀ (n : Nat) (m : M) (g : List P) (io : Io) (b a : List (Thread P)) r v,
    passLoop (Env.std prog fl mem) c n m g io b a = .ok (r, v) → IoNext io v.io
  | n, m, g, io, b, [], r, v, h => by
    unfold passLoop at h
    cases h
    exact .refl _
  | 0, m, g, io, b, t :: a, r, v, h => by
    unfold passLoop at h
    cases h
  | n + 1, m, g, io, b, t :: a, r, v, h => by
    unfold passLoop at h
    split at h
    · split at h
      · cases h
      · exact passLoop_io c n _ _ _ _ _ _ _ h
    · split at h
      · exact passLoop_io c n _ _ _ _ _ _ _ h
      · split at h
        · cases h
        · rename_i hr
          have h1 := (resume_io prog fl mem c).run _ _ _ hr
          split at h
          · exact IoNext.trans h1 (passLoop_io c n _ _ _ _ _ _ _ h)
          · split at h
            · cases h
              exact h1
            · cases h

theorem newThread_io {v : VmState P M} {f : Function} {args : List P} {b : Bool} {v' : VmState P M}
    (h : v.newThread (Env.std prog fl mem) f args = .ok (b, v')) : v'.io = v.io := by
  unfold VmState.newThread at h
  split at h
  · cases h
  · cases h; rfl
  · cases h; rfl

theorem onThread_io {v v' : VmState P M} {k : Nat} {x : VM P M α} {a : α} (hx : Pres IoStep x)
    (h : onThread v k x = .ok (a, v')) : IoNext v.io v'.io := by
  unfold onThread at h
  split at h
  · cases h
  · split at h
    · cases h
    · rename_i hr
      cases h
      exact hx.run _ _ _ hr

theorem callInit_io {v v' : VmState P M} {b : Bool} (h : v.callInit (Env.std prog fl mem) = .ok (b, v')) :
    IoNext v.io v'.io := by
  unfold VmState.callInit at h
  split at h
  · cases h; exact .refl _
  · split at h
    · cases h
    · rename_i hn
      cases h
      rw [newThread_io prog fl mem hn]; exact .refl _
    · rename_i hn
      have := passLoop_io prog fl mem _ _ _ _ _ _ _ _ _ h
      rw [newThread_io prog fl mem hn] at this
      exact this

theorem callOnce_io {v v' : VmState P M} {f : Function} {args : List P} {n : Nat} {r : CallResult P}
    (h : v.callOnce (Env.std prog fl mem) n f args = .ok (r, v')) : IoNext v.io v'.io := by
  have hR := (coarse_io (P := P) (M := M)).pre
  unfold VmState.callOnce at h
  split at h
  · cases h
  · cases h
  · rename_i hn
    have hio := newThread_io prog fl mem hn
    split at h
    · cases h
    · split at h
      · cases h
      · rename_i hr
        have h1 := (Pres.bind hR (collect_io _) fun _ => callLoop_io prog fl mem n).run _ _ _ hr
        have h1 : IoNext _ _ := h1
        dsimp only at h1 h
        rw [hio] at h1
        split at h
        · cases h; exact h1
        · split at h
          · cases h
          · cases h; exact h1

theorem hostStep_io {v v' : VmState P M} {op : HostOp} {o : HostOut}
    (h : hostStep (Env.std prog fl mem) v op = .ok (o, v')) : IoNext v.io v'.io := by
  have hR := (coarse_io (P := P) (M := M)).pre
  have ob : ∀ {β γ : Type} {x : Out β} {f : β → Out γ} {c : γ}, (x >>= f) = .ok c → ∃ b, x = .ok b ∧ f b = .ok c := by
    intro β γ x f c hx
    cases x with
    | error y => cases hx
    | ok b => exact ⟨b, rfl, hx⟩
  cases op <;> simp only [hostStep] at h
  case init =>
    obtain ⟨⟨b, v1⟩, h1, h2⟩ := ob h
    cases h2
    exact callInit_io prog fl mem h1
  case spawn f args =>
    obtain ⟨⟨ps, m⟩, h1, h2⟩ := ob h
    obtain ⟨⟨b, v1⟩, h3, h4⟩ := ob h2
    cases h4
    rw [newThread_io prog fl mem h3]
    exact .refl _
  case resume n =>
    obtain ⟨⟨b, v1⟩, h1, h2⟩ := ob h
    cases h2
    exact passLoop_io prog fl mem _ _ _ _ _ _ _ _ _ h1
  case call f args n =>
    obtain ⟨⟨ps, m⟩, h1, h2⟩ := ob h
    obtain ⟨⟨b, v1⟩, h3, h4⟩ := ob h2
    cases h4
    have := callOnce_io prog fl mem h3
    exact this
  case stepInst k =>
    obtain ⟨⟨b, v1⟩, h1, h2⟩ := ob h
    cases h2
    exact onThread_io (stepInst_io prog fl mem) h1
  case stepLine k n =>
    obtain ⟨⟨b, v1⟩, h1, h2⟩ := ob h
    cases h2
    exact onThread_io (stepLine_io prog fl mem n) h1
  case steps k cs =>
    obtain ⟨⟨b, v1⟩, h1, h2⟩ := ob h
    cases h2
    exact onThread_io (runSched_io prog fl mem cs) h1
  case breakAdd k l =>
    obtain ⟨⟨b, v1⟩, h1, h2⟩ := ob h
    cases h2
    exact onThread_io (coarse_io.modTh _) h1
  case breakRemove k l =>
    obtain ⟨⟨b, v1⟩, h1, h2⟩ := ob h
    cases h2
    exact onThread_io (coarse_io.modTh _) h1

theorem session_io : ∀ {ops : List HostOp} {v v' : VmState P M} {os : List HostOut},
    session (Env.std prog fl mem) v ops = (os, .ok v') → IoNext v.io v'.io
  | [], v, v', os, h => by cases h; exact .refl _
  | op :: ops, v, v', os, h => by
    rw [session] at h
    split at h
    · cases h
    · rename_i hr
      have h1 := hostStep_io prog fl mem hr
      have := (Prod.mk.inj h).2
      exact h1.trans (session_io (Prod.ext rfl this))

end
end Ccml
