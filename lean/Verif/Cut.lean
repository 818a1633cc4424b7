import Verif.LoopGoes
import Verif.Without
import Verif.IoFacts
import Verif.Whole
/-!
Stopping a run after a number of calls of graphical functions (proof infrastructure): a thread that is given an error behind
the `N`th call has done the same up to there.
-/
namespace Ccml
open Sem (State Res)

/-- The error the thread is given. -/
abbrev cutErr : TErr := .bad_syscall

/-- A host function that fails when the number of calls of graphical functions gets to `N`. -/
def cutHost (N : Nat) (host : FnPtr → List Val → State → Res Val) (fn : FnPtr) (args : List Val) (w : State) : Res Val :=
  match host fn args w with
  | .ok v w' => if w.io.asked < N ∧ N ≤ w'.io.asked then .err cutErr w' else .ok v w'
  | r => r

section
variable {P M : Type}

/-- The same for the machine. -/
def cutNative (N : Nat) (native : FnPtr → I32 → VM P M Unit) (fn : FnPtr) (n : I32) : VM P M Unit := fun s =>
  match native fn n s with
  | .ok ((), s1) =>
    if s.io.asked < N ∧ N ≤ s1.io.asked ∧ s1.th.finished = false then
      .ok ((), { s1 with th := { s1.th with error := cutErr, finished := true } })
    else .ok ((), s1)
  | .error f => .error f

/-- The machine with these host functions. -/
def cutEnv (N : Nat) (e : Env P M) : Env P M := { e with native := cutNative N e.native }

/-- `x` does what `y` does, or it ends where `y` goes on. -/
def CutVM (x y : VM P M Unit) : Prop :=
  ∀ s, x s = y s ∨ ∃ s1 sc, y s = .ok ((), s1) ∧ x s = .ok ((), sc) ∧ sc.io = s1.io ∧ sc.th.finished = true

theorem CutVM.rfl (x : VM P M Unit) : CutVM x x := fun _ => .inl (Eq.refl _)

theorem CutVM.bind {α : Type} {x : VM P M α} {f g : α → VM P M Unit} (k : ∀ a, CutVM (f a) (g a)) :
    CutVM (x >>= f) (x >>= g) := by
  intro s
  rw [vm_bind, vm_bind]
  cases x s with
  | error => exact .inl (Eq.refl _)
  | ok p => exact k p.1 p.2

theorem CutVM.modTh {x y : VM P M Unit} {f : Thread P → Thread P} (h : CutVM x y) (hf : ∀ t, t.finished = true → (f t).finished = true) :
    CutVM (x >>= fun _ => modTh f) (y >>= fun _ => modTh f) := by
  intro s
  rw [vm_bind, vm_bind]
  rcases h s with h | ⟨s1, sc, h1, h2, h3, h4⟩
  · rw [h]; exact .inl (Eq.refl _)
  · rw [h1, h2]
    exact .inr ⟨_, _, Eq.refl _, Eq.refl _, h3, hf _ h4⟩

variable (N : Nat) (e : Env P M)

theorem syscall_cut (a n : I32) : CutVM (doSyscall (cutEnv N e) a n) (doSyscall e a n) := by
  unfold doSyscall
  split
  · exact .rfl _
  · show CutVM (match e.prog.syscalls[a.toNat]? with
      | none => _
      | some s => _) _
    cases e.prog.syscalls[a.toNat]? with
    | none => exact .rfl _
    | some y =>
      dsimp only
      cases y.call with
      | none => exact .rfl _
      | some p =>
        intro s
        show cutNative N e.native p n s = _ ∨ ∃ s1 sc, _ ∧ cutNative N e.native p n s = _ ∧ _
        unfold cutNative
        dsimp only
        rcases e.native p n s with f | ⟨⟨⟩, s1⟩
        · exact .inl rfl
        · dsimp only
          split
          · exact .inr ⟨_, _, rfl, rfl, rfl, rfl⟩
          · exact .inl rfl

theorem exec_cut (op : Option Op) : CutVM (exec (cutEnv N e) op) (exec e op) := by
  have hfill : ∀ a n, fillArray (cutEnv N e) a n = fillArray e a n := by
    intro a n
    induction n with
    | zero => rfl
    | succ n ih => unfold fillArray; rw [ih]; rfl
  cases op with
  | none => exact .rfl _
  | some op =>
    cases op <;> first
      | exact .rfl _
      | skip
    · exact CutVM.bind fun n => CutVM.bind fun a => syscall_cut N e a n
    · refine CutVM.bind fun n => CutVM.bind fun c => CutVM.bind fun x => ?_
      cases x <;> first
        | exact .rfl _
        | exact syscall_cut N e _ n
    · simp only [exec, doARY_INIT, hfill]
      exact .rfl _

theorem step_cut : CutVM (stepImp (cutEnv N e)) (stepImp e) := by
  unfold stepImp
  refine CutVM.bind fun b => ?_
  have h1 := (exec_cut N e (Op.ofByte b)).modTh (f := checkBreak e) fun t ht => by
    unfold checkBreak; split <;> exact ht
  have h2 := h1.modTh (f := fun t => { t with cycles := t.cycles + 1 }) fun t ht => ht
  rw [vm_assoc, vm_assoc] at h2
  exact h2
end

namespace Props

/-- Input and output along a run. -/
theorem Goes.io {prog : Program} {fl : FloatOps} {j : Nat} {s s' : St Val Store} (h : Goes prog fl j s s') : IoNext s.io s'.io := by
  induction h with
  | done s => exact .refl _
  | step hf hs _ ih => exact IoNext.trans ((step_io prog fl Mem.abs).run _ _ _ hs : IoNext _ _) ih

/-! ### A run that gets to a function that was taken away -/

section
variable {fs : List FnPtr} {prog : Program} {fl : FloatOps}

/-- The thread calls a function that was taken away; `io` comes later. -/
def Missed (fs : List FnPtr) (prog : Program) (fl : FloatOps) (s : St Val Store) (io : Io) : Prop :=
  ∃ j s2, Goes (prog.without fs) fl j s s2 ∧ s2.th.finished = false ∧
    stepImp (Env.std (prog.without fs) fl Mem.abs) (started s2) = .error .assert ∧ IoNext s2.io io

theorem Missed.later {s : St Val Store} {io io' : Io} (h : Missed fs prog fl s io) (k : IoNext io io') : Missed fs prog fl s io' := by
  obtain ⟨j, s2, h1, h2, h3, h4⟩ := h
  exact ⟨j, s2, h1, h2, h3, h4.trans k⟩

theorem Missed.unmask {s : St Val Store} {b a : List (Thread Val)} {w : I32} {io : Io}
    (h : Missed fs prog fl (s.mask b a w) io) : Missed fs prog fl s io := by
  obtain ⟨j, s1, h1, h2, h3, h4⟩ := h
  obtain ⟨b', a', w', h5⟩ := h1.unmask
  refine ⟨j, _, h5, h2, ?_, h4⟩
  have := (stepImp_blind (prog.without fs) fl Mem.abs).run (started s1) b' a' w'
  rw [h3] at this
  exact this

theorem Missed.before {i : Nat} {s s1 : St Val Store} {io : Io} (h : Goes (prog.without fs) fl i s s1) (k : Missed fs prog fl s1 io) :
    Missed fs prog fl s io := by
  obtain ⟨j, s2, h1, h2, h3, h4⟩ := k
  exact ⟨i + j, s2, h.trans h1, h2, h3, h4⟩

theorem Missed.wake {s : St Val Store} {io : Io} (h : Missed fs prog fl (started s) io) : Missed fs prog fl s io := by
  obtain ⟨j, s2, h1, h2, h3, h4⟩ := h
  cases j with
  | zero => cases h1; exact ⟨0, s, .done _, h2, h3, h4⟩
  | succ j => exact ⟨_, s2, h1.wake (by omega), h2, h3, h4⟩

theorem resumeLoop_missed (n : Nat) : ∀ (s s' : St Val Store) (b : Bool), s.th.finished = false → s.th.halted = false →
    resumeLoop (Env.std (prog.without fs) fl Mem.abs) n s = .error .assert →
    resumeLoop (Env.std prog fl Mem.abs) n s = .ok (b, s') → Missed fs prog fl s s'.io := by
  induction n with
  | zero => intro s s' b _ _ h; cases h
  | succ n ih =>
    intro s s' b hf hh h k
    have hio : IoNext s.io s'.io :=
      (resumeLoop_pres coarse_io _ (host_io prog fl Mem.abs) (finish_io prog fl Mem.abs) (tick_io _) _).run _ _ _ k
    rw [resumeLoop_abs] at h k
    cases hs : stepImp (Env.std (prog.without fs) fl Mem.abs) s with
    | error g =>
      rw [hs] at h
      cases h
      exact ⟨0, s, .done _, hf, by rw [started_awake hh]; exact hs, hio⟩
    | ok p =>
      obtain ⟨u, s1⟩ := p
      rw [hs] at h
      rw [(step_less fs prog fl Mem.abs s).eq hs] at k
      dsimp only at h k
      split at h
      · cases h
      · rename_i h1
        rw [if_neg h1] at k
        split at h
        · cases h
        · rename_i h2
          rw [if_neg h2] at k
          exact Missed.before (.step hf (by rw [started_awake hh]; exact hs) (.done _))
            (ih s1 s' b (by simpa using h1) (by simpa using h2) h k)

theorem pass_missed (hfs : NoSpawn (prog.without fs)) {v v' : VmState Val Store} {n : I32} (hn : 0 ≤ n.toInt) {b : Bool} {t : Thread Val}
    {ds : List (Thread Val)} (hv : v.threads = t :: ds) (hd : ∀ t ∈ ds, Dead t)
    (h : v.resume (Env.std (prog.without fs) fl Mem.abs) n = .error .assert)
    (k : v.resume (Env.std prog fl Mem.abs) n = .ok (b, v')) : Missed fs prog fl (headSt v t ds) v'.io := by
  unfold VmState.resume at h k
  rw [hv, List.length_cons] at h k
  unfold passLoop at h k
  split at h
  · split at h
    · rename_i g hr
      cases h
      unfold ret32 at hr
      split at hr <;> cases hr
    · rw [pass_dead _ _ _ _ _ _ _ _ (Nat.le_refl _) hd] at h
      cases h
  · rename_i hw
    rw [if_neg hw] at k
    split at h
    · rw [pass_dead _ _ _ _ _ _ _ _ (Nat.le_refl _) hd] at h
      cases h
    · rename_i hf
      rw [if_neg hf] at k
      have hf : t.finished = false := by
        cases hx : t.finished with
        | false => rfl
        | true => exact absurd (.inl hx) hf
      rw [show (⟨t, v.mem, v.globals, [], ds, v.io⟩ : St Val Store) = headSt v t ds from rfl] at h k
      cases hr : resume (Env.std (prog.without fs) fl Mem.abs) n (headSt v t ds) with
      | error g =>
        rw [hr] at h
        cases h
        cases hk : resume (Env.std prog fl Mem.abs) n (headSt v t ds) with
        | error g => rw [hk] at k; cases k
        | ok q =>
          obtain ⟨ok, s'⟩ := q
          rw [hk] at k
          dsimp only at k
          have hlast : IoNext s'.io v'.io := by
            split at k
            · exact passLoop_io prog fl Mem.abs n _ _ _ _ _ _ _ _ k
            · split at k <;> cases k
              exact .refl _
          refine Missed.later ?_ hlast
          rw [resume_std _ _ hn hf] at hr hk
          cases hl : resumeLoop (Env.std (prog.without fs) fl Mem.abs) n.toNat (started (headSt v t ds)) with
          | ok p => rw [hl] at hr; cases hr
          | error x =>
            rw [hl] at hr
            cases hr
            cases hm : resumeLoop (Env.std prog fl Mem.abs) n.toNat (started (headSt v t ds)) with
            | error x => rw [hm] at hk; cases hk
            | ok p =>
              rw [hm] at hk
              cases hk
              exact (resumeLoop_missed _ (started (headSt v t ds)) _ _ hf rfl hl hm).wake
      | ok p =>
        obtain ⟨ok, s⟩ := p
        rw [hr] at h
        dsimp only at h
        obtain ⟨⟨j, hj⟩, hb⟩ := resume_goes n _ _ _ hf hr
        obtain ⟨h1, h2⟩ := hj.others hfs
        have h2 : s.after = ds := h2
        cases ok with
        | true =>
          rw [if_pos rfl, h2, pass_dead _ _ _ _ _ _ _ _ (Nat.le_refl _) hd] at h
          cases h
        | false =>
          rw [if_neg (by decide), if_pos (by simpa using hb)] at h
          cases h

theorem vmResume_io {P M : Type} {mem : MemOps P M} {v v' : VmState P M} {n : I32} {b : Bool}
    (h : v.resume (Env.std prog fl mem) n = .ok (b, v')) : IoNext v.io v'.io :=
  passLoop_io prog fl mem n _ _ _ _ _ _ _ _ h

theorem sdlLoop_io {P M : Type} {mem : MemOps P M} : ∀ (rounds : List SdlRound) {v v' : VmState P M} {x : Option SdlEnd},
    sdlLoop (Env.std prog fl mem) rounds v = .ok (x, v') → IoNext v.io v'.io
  | [], v, v', x, h => by cases h; exact .refl _
  | r :: rs, v, v', x, h => by
    rw [sdlLoop] at h
    by_cases ht : v.io.sdl.tickMark < r.ticks
    · rw [if_pos ht] at h
      cases hr : v.resume (Env.std prog fl mem) 1024 with
      | error f => rw [hr] at h; cases h
      | ok p =>
        obtain ⟨b, u⟩ := p
        have h1 := vmResume_io hr
        rw [hr] at h
        cases b with
        | false => cases h; exact h1
        | true =>
          dsimp only at h
          split at h
          · cases h; exact h1
          · exact h1.trans (sdlLoop_io rs h)
    · rw [if_neg ht] at h
      dsimp only at h
      split at h
      · cases h; exact .refl _
      · exact sdlLoop_io rs h

/-- The loop gets to a function that was taken away: so does the thread of `main`. -/
theorem loop_missed (hfs : NoSpawn (prog.without fs)) : ∀ (rounds : List SdlRound) (v v2 : VmState Val Store) (x : Option SdlEnd) (t : Thread Val)
    (ds : List (Thread Val)), v.threads = t :: ds → (∀ t ∈ ds, Dead t) → t.finished = false → ErrorStops (headSt v t ds) →
    sdlLoop (Env.std (prog.without fs) fl Mem.abs) rounds v = .error .assert →
    sdlLoop (Env.std prog fl Mem.abs) rounds v = .ok (x, v2) → Missed fs prog fl (headSt v t ds) v2.io
  | [], v, v2, x, t, ds, hv, hd, hf, he, h, _ => by cases h
  | r :: rs, v, v2, x, t, ds, hv, hd, hf, he, h, k => by
    rw [sdlLoop] at h k
    by_cases ht : v.io.sdl.tickMark < r.ticks
    · rw [if_pos ht] at h k
      cases hr : v.resume (Env.std (prog.without fs) fl Mem.abs) 1024 with
      | error f =>
        rw [hr] at h
        cases h
        cases hk : v.resume (Env.std prog fl Mem.abs) 1024 with
        | error f => rw [hk] at k; cases k
        | ok p =>
          obtain ⟨b, v1⟩ := p
          rw [hk] at k
          refine (pass_missed hfs (by decide) hv hd hr hk).later ?_
          cases b with
          | false => cases k; exact .refl _
          | true =>
            dsimp only at k
            split at k
            · cases k; exact .refl _
            · exact sdlLoop_io rs k
      | ok p =>
        rw [hr] at h
        rw [(vmResume_less fs prog fl Mem.abs v 1024).eq hr] at k
        obtain ⟨b, v1⟩ := p
        rcases pass_cases hfs hv hd he hr with ⟨hw, rfl, rfl⟩ | ⟨-, hx, -⟩ | ⟨hw, -, s, hq, hb, rfl⟩
        · dsimp only at h k
          by_cases hq : r.quit = true
          · rw [if_pos hq] at h; cases h
          · rw [if_neg hq] at h k
            exact (loop_missed hfs rs ⟨v.mem, v.globals, [{ t with waits := t.waits - 1 }], v.io⟩ _ _ _ [] rfl (by simp) hf he h k :
              Missed fs prog fl ((headSt v t ds).mask [] [] (t.waits - 1)) _).unmask
        · rw [hf] at hx; cases hx
        · rw [resume_std _ _ (by decide) hf] at hq
          rw [show (1024 : I32).toNat = 1023 + 1 from rfl] at hq
          cases hl : resumeLoop (Env.std (prog.without fs) fl Mem.abs) (1023 + 1) (started (headSt v t ds)) with
          | error x => rw [hl] at hq; cases hq
          | ok p =>
            obtain ⟨b2, s2⟩ := p
            rw [hl] at hq
            dsimp only at hq
            cases hq
            obtain ⟨j, hjp, hj⟩ := resumeLoop_moves _ (started (headSt v t ds)) _ _ hf rfl hl
            have hj := hj.wake hjp
            have he1 : ErrorStops s := hj.errorStops he
            cases hfx : s.th.finished with
            | false =>
              have hx := hasError_false he1 hfx
              rw [hx] at h k
              simp only [Bool.not_false, if_true] at h k
              by_cases hq : r.quit = true
              · rw [if_pos hq] at h; cases h
              · rw [if_neg hq] at h k
                exact Missed.before hj (loop_missed hfs rs ⟨s.mem, s.globals, [s.th], s.io⟩ _ _ s.th [] rfl (by simp) hfx he1 h k :
                  Missed fs prog fl (s.mask [] [] s.th.waits) _).unmask
            | true =>
              cases hx : s.th.hasError with
              | true => rw [hx] at h; cases h
              | false =>
                rw [hx] at h k
                simp only [Bool.not_false, if_true] at h k
                by_cases hq : r.quit = true
                · rw [if_pos hq] at h; cases h
                · rw [if_neg hq] at h
                  have := loop_idle (fl := fl) hfs rs ⟨s.mem, s.globals, [s.th], s.io⟩ (.inr ⟨_, _, rfl, hfx, by simp⟩)
                  rw [h] at this
                  cases this.1
    · rw [if_neg ht] at h k
      dsimp only at h k
      by_cases hq : r.quit = true
      · rw [if_pos hq] at h; cases h
      · rw [if_neg hq] at h k
        exact loop_missed hfs rs v v2 x t ds hv hd hf he h k
end

/-- A run that is cut is part of the run that is not. -/
theorem steps_cut {prog : Program} {fl : FloatOps} {N k : Nat} {s s' : St Val Store}
    (h : Steps (cutEnv N (Env.std prog fl Mem.abs)) k s s') : ∃ j s1, Goes prog fl j s s1 ∧ s1.io = s'.io := by
  induction h with
  | zero s => exact ⟨0, s, .done _, rfl⟩
  | succ hg h1 h2 ih =>
    rename_i s s1 s2
    rcases step_cut N (Env.std prog fl Mem.abs) (awake s) with h | ⟨t1, tc, a1, a2, a3, a4⟩
    · obtain ⟨j, t, ht, hio⟩ := ih
      exact ⟨j + 1, t, .step hg.1 (h.symm.trans h1) ht, hio⟩
    · rw [h1] at a2
      cases a2
      cases h2 with
      | zero => exact ⟨1, t1, .step hg.1 a1 (.done _), a3.symm⟩
      | succ hg' => exact absurd (hg'.1.symm.trans a4) (by decide)

end Props

theorem hostOk_cut {N : Nat} {e : Env Val Store} {host : FnPtr → List Val → State → Res Val} (h : HostOk e host) :
    HostOk (cutEnv N e) (cutHost N host) := by
  intro fn args rest s h1 h2 h3 h4
  have := h fn args rest s h1 h2 h3 h4
  unfold cutHost
  show match (match host fn args (stOf s) with
    | .ok v w' => if s.io.asked < N ∧ N ≤ w'.io.asked then Res.err cutErr w' else .ok v w'
    | r => r) with
    | .ok v w => ∃ s', cutNative N e.native fn (i32 args.length) s = .ok ((), s') ∧ _
    | .err x w => ∃ s', cutNative N e.native fn (i32 args.length) s = .ok ((), s') ∧ _
    | .fault f => cutNative N e.native fn (i32 args.length) s = .error f
    | .timeout => False
    | .undef => True
  unfold cutNative
  dsimp only
  cases hr : host fn args (stOf s) with
  | ok v w =>
    rw [hr] at this
    obtain ⟨s', k1, k2, k3, k4, k5, k6, k7⟩ := this
    have k8 : w.io = s'.io := by rw [← k7]; rfl
    dsimp only
    rw [k1, k8]
    dsimp only
    by_cases hc : s.io.asked < N ∧ N ≤ s'.io.asked
    · rw [if_pos hc, if_pos ⟨hc.1, hc.2, k5⟩]
      exact ⟨_, rfl, rfl, rfl, by rw [← k7]; rfl⟩
    · rw [if_neg hc, if_neg fun h => hc ⟨h.1, h.2.1⟩]
      exact ⟨_, rfl, k2, k3, k4, k5, k6, k7⟩
  | err x w =>
    rw [hr] at this
    obtain ⟨s', k1, k2⟩ := this
    dsimp only
    rw [k1]
    dsimp only
    rw [if_neg fun h => by rw [k2.finished] at h; exact absurd h.2.2 (by decide)]
    exact ⟨_, rfl, k2⟩
  | fault f =>
    rw [hr] at this
    dsimp only
    rw [this]
  | timeout => rw [hr] at this; exact this
  | undef => trivial

end Ccml
