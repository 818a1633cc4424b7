import Verif.Goes
import Verif.SdlDriver
import Verif.Props.Compile
/-!
The main loop of the graphical driver as the run of the thread of `main` (proof infrastructure for C79).
-/
namespace Ccml.Props
open Ccml

/-- The program does not call `wait`. -/
def NoPause (prog : Program) : Prop := ∀ s ∈ prog.syscalls, s.call ≠ some Builtin.wait.ptr

/-- The number of rounds in which the clock is past the mark, so that the threads get to run. -/
def turns {P M : Type} (e : Env P M) : List SdlRound → VmState P M → Nat
  | [], _ => 0
  | r :: rs, v =>
    if v.io.sdl.tickMark < r.ticks then
      match v.resume e 1024 with
      | .ok (true, v) => if r.quit then 1 else 1 + turns e rs v
      | _ => 1
    else if r.quit then 0 else turns e rs v

section
variable {prog : Program} {fl : FloatOps}

/-- Without `wait` no instruction makes the thread wait. -/
theorem step_waits (hs : NoSpawn prog) (hw : NoPause prog) {s s' : St Val Store} {u : Unit}
    (h : stepImp (Env.std prog fl Mem.abs) s = .ok (u, s')) : s'.th.waits = s.th.waits := by
  have hR : Preorderish (fun s s' : St Val Store => s'.th.waits = s.th.waits) :=
    ⟨fun _ _ h => h.th.waits, fun _ _ _ h k => k.trans h⟩
  let ok : FnPtr → Bool := fun p => p != Builtin.new_thread.ptr && p != Builtin.wait.ptr
  rw [← restrict_step _ ok (by
    intro x hx p hp
    have h1 := hs x hx
    have h2 := hw x hx
    rw [hp] at h1 h2
    simp only [ok, Bool.and_eq_true, bne_iff_ne, ne_eq]
    exact ⟨fun hc => h1 (by rw [hc]), fun hc => h2 (by rw [hc])⟩)] at h
  have hp : HostPres (fun s s' : St Val Store => s'.th.waits = s.th.waits) (restrict (Env.std prog fl Mem.abs) ok) :=
    std_restrict_pres hR prog fl _ _ (by decide) (.inl (by decide)) (.inr ⟨fun s b s' h => by cases h; rfl⟩)
  have hx := exec_pres hR _ hp
  have : Pres (fun s s' : St Val Store => s'.th.waits = s.th.waits) (stepImp (restrict (Env.std prog fl Mem.abs) ok)) := by
    unfold stepImp
    refine Pres.bind hR (Pres.readOpcode hR _) fun b =>
      Pres.bind hR (hx _ fun _ => doRET_pres hR _ (leave_pres fun _ _ _ _ => rfl)) fun _ =>
        Pres.bind hR ⟨fun s b s' h => ?_⟩ fun _ => ⟨fun s b s' h => ?_⟩
    · cases h
      show (checkBreak _ s.th).waits = _
      unfold checkBreak
      split <;> rfl
    · cases h; rfl
  exact this.run _ _ _ h

theorem Goes.waits (hsp : NoSpawn prog) (hw : NoPause prog) {n : Nat} {s s' : St Val Store} (h : Goes prog fl n s s') :
    s'.th.waits = s.th.waits := by
  induction h with
  | done => rfl
  | step hf hs _ ih => exact ih.trans (step_waits hsp hw (s := started _) hs)

/-- The thread gets to an instruction that stops the machine. -/
def Stuck (prog : Program) (fl : FloatOps) (f : Fault) (j : Nat) (s : St Val Store) : Prop :=
  ∃ s1, Goes prog fl j s s1 ∧ s1.th.finished = false ∧ stepImp (Env.std prog fl Mem.abs) (started s1) = .error f

theorem Stuck.unmask {f : Fault} {j : Nat} {s : St Val Store} {b a : List (Thread Val)} {w : I32}
    (h : Stuck prog fl f j (s.mask b a w)) : Stuck prog fl f j s := by
  obtain ⟨s1, h1, h2, h3⟩ := h
  obtain ⟨b', a', w', h4⟩ := h1.unmask
  refine ⟨_, h4, h2, ?_⟩
  have := (stepImp_blind prog fl Mem.abs).run (started s1) b' a' w'
  rw [h3] at this
  exact this

theorem Stuck.before {f : Fault} {i j : Nat} {s s1 : St Val Store} (h : Goes prog fl i s s1) (k : Stuck prog fl f j s1) :
    Stuck prog fl f (i + j) s := by
  obtain ⟨s2, h1, h2, h3⟩ := k
  exact ⟨s2, h.trans h1, h2, h3⟩

theorem Stuck.wake {f : Fault} {j : Nat} {s : St Val Store} (h : Stuck prog fl f j (started s)) : Stuck prog fl f j s := by
  obtain ⟨s2, h1, h2, h3⟩ := h
  cases j with
  | zero => cases h1; exact ⟨s, .done _, h2, h3⟩
  | succ j => exact ⟨s2, h1.wake (by omega), h2, h3⟩

/-- Two runs from the same state: one is part of the other. -/
theorem Goes.split {i j : Nat} {s a b : St Val Store} (h : Goes prog fl i s a) (k : Goes prog fl j s b) (hij : i ≤ j) :
    Goes prog fl (j - i) a b := by
  induction h generalizing j with
  | done s => exact k
  | step hf hs _ ih =>
    cases k with
    | done => omega
    | step hf' hs' k =>
      rw [hs] at hs'
      cases hs'
      rw [Nat.add_sub_add_right]
      exact ih k (by omega)

/-- A run that is not over is shorter than one to the end. -/
theorem Goes.shorter {i j : Nat} {s a b : St Val Store} (h : Goes prog fl i s a) (k : Goes prog fl j s b)
    (ha : a.th.finished = false) (hb : b.th.finished = true) : i < j := by
  by_cases hij : i ≤ j
  · by_cases he : i = j
    · subst he
      have := h.split k hij
      rw [Nat.sub_self] at this
      cases this
      rw [ha] at hb; cases hb
    · omega
  · have := k.split h (by omega)
    cases hx : i - j with
    | zero => omega
    | succ m =>
      rw [hx] at this
      cases this with
      | step hf => rw [hb] at hf; cases hf

theorem Stuck.no_end {f : Fault} {i j : Nat} {s b : St Val Store} (h : Stuck prog fl f i s) (k : Goes prog fl j s b)
    (hb : b.th.finished = true) : False := by
  obtain ⟨s1, h1, h2, h3⟩ := h
  have hlt := h1.shorter k h2 hb
  have := h1.split k (by omega)
  cases hx : j - i with
  | zero => omega
  | succ m =>
    rw [hx] at this
    cases this with
    | step _ hs => rw [h3] at hs; cases hs

theorem Stuck.unique {f g : Fault} {i j : Nat} {s : St Val Store} (h : Stuck prog fl f i s) (k : Stuck prog fl g j s) :
    f = g ∧ i = j := by
  obtain ⟨s1, h1, h2, h3⟩ := h
  obtain ⟨t1, k1, k2, k3⟩ := k
  rcases Nat.lt_trichotomy i j with hij | hij | hij
  · have := h1.split k1 (by omega)
    cases hx : j - i with
    | zero => omega
    | succ m =>
      rw [hx] at this
      cases this with
      | step _ hs => rw [h3] at hs; cases hs
  · subst hij
    have := h1.split k1 (Nat.le_refl _)
    rw [Nat.sub_self] at this
    cases this
    rw [h3] at k3
    cases k3
    exact ⟨rfl, rfl⟩
  · have := k1.split h1 (by omega)
    cases hx : i - j with
    | zero => omega
    | succ m =>
      rw [hx] at this
      cases this with
      | step _ hs => rw [k3] at hs; cases hs

/-- No run goes past the place where it is stuck. -/
theorem Stuck.bound {f : Fault} {i j : Nat} {s b : St Val Store} (h : Stuck prog fl f i s) (k : Goes prog fl j s b) :
    j ≤ i := by
  obtain ⟨s1, h1, h2, h3⟩ := h
  apply Classical.byContradiction
  intro hij
  have := h1.split k (by omega)
  cases hx : j - i with
  | zero => omega
  | succ m =>
    rw [hx] at this
    cases this with
    | step _ hs => rw [h3] at hs; cases hs

/-- The loop of `resume`, whatever comes of it. -/
theorem resumeLoop_stuck (n : Nat) : ∀ (s : St Val Store) (f : Fault), s.th.finished = false → s.th.halted = false →
    resumeLoop (Env.std prog fl Mem.abs) n s = .error f → ∃ j, Stuck prog fl f j s := by
  induction n with
  | zero => intro s f _ _ h; cases h
  | succ n ih =>
    intro s f hf hh h
    rw [resumeLoop_abs] at h
    cases hs : stepImp (Env.std prog fl Mem.abs) s with
    | error g =>
      rw [hs] at h
      cases h
      exact ⟨0, s, .done _, hf, by rw [started_awake hh]; exact hs⟩
    | ok p =>
      obtain ⟨u, s1⟩ := p
      rw [hs] at h
      dsimp only at h
      split at h
      · cases h
      · rename_i h1
        split at h
        · cases h
        · rename_i h2
          obtain ⟨j, hj⟩ := ih s1 f (by simpa using h1) (by simpa using h2) h
          exact ⟨1 + j, Stuck.before (.step hf (by rw [started_awake hh]; exact hs) (.done _)) hj⟩

theorem resumeLoop_moves (n : Nat) (s s' : St Val Store) (b : Bool) (hf : s.th.finished = false) (hh : s.th.halted = false)
    (h : resumeLoop (Env.std prog fl Mem.abs) (n + 1) s = .ok (b, s')) : ∃ j, 0 < j ∧ Goes prog fl j s s' := by
  rw [resumeLoop_abs] at h
  cases hst : stepImp (Env.std prog fl Mem.abs) s with
  | error f => rw [hst] at h; cases h
  | ok p =>
    obtain ⟨u, s3⟩ := p
    have hst' : stepImp (Env.std prog fl Mem.abs) (started s) = .ok (u, s3) := by rw [started_awake hh]; exact hst
    rw [hst] at h
    dsimp only at h
    split at h
    · cases h; exact ⟨1, by omega, .step hf hst' (.done _)⟩
    · rename_i h1
      split at h
      · cases h; exact ⟨1, by omega, .step hf hst' (.done _)⟩
      · rename_i h2
        obtain ⟨j, hj⟩ := resumeLoop_goes _ s3 s' _ (by simpa using h1) (by simpa using h2) h
        exact ⟨j + 1, by omega, .step hf hst' hj⟩

/-- `call_once` is stuck where the thread is. -/
theorem call_stuck : ∀ (fuel : Nat) (s : St Val Store) (f : Fault), ErrorStops s →
    callLoop (Env.std prog fl Mem.abs) fuel s = .error f → f = .diverge ∨ ∃ j, Stuck prog fl f j s := by
  intro fuel
  induction fuel with
  | zero => intro s f _ h; cases h; exact .inl rfl
  | succ fuel ih =>
    intro s f he h
    unfold callLoop at h
    rw [vm_bind] at h
    simp only [getTh] at h
    split at h
    · cases h
    · rename_i hd
      have hf : s.th.finished = false := by
        cases hx : s.th.finished with
        | false => rfl
        | true => exact absurd (.inl hx) hd
      rw [vm_bind, resume_std _ _ (by decide) hf] at h
      rw [show (131072 : I32).toNat = 131071 + 1 from rfl] at h
      cases hl : resumeLoop (Env.std prog fl Mem.abs) (131071 + 1) (started s) with
      | error g =>
        rw [hl] at h
        cases h
        obtain ⟨j, hj⟩ := resumeLoop_stuck _ (started _) _ hf rfl hl
        exact .inr ⟨j, hj.wake⟩
      | ok p =>
        obtain ⟨b, s1⟩ := p
        rw [hl] at h
        dsimp only at h
        obtain ⟨j, hjp, hj⟩ := resumeLoop_moves _ (started _) _ _ hf rfl hl
        have hj := hj.wake hjp
        split at h
        · rcases ih s1 f (hj.errorStops he) h with h1 | ⟨i, hi⟩
          · exact .inl h1
          · exact .inr ⟨j + i, hi.before hj⟩
        · cases h

/-- Conversely `call_once` gets to where the thread is stuck. -/
theorem stuck_call {f : Fault} : ∀ (j : Nat) (s : St Val Store), Stuck prog fl f j s → ErrorStops s →
    ∀ fuel, j < fuel → callLoop (Env.std prog fl Mem.abs) fuel s = .error f := by
  intro j
  induction j using Nat.strongRecOn with
  | ind j ih =>
    intro s h he fuel hfuel
    obtain ⟨fuel, rfl⟩ : ∃ k, fuel = k + 1 := ⟨fuel - 1, by omega⟩
    have hf : s.th.finished = false := by
      cases hx : s.th.finished with
      | false => rfl
      | true => exact (h.no_end (.done _) hx).elim
    unfold callLoop
    rw [vm_bind]
    simp only [getTh]
    rw [if_neg (by rw [hf, hasError_false he hf]; simp)]
    rw [vm_bind, resume_std _ _ (by decide) hf, show (131072 : I32).toNat = 131071 + 1 from rfl]
    cases hl : resumeLoop (Env.std prog fl Mem.abs) (131071 + 1) (started s) with
    | error g =>
      obtain ⟨i, hi⟩ := resumeLoop_stuck _ (started _) _ hf rfl hl
      rw [(h.unique hi.wake).1]
    | ok p =>
      obtain ⟨b, s1⟩ := p
      obtain ⟨i, hip, hi⟩ := resumeLoop_moves _ (started _) _ _ hf rfl hl
      have hi := hi.wake hip
      have hij := h.bound hi
      have h1 : Stuck prog fl f (j - i) s1 := by
        obtain ⟨s2, a1, a2, a3⟩ := h
        exact ⟨s2, hi.split a1 hij, a2, a3⟩
      have he1 := hi.errorStops he
      have hf1 : s1.th.finished = false := by
        cases hx : s1.th.finished with
        | false => rfl
        | true => exact (h1.no_end (.done _) hx).elim
      dsimp only
      rw [hasError_false he1 hf1]
      simp only [Bool.not_false, if_true]
      exact ih (j - i) (by omega) s1 h1 he1 fuel (by omega)

/-- A pass over one thread and dead ones that stops the machine. -/
theorem pass_stuck (hsp : NoSpawn prog) {v : VmState Val Store} {n : I32} (hn : 0 ≤ n.toInt) {f : Fault} {t : Thread Val}
    {ds : List (Thread Val)} (hv : v.threads = t :: ds) (hd : ∀ t ∈ ds, Dead t)
    (h : v.resume (Env.std prog fl Mem.abs) n = .error f) :
    (t.waits ≠ 0 ∧ f = .ub) ∨ ∃ j, Stuck prog fl f j (headSt v t ds) := by
  unfold VmState.resume at h
  rw [hv, List.length_cons] at h
  unfold passLoop at h
  split at h
  · rename_i hw
    split at h
    · rename_i g hr
      cases h
      refine .inl ⟨hw, ?_⟩
      unfold ret32 at hr
      split at hr
      · cases hr
      · cases hr; rfl
    · rw [pass_dead _ _ _ _ _ _ _ _ (Nat.le_refl _) hd] at h
      cases h
  · split at h
    · rw [pass_dead _ _ _ _ _ _ _ _ (Nat.le_refl _) hd] at h
      cases h
    · rename_i hf
      have hf : t.finished = false := by
        cases hx : t.finished with
        | false => rfl
        | true => exact absurd (.inl hx) hf
      rw [show (⟨t, v.mem, v.globals, [], ds, v.io⟩ : St Val Store) = headSt v t ds from rfl] at h
      cases hr : resume (Env.std prog fl Mem.abs) n (headSt v t ds) with
      | error g =>
        rw [hr] at h
        cases h
        rw [resume_std _ _ hn hf] at hr
        cases hl : resumeLoop (Env.std prog fl Mem.abs) n.toNat (started (headSt v t ds)) with
        | error x =>
          rw [hl] at hr
          cases hr
          obtain ⟨j, hj⟩ := resumeLoop_stuck _ (started (headSt v t ds)) _ hf rfl hl
          exact .inr ⟨j, hj.wake⟩
        | ok p => rw [hl] at hr; cases hr
      | ok p =>
        obtain ⟨ok, s⟩ := p
        rw [hr] at h
        dsimp only at h
        obtain ⟨⟨j, hj⟩, hb⟩ := resume_goes n _ _ _ hf hr
        obtain ⟨h1, h2⟩ := hj.others hsp
        have h2 : s.after = ds := h2
        cases ok with
        | true =>
          rw [if_pos rfl, h2, pass_dead _ _ _ _ _ _ _ _ (Nat.le_refl _) hd] at h
          cases h
        | false =>
          rw [if_neg (by decide), if_pos (by simpa using hb)] at h
          cases h

/-- When the program is over the loop changes nothing but the list of threads. -/
theorem loop_idle (hsp : NoSpawn prog) : ∀ (rounds : List SdlRound) (v : VmState Val Store),
    (v.threads = [] ∨ ∃ t ds, v.threads = t :: ds ∧ t.finished = true ∧ ∀ t ∈ ds, Dead t) →
    match sdlLoop (Env.std prog fl Mem.abs) rounds v with
    | .error f => f = .ub ∧ ∃ t ds, v.threads = t :: ds ∧ t.waits ≠ 0
    | .ok (x, v2) => x ≠ some .failed ∧ v2.mem = v.mem ∧ v2.globals = v.globals ∧ v2.io = v.io ∧
        ∀ t ∈ v2.threads, t.finished = true ∨ t ∈ v.threads
  | [], v, _ => ⟨nofun, rfl, rfl, rfl, fun t ht => .inr ht⟩
  | r :: rs, v, hv => by
    rw [sdlLoop]
    by_cases ht : v.io.sdl.tickMark < r.ticks
    · rw [if_pos ht]
      rcases hv with hv | ⟨t, ds, hv, hf, hd⟩
      · have : v.resume (Env.std prog fl Mem.abs) 1024 = .ok (true, v) := by
          unfold VmState.resume
          rw [hv]
          obtain ⟨m, g, ts, io⟩ := v
          cases hv
          rfl
        rw [this]
        dsimp only
        by_cases hq : r.quit = true
        · rw [if_pos hq]; exact ⟨nofun, rfl, rfl, rfl, fun t ht => .inr ht⟩
        · rw [if_neg hq]; exact loop_idle hsp rs v (.inl hv)
      · cases hr : v.resume (Env.std prog fl Mem.abs) 1024 with
        | error f =>
          dsimp only
          rcases pass_stuck hsp (by decide) hv hd hr with ⟨h1, h2⟩ | ⟨j, s1, h1, h2, h3⟩
          · exact ⟨h2, t, ds, hv, h1⟩
          · cases h1 with
            | done => exact absurd (hf.symm.trans h2) (by decide)
            | step h => exact absurd (hf.symm.trans h) (by decide)
        | ok p =>
          obtain ⟨b, v1⟩ := p
          rcases pass_cases hsp hv hd (fun _ => hf) hr with ⟨hw, rfl, rfl⟩ | ⟨-, -, rfl, rfl⟩ | ⟨-, hx, -⟩
          · dsimp only
            by_cases hq : r.quit = true
            · rw [if_pos hq]
              exact ⟨nofun, rfl, rfl, rfl, fun t ht => by
                rw [List.mem_singleton] at ht; subst ht; exact .inl hf⟩
            · rw [if_neg hq]
              have := loop_idle hsp rs ⟨v.mem, v.globals, [{ t with waits := t.waits - 1 }], v.io⟩
                (.inr ⟨_, _, rfl, hf, by simp⟩)
              revert this
              generalize sdlLoop (Env.std prog fl Mem.abs) rs _ = o
              rcases o with f | ⟨x, v2⟩
              · rintro ⟨h1, -⟩
                exact ⟨h1, t, ds, hv, hw⟩
              · rintro ⟨h1, h2, h3, h4, h5⟩
                refine ⟨h1, h2, h3, h4, fun t ht => .inl ?_⟩
                rcases h5 t ht with h | h
                · exact h
                · rw [List.mem_singleton] at h; subst h; exact hf
          · dsimp only
            by_cases hq : r.quit = true
            · rw [if_pos hq]
              exact ⟨nofun, rfl, rfl, rfl, fun t ht => by cases ht⟩
            · rw [if_neg hq]
              have := loop_idle hsp rs ⟨v.mem, v.globals, [], v.io⟩ (.inl rfl)
              revert this
              generalize sdlLoop (Env.std prog fl Mem.abs) rs _ = o
              rcases o with f | ⟨x, v2⟩
              · rintro ⟨-, t, ds, h1, -⟩
                cases h1
              · rintro ⟨h1, h2, h3, h4, h5⟩
                refine ⟨h1, h2, h3, h4, fun t ht => .inl ?_⟩
                rcases h5 t ht with h | h
                · exact h
                · cases h
          · rw [hf] at hx; cases hx
    · rw [if_neg ht]
      dsimp only
      by_cases hq : r.quit = true
      · rw [if_pos hq]; exact ⟨nofun, rfl, rfl, rfl, fun t ht => .inr ht⟩
      · rw [if_neg hq]; exact loop_idle hsp rs v hv

/-- What the loop has done to the thread of `main`. -/
inductive LoopDone (prog : Program) (fl : FloatOps) (s : St Val Store) (turns : Nat) : Out (Option SdlEnd × VmState Val Store) → Prop
  /-- the thread is still running -/
  | running {x v2 t r b a w j} : x ≠ some .failed → v2.threads = t :: r → t.finished = false →
      Goes prog fl j s ((headSt v2 t r).mask b a w) → (NoPause prog → s.th.waits = 0 → turns ≤ j) →
      LoopDone prog fl s turns (.ok (x, v2))
  /-- the thread has got to its end -/
  | over {x v2 s' j} : Goes prog fl j s s' → s'.th.finished = true → v2.mem = s'.mem → v2.globals = s'.globals →
      v2.io = s'.io → (x = some .failed ↔ s'.th.hasError = true) → LoopDone prog fl s turns (.ok (x, v2))
  /-- the thread has stopped the machine -/
  | stuck {f j} : Stuck prog fl f j s → LoopDone prog fl s turns (.error f)
  /-- a wait for a negative number of passes has stopped the machine -/
  | waits : ¬ (NoPause prog ∧ s.th.waits = 0) → LoopDone prog fl s turns (.error .ub)

theorem LoopDone.before {s s1 : St Val Store} {i k : Nat} {b a : List (Thread Val)} {w : I32} {o : Out (Option SdlEnd × VmState Val Store)}
    (hg : Goes prog fl i s s1) (hw : NoPause prog → s.th.waits = 0 → w = 0) {k' : Nat}
    (hk : NoPause prog → s.th.waits = 0 → k' ≤ i + k)
    (h : LoopDone prog fl (s1.mask b a w) k o) : LoopDone prog fl s k' o := by
  cases h with
  | running h1 h2 h3 h4 h5 =>
    obtain ⟨b', a', w', h4⟩ := h4.unmask
    refine .running h1 h2 h3 (hg.trans h4) fun hn hs => ?_
    have := h5 hn (hw hn hs)
    have := hk hn hs
    omega
  | over h1 h2 h3 h4 h5 h6 =>
    obtain ⟨b', a', w', h1⟩ := h1.unmask
    exact .over (hg.trans h1) h2 h3 h4 h5 h6
  | stuck h => exact .stuck (h.unmask.before hg)
  | waits h => exact .waits fun ⟨h1, h2⟩ => h ⟨h1, hw h1 h2⟩

/-- The loop runs the thread of `main`. -/
theorem loop_done (hsp : NoSpawn prog) : ∀ (rounds : List SdlRound) (v : VmState Val Store) (t : Thread Val)
    (ds : List (Thread Val)), v.threads = t :: ds → (∀ t ∈ ds, Dead t) → t.finished = false → ErrorStops (headSt v t ds) →
    LoopDone prog fl (headSt v t ds) (turns (Env.std prog fl Mem.abs) rounds v)
      (sdlLoop (Env.std prog fl Mem.abs) rounds v)
  | [], v, t, ds, hv, hd, hf, he =>
    .running (b := []) (a := ds) (w := t.waits) nofun hv hf (.done _) fun _ _ => Nat.le_refl _
  | r :: rs, v, t, ds, hv, hd, hf, he => by
    rw [sdlLoop, turns]
    by_cases ht : v.io.sdl.tickMark < r.ticks
    · rw [if_pos ht, if_pos ht]
      cases hr : v.resume (Env.std prog fl Mem.abs) 1024 with
      | error f =>
        dsimp only
        rcases pass_stuck hsp (by decide) hv hd hr with ⟨h1, rfl⟩ | ⟨j, hj⟩
        · exact .waits fun ⟨_, h⟩ => h1 h
        · exact .stuck hj
      | ok p =>
        obtain ⟨b, v1⟩ := p
        rcases pass_cases hsp hv hd he hr with ⟨hw, rfl, rfl⟩ | ⟨-, hx, -⟩ | ⟨hw, -, s, hq, hb, rfl⟩
        · dsimp only
          by_cases hq : r.quit = true
          · rw [if_pos hq, if_pos hq]
            exact .running (b := []) (a := ds) (w := t.waits) nofun rfl hf (.done _) fun _ h => absurd h hw
          · rw [if_neg hq, if_neg hq]
            have := loop_done hsp rs ⟨v.mem, v.globals, [{ t with waits := t.waits - 1 }], v.io⟩ _ [] rfl (by simp) hf he
            exact LoopDone.before (s1 := headSt v t ds) (b := []) (a := []) (w := t.waits - 1) (.done _)
              (fun _ h => absurd h hw) (fun _ h => absurd h hw) this
        · rw [hf] at hx; cases hx
        · rw [resume_std _ _ (by decide) hf] at hq
          rw [show (1024 : I32).toNat = 1023 + 1 from rfl] at hq
          cases hl : resumeLoop (Env.std prog fl Mem.abs) (1023 + 1) (started (headSt v t ds)) with
          | error x => rw [hl] at hq; cases hq
          | ok p =>
            obtain ⟨b2, s2⟩ := p
            rw [hl] at hq
            dsimp only at hq
            cases hq
            obtain ⟨j, hjp, hj⟩ := resumeLoop_moves _ (started (headSt v t ds)) _ _ hf rfl hl
            have hj := hj.wake hjp
            have he1 : ErrorStops s := hj.errorStops he
            cases hfs : s.th.finished with
            | false =>
              have hx := hasError_false he1 hfs
              rw [hx]
              simp only [Bool.not_false, if_true]
              by_cases hq : r.quit = true
              · rw [if_pos hq, if_pos hq]
                exact .running (b := s.before) (a := s.after) (w := s.th.waits) nofun rfl hfs hj fun _ _ => hjp
              · rw [if_neg hq, if_neg hq]
                have := loop_done hsp rs ⟨s.mem, s.globals, [s.th], s.io⟩ s.th [] rfl (by simp) hfs he1
                exact LoopDone.before (s1 := s) (b := []) (a := []) (w := s.th.waits) hj
                  (fun h1 h2 => (hj.waits hsp h1).trans h2) (fun _ _ => by omega) this
            | true =>
              cases hx : s.th.hasError with
              | true => exact .over hj hfs rfl rfl rfl ⟨fun _ => hx, fun _ => rfl⟩
              | false =>
                simp only [Bool.not_false, if_true]
                by_cases hq : r.quit = true
                · rw [if_pos hq, if_pos hq]
                  exact .over hj hfs rfl rfl rfl ⟨nofun, fun h => by rw [hx] at h; cases h⟩
                · rw [if_neg hq, if_neg hq]
                  have := loop_idle (fl := fl) hsp rs ⟨s.mem, s.globals, [s.th], s.io⟩ (.inr ⟨_, _, rfl, hfs, by simp⟩)
                  revert this
                  generalize sdlLoop (Env.std prog fl Mem.abs) rs _ = o
                  rcases o with f | ⟨x, v2⟩
                  · rintro ⟨rfl, t2, ds2, h1, h2⟩
                    cases h1
                    exact .waits fun ⟨h3, h4⟩ => h2 ((hj.waits hsp h3).trans h4)
                  · rintro ⟨h1, h2, h3, h4, -⟩
                    exact .over hj hfs h2 h3 h4 ⟨fun h => absurd h h1, fun h => by rw [hx] at h; cases h⟩
    · rw [if_neg ht, if_neg ht]
      dsimp only
      by_cases hq : r.quit = true
      · rw [if_pos hq, if_pos hq]
        exact .running (b := []) (a := ds) (w := t.waits) nofun hv hf (.done _) fun _ _ => Nat.le_refl _
      · rw [if_neg hq, if_neg hq]
        exact loop_done hsp rs v t ds hv hd hf he

end
end Ccml.Props
