import Verif.SafeProg
import Verif.Host
import Verif.RunCall
/-!
All states a machine gets to are in order, and what the host may ask for ends normally or with a
cause (proof infrastructure).
-/
set_option linter.unusedSimpArgs false
set_option linter.unusedSectionVars false
namespace Ccml
open Sem (State Res look)

/-! ### States a machine gets to -/

/-- The machine in the state in which one of its threads runs. -/
def St.whole (s : St Val Store) : VmState Val Store := ⟨s.mem, s.globals, s.before ++ s.th :: s.after, s.io⟩

/-- Values the host may hand to a new thread: no arrays (`prepare` cannot copy them,
lib_vm/thread.cpp:714-717), functions of the program, no host functions. -/
def HostArg (prog : Program) : Val → Prop
  | .arr _ => False
  | .func a => ∃ f ∈ prog.functions, f.codeStart = a
  | .syscall _ => False
  | _ => True

/-- The states of a machine: from the new machine by single instructions of any of its threads, by
new threads for functions of the program, by changes to the fields of a thread that only concern
scheduling and debugging, and by forgetting threads that have ended. -/
inductive Arises (e : Env Val Store) : VmState Val Store → Prop
  | new {io : Io} : Arises e ⟨[], [], [], io⟩
  | step {s s' : St Val Store} : Arises e s.whole → s.th.finished = false → stepImp e s = .ok ((), s') →
      Arises e s'.whole
  | start {v v' : VmState Val Store} {f : Function} {args : List Val} {b : Bool} : Arises e v →
      f ∈ e.prog.functions → (∀ x ∈ args, HostArg e.prog x) → v.newThread e f args = .ok (b, v') →
      Arises e v'
  | flags {m g b a io} {t t' : Thread Val} : Arises e ⟨m, g, b ++ t :: a, io⟩ → t'.finished = t.finished →
      t'.error = t.error → t'.pc = t.pc → t'.frames = t.frames → t'.stack = t.stack →
      Arises e ⟨m, g, b ++ t' :: a, io⟩
  | drop {m g b a io} {t : Thread Val} : Arises e ⟨m, g, b ++ t :: a, io⟩ → t.finished = true →
      Arises e ⟨m, g, b ++ a, io⟩

/-- The whole machine is in order. -/
def VmOk (K : Lay) (v : VmState Val Store) : Prop := StateOk K ⟨v.mem, v.globals, [], v.threads, 0, v.io⟩

section
variable {K : Lay} {e : Env Val Store} {cx : Sem.Ctx} {s : St Val Store}

theorem VmOk.steady (h : VmOk K s.whole) : Steady K s := by
  have h1 : ∀ t ∈ s.before ++ s.th :: s.after, ThreadOk K s.mem.length t := h.after
  exact ⟨h1 _ (by simp), h.mem, h.globals, fun t ht => h1 t (by simp [show t ∈ s.before from ht]),
    fun t ht => h1 t (by simp [show t ∈ s.after from ht])⟩

theorem Steady.vm (h : Steady K s) : VmOk K s.whole := by
  refine ⟨h.rest.mem, h.rest.globals, fun _ h => (by cases h), fun t ht => ?_⟩
  have ht : t ∈ s.before ++ s.th :: s.after := ht
  rcases List.mem_append.1 ht with ht | ht
  · exact h.rest.before t ht
  · rcases List.mem_cons.1 ht with rfl | ht
    · exact h.th
    · exact h.rest.after t ht

theorem copyArgs_eq (hm : e.mem = Mem.abs) {m : Store} : ∀ {args acc : List Val},
    (∀ x ∈ args, HostArg e.prog x) → copyArgs e m acc args = .ok (args.reverse ++ acc, m)
  | [], acc, _ => rfl
  | x :: args, acc, h => by
    have hx := h x (List.mem_cons_self ..)
    have : copyVal e m x = .ok (x, m) := by
      unfold copyVal
      rw [hm]
      cases x <;> first | rfl | exact hx.elim
    unfold copyArgs
    rw [this]
    dsimp only
    rw [copyArgs_eq hm fun y hy => h y (List.mem_cons_of_mem _ hy)]
    simp

theorem HostArg.ok (L : InPlace K e) {x : Val} (h : HostArg e.prog x) {n : Nat} : ValOk K n x := by
  cases x <;> first | trivial | exact h.elim | skip
  obtain ⟨f, hf, rfl⟩ := h
  obtain ⟨G, hG, h1, -⟩ := L.table f hf
  exact ⟨G, hG, h1⟩

/-- A new thread. -/
theorem newThread_eq (hm : e.mem = Mem.abs) {v : VmState Val Store} {f : Function} {args : List Val}
    (ha : ∀ x ∈ args, HostArg e.prog x) (hn : f.numArgs = args.length) :
    v.newThread e f args =
      .ok (true, { v with threads := Sem.startThread f.codeStart.toInt args :: v.threads }) := by
  unfold VmState.newThread prepare
  rw [if_neg (by simp [hn]), copyArgs_eq hm ha]
  simp [Sem.startThread, Thread.fresh]

theorem newThread_ok (M : Mach e cx) (L : InPlace K e) {v v' : VmState Val Store} {f : Function}
    {args : List Val} {b : Bool} (h : VmOk K v) (hf : f ∈ e.prog.functions)
    (ha : ∀ x ∈ args, HostArg e.prog x) (hx : v.newThread e f args = .ok (b, v')) : VmOk K v' := by
  by_cases hn : f.numArgs = args.length
  · rw [newThread_eq M.mem ha hn] at hx
    cases hx
    refine ⟨h.mem, h.globals, fun _ h => (by cases h), fun t ht => ?_⟩
    rcases List.mem_cons.1 ht with rfl | ht
    · exact startThread_ok L M.small hf hn fun x hx => (ha x hx).ok L
    · exact h.after t ht
  · unfold VmState.newThread prepare at hx
    rw [if_pos hn] at hx
    cases hx
    exact h

/-- Every state a machine gets to is in order. -/
theorem reach_ok (M : Mach e cx) (L : InPlace K e) (HS : HostSound K cx) {v : VmState Val Store}
    (h : Arises e v) : VmOk K v := by
  induction h with
  | new => exact ⟨fun _ h => (by cases h), .nil, fun _ h => (by cases h), fun _ h => (by cases h)⟩
  | step _ hf hs ih =>
    rcases step_steady M L HS ih.steady hf with ⟨s', h1, h2, -⟩ | ⟨f, h1, -⟩
    · rw [hs] at h1; cases h1; exact h2.vm
    · rw [hs] at h1; cases h1
  | start _ hf ha hx ih => exact newThread_ok M L ih hf ha hx
  | @flags m g b a io t t' _ h1 h2 h3 h4 h5 ih =>
    refine ⟨ih.mem, ih.globals, fun _ h => (by cases h), fun u hu => ?_⟩
    have ht : ThreadOk K m.length t := ih.after t (by simp)
    have hu : u ∈ b ++ t' :: a := hu
    rcases List.mem_append.1 hu with hu | hu
    · exact ih.after u (by simp [hu])
    · rcases List.mem_cons.1 hu with rfl | hu
      · unfold ThreadOk at ht ⊢
        rw [h1, h2, h3, h4, h5]
        exact ht
      · exact ih.after u (by simp [hu])
  | @drop m g b a io t _ _ ih =>
    refine ⟨ih.mem, ih.globals, fun _ h => (by cases h), fun u hu => ih.after u ?_⟩
    have hu : u ∈ b ++ a := hu
    show u ∈ b ++ t :: a
    rcases List.mem_append.1 hu with hu | hu <;> simp [hu]

/-! ### What the host asks for -/

/-- The abnormal ends of a call of the host. -/
inductive Ends (e : Env Val Store) : Fault → Prop
  /-- the bound on the rounds of a loop was reached (the code has no such bound) -/
  | fuel : Ends e .diverge
  /-- an instruction ended abnormally for one of the causes -/
  | step {s : St Val Store} {f : Fault} : Arises e s.whole → s.th.finished = false →
      stepImp e s = .error f → Cause e s f → Ends e f
  /-- the waiting time of a thread cannot be counted down any more -/
  | wait {v : VmState Val Store} {t : Thread Val} : Arises e v → t ∈ v.threads →
      t.waits.toInt = -2147483648 → Ends e .ub

/-- A computation ends as `Q` says or abnormally. -/
def Tame {α : Type} (e : Env Val Store) (r : Out α) (Q : α → Prop) : Prop :=
  (∃ a, r = .ok a ∧ Q a) ∨ ∃ f, r = .error f ∧ Ends e f

theorem Tame.ok {α : Type} {a : α} {Q : α → Prop} (h : Q a) : Tame e (.ok a) Q := .inl ⟨a, rfl, h⟩

theorem Tame.bind {α β : Type} {x : VM Val Store α} {f : α → VM Val Store β} {Q : α × St Val Store → Prop}
    {R : β × St Val Store → Prop} (h : Tame e (x s) Q) (hf : ∀ a s', Q (a, s') → Tame e (f a s') R) :
    Tame e ((x >>= f) s) R := by
  rcases h with ⟨⟨a, s'⟩, h1, h2⟩ | ⟨g, h1, h2⟩
  · rw [vm_bind_ok h1]; exact hf a s' h2
  · exact .inr ⟨g, vm_bind_error h1, h2⟩

theorem Tame.obind {α β : Type} {x : Out α} {f : α → Out β} {Q : α → Prop} {R : β → Prop}
    (h : Tame e x Q) (hf : ∀ a, Q a → Tame e (f a) R) : Tame e (x >>= f) R := by
  rcases h with ⟨a, h1, h2⟩ | ⟨g, h1, h2⟩
  · rw [h1]; exact hf a h2
  · rw [h1]; exact .inr ⟨g, rfl, h2⟩

theorem Tame.mono {α : Type} {x : Out α} {Q R : α → Prop} (h : Tame e x Q) (hq : ∀ a, Q a → R a) :
    Tame e x R := by
  rcases h with ⟨a, h1, h2⟩ | ⟨g, h1, h2⟩
  · exact .inl ⟨a, h1, hq a h2⟩
  · exact .inr ⟨g, h1, h2⟩

variable (M : Mach e cx) (L : InPlace K e) (HS : HostSound K cx)
include M L HS

theorem tame_step (h : Arises e s.whole) (hf : s.th.finished = false) :
    Tame e (stepImp e s) fun r => Arises e r.2.whole := by
  rcases step_steady M L HS (reach_ok M L HS h).steady hf with ⟨s', h1, -⟩ | ⟨f, h1, h2⟩
  · exact .inl ⟨_, h1, h.step hf h1⟩
  · exact .inr ⟨f, h1, .step h hf h1 h2⟩

/-- A thread that goes on has no error. -/
theorem reach_going (h : Arises e s.whole) (hf : s.th.finished = false) :
    s.th.hasError = false ∧ s.th.frames ≠ [] := by
  rcases (reach_ok M L HS h).steady.th with ⟨h1, -⟩ | ⟨-, h2, -, h4⟩
  · rw [hf] at h1; cases h1
  · refine ⟨by simp [Thread.hasError, h2], fun k => ?_⟩
    rw [k] at h4
    exact h4

/-- The value a thread ends with. -/
theorem reach_ended (h : Arises e s.whole) (hf : s.th.finished = true) (he : s.th.hasError = false) :
    s.th.stack ≠ [] := by
  rcases (reach_ok M L HS h).steady.th with ⟨-, h1⟩ | ⟨h1, -⟩
  · refine (h1.1 ?_).1
    unfold Thread.hasError at he
    simpa using he
  · rw [hf] at h1; cases h1

theorem tame_loop : ∀ (n : Nat) {s : St Val Store}, Arises e s.whole → s.th.finished = false →
    Tame e (resumeLoop e n s) fun r => Arises e r.2.whole := by
  intro n
  induction n with
  | zero => intro s h _; exact .ok h
  | succ n ih =>
    intro s h hf
    unfold resumeLoop
    rw [vm_bind_ok (tick_id M.mem s)]
    refine (tame_step M L HS h hf).bind fun _ s1 h1 => ?_
    have h1 : Arises e s1.whole := h1
    rw [vm_bind_ok (show getTh s1 = .ok (s1.th, s1) from rfl)]
    by_cases hfin : s1.th.finished = true
    · rw [if_pos hfin, vm_bind_ok (finish_id M.handlers s1)]
      exact .ok h1
    · rw [if_neg hfin]
      split
      · exact .ok h1
      · exact ih h1 (by simpa using hfin)

theorem tame_resume {c : I32} (hc : 0 ≤ c.toInt) (h : Arises e s.whole) :
    Tame e (resume e c s) fun r => Arises e r.2.whole ∧ (r.1 = false → r.2.th.finished = true ∧
      (s.th.finished = true ∧ r.2 = s ∨ r.2.th.hasError = true)) := by
  unfold resume
  rw [vm_bind_ok (show getTh s = .ok (s.th, s) from rfl)]
  by_cases hfin : s.th.finished = true
  · rw [if_pos hfin]
    exact .ok ⟨h, fun _ => ⟨hfin, .inl ⟨hfin, rfl⟩⟩⟩
  · rw [if_neg hfin]
    rw [vm_bind_ok (show modTh (fun t => { t with halted := false }) s =
      .ok ((), { s with th := { s.th with halted := false } }) from rfl)]
    refine Tame.bind (Q := fun r => Arises e r.2.whole) ?_ fun _ s1 h1 => ?_
    · unfold runQuantum
      rw [if_pos hc]
      exact (tame_loop M L HS _ (s := { s with th := { s.th with halted := false } })
        (h.flags rfl rfl rfl rfl rfl) (by simpa using hfin)).bind fun _ s2 h2 => .ok h2
    · have h1 : Arises e s1.whole := h1
      rw [vm_bind_ok (show getTh s1 = .ok (s1.th, s1) from rfl)]
      refine .ok ⟨h1, fun hb => ?_⟩
      have hb : s1.th.hasError = true := by simpa using hb
      refine ⟨?_, .inr hb⟩
      cases hf : s1.th.finished with
      | true => rfl
      | false => rw [(reach_going M L HS h1 hf).1] at hb; cases hb

theorem tame_pass {c : I32} (hc : 0 ≤ c.toInt) : ∀ (n : Nat) {m g io b a}, Arises e ⟨m, g, b ++ a, io⟩ →
    Tame e (passLoop e c n m g io b a) fun r => Arises e r.2 := by
  intro n
  induction n with
  | zero =>
    intro m g io b a h
    cases a with
    | nil => unfold passLoop; exact .ok (by simpa using h)
    | cons t a => unfold passLoop; exact .inr ⟨_, rfl, .fuel⟩
  | succ n ih =>
    intro m g io b a h
    cases a with
    | nil => unfold passLoop; exact .ok (by simpa using h)
    | cons t a =>
      unfold passLoop
      by_cases hw : t.waits ≠ 0
      · rw [if_pos hw]
        cases hr : ret32 (t.waits.toInt - 1) with
        | error f =>
          dsimp only
          unfold ret32 at hr
          split at hr
          · cases hr
          · rename_i hfit
            cases hr
            simp only [fits32, decide_eq_true_eq] at hfit
            refine .inr ⟨_, rfl, .wait h (t := t) (by simp) ?_⟩
            have := BitVec.toInt_lt (x := t.waits)
            have := BitVec.le_toInt t.waits
            omega
        | ok w =>
          dsimp only
          refine ih ?_
          have := h.flags (t' := { t with waits := w }) rfl rfl rfl rfl rfl
          simpa using this
      · rw [if_neg hw]
        by_cases hf : t.finished = true
        · rw [if_pos (.inl hf)]
          exact ih (h.drop hf)
        · have hf' : t.finished = false := by simpa using hf
          have hg := reach_going M L HS (s := ⟨t, m, g, b, a, io⟩) h hf'
          rw [if_neg (by rw [hf', show t.hasError = false from hg.1]; simp)]
          rcases tame_resume M L HS (s := ⟨t, m, g, b, a, io⟩) hc h with ⟨⟨ok, s⟩, h1, h2, h3⟩ | ⟨f, h1, h2⟩
          · rw [h1]
            dsimp only at h2 h3 ⊢
            cases ok with
            | true =>
              rw [if_pos rfl]
              refine ih ?_
              have : Arises e s.whole := h2
              unfold St.whole at this
              simpa using this
            | false =>
              rw [if_neg (by simp)]
              rcases (h3 rfl).2 with ⟨h4, -⟩ | h4
              · exact absurd h4 hf
              · rw [if_pos h4]
                exact .ok h2
          · rw [h1]
            exact .inr ⟨f, rfl, h2⟩

theorem tame_vmResume {c : I32} (hc : 0 ≤ c.toInt) {v : VmState Val Store} (h : Arises e v) :
    Tame e (v.resume e c) fun r => Arises e r.2 := by
  unfold VmState.resume
  exact tame_pass M L HS hc _ (by simpa using h)

theorem tame_spawn {v : VmState Val Store} (h : Arises e v) {f : Function} (hf : f ∈ e.prog.functions)
    {args : List Val} (ha : ∀ x ∈ args, HostArg e.prog x) :
    Tame e (v.newThread e f args) fun r => Arises e r.2 := by
  by_cases hn : f.numArgs = args.length
  · exact .inl ⟨_, newThread_eq M.mem ha hn, h.start hf ha (newThread_eq M.mem ha hn)⟩
  · refine .inl ⟨(false, v), ?_, h⟩
    unfold VmState.newThread prepare
    rw [if_pos hn]

theorem tame_init {v : VmState Val Store} (h : Arises e v) :
    Tame e (v.callInit e) fun r => Arises e r.2 := by
  unfold VmState.callInit
  cases hi : e.prog.findByName (str "@init") with
  | none => exact .ok h
  | some f =>
    dsimp only
    have hf : f ∈ e.prog.functions := List.mem_of_find?_eq_some hi
    rcases tame_spawn M L HS h hf (args := []) (fun _ h => (by cases h)) with ⟨⟨b, v1⟩, h1, h2⟩ | ⟨g, h1, h2⟩
    · rw [h1]
      cases b with
      | true => exact tame_vmResume M L HS (by decide) h2
      | false => exact .ok h2
    · rw [h1]
      exact .inr ⟨g, rfl, h2⟩

theorem tame_callLoop : ∀ (n : Nat) {s : St Val Store}, Arises e s.whole →
    Tame e (callLoop e n s) fun r => Arises e r.2.whole := by
  intro n
  induction n with
  | zero => intro s _; exact .inr ⟨_, rfl, .fuel⟩
  | succ n ih =>
    intro s h
    unfold callLoop
    rw [vm_bind_ok (show getTh s = .ok (s.th, s) from rfl)]
    split
    · exact .ok h
    · refine (tame_resume M L HS (by decide) h).bind fun b s1 h1 => ?_
      split
      · exact ih h1.1
      · exact .ok h1.1

theorem tame_call {v : VmState Val Store} (h : Arises e v) {f : Function} (hf : f ∈ e.prog.functions)
    {args : List Val} (ha : ∀ x ∈ args, HostArg e.prog x) (hn : f.numArgs = args.length) (fuel : Nat) :
    Tame e (v.callOnce e fuel f args) fun r => Arises e r.2 := by
  have h0 := newThread_eq (v := v) M.mem ha hn
  have h1 : Arises e _ := h.start hf ha h0
  unfold VmState.callOnce
  rw [h0]
  dsimp only
  rw [vm_bind_ok (collect_id M.mem _)]
  rcases tame_callLoop M L HS fuel
    (s := ⟨Sem.startThread f.codeStart.toInt args, v.mem, v.globals, [], v.threads, v.io⟩) h1 with
    ⟨⟨_, s⟩, h2, h3⟩ | ⟨g, h2, h3⟩
  · rw [h2]
    dsimp only
    have h3 : Arises e s.whole := h3
    cases he : s.th.hasError with
    | true => exact .ok h3
    | false =>
      rw [if_neg (by simp)]
      unfold Thread.returnValue
      cases hfin : s.th.finished with
      | false => exact .ok h3
      | true =>
        have := reach_ended M L HS h3 hfin he
        cases hs : s.th.stack with
        | nil => exact absurd hs this
        | cons x l => exact .ok h3
  · rw [h2]
    exact .inr ⟨g, rfl, h3⟩

theorem tame_stepInst (h : Arises e s.whole) : Tame e (stepInst e s) fun r => Arises e r.2.whole := by
  unfold stepInst
  rw [vm_bind_ok (show getTh s = .ok (s.th, s) from rfl)]
  by_cases hfin : s.th.finished = true
  · rw [if_pos hfin]; exact .ok h
  · rw [if_neg hfin, vm_bind_ok (collect_id M.mem s)]
    exact (tame_step M L HS h (by simpa using hfin)).bind fun _ s1 h1 => .ok h1

theorem tame_lineLoop (l : Line) : ∀ (n : Nat) {s : St Val Store}, Arises e s.whole → s.th.finished = false →
    Tame e (stepLineLoop e l n s) fun r => Arises e r.2.whole := by
  intro n
  induction n with
  | zero => intro s _ _; exact .inr ⟨_, rfl, .fuel⟩
  | succ n ih =>
    intro s h hf
    unfold stepLineLoop
    refine (tame_step M L HS h hf).bind fun _ s1 h1 => ?_
    have h1 : Arises e s1.whole := h1
    rw [vm_bind_ok (show getTh s1 = .ok (s1.th, s1) from rfl)]
    by_cases hfin : s1.th.finished = true
    · rw [if_pos hfin]; exact .ok h1
    · have hfin : s1.th.finished = false := by simpa using hfin
      obtain ⟨k1, k2⟩ := reach_going M L HS h1 hfin
      rw [if_neg (by simp [hfin])]
      have a1 : assertThat (!s1.th.frames.isEmpty) s1 = .ok ((), s1) := by
        unfold assertThat
        rw [if_pos (by simpa using k2)]
        rfl
      have a2 : assertThat (!s1.th.hasError) s1 = .ok ((), s1) := by
        unfold assertThat
        rw [if_pos (by simp [k1])]
        rfl
      rw [vm_bind_ok a1, vm_bind_ok a2]
      split
      · exact ih h1 hfin
      · exact .ok h1

theorem tame_stepLine (n : Nat) (h : Arises e s.whole) :
    Tame e (stepLine e n s) fun r => Arises e r.2.whole := by
  unfold stepLine
  rw [vm_bind_ok (show getTh s = .ok (s.th, s) from rfl)]
  by_cases hfin : s.th.finished = true
  · rw [if_pos hfin]; exact .ok h
  · rw [if_neg hfin]
    exact (tame_lineLoop M L HS _ n h (by simpa using hfin)).bind fun _ s1 h1 => .ok h1

omit M L HS in
theorem tame_onThread {α : Type} {v : VmState Val Store} (h : Arises e v) {k : Nat} (hk : k < v.threads.length)
    {x : VM Val Store α} (hx : ∀ s : St Val Store, Arises e s.whole → Tame e (x s) fun r => Arises e r.2.whole) :
    Tame e (onThread v k x) fun r => Arises e r.2 := by
  unfold onThread
  cases hd : v.threads.drop k with
  | nil => rw [List.drop_eq_nil_iff] at hd; omega
  | cons t a =>
    dsimp only
    have he : v.threads = v.threads.take k ++ t :: a := by rw [← hd, List.take_append_drop]
    have hv : Arises e (St.whole ⟨t, v.mem, v.globals, v.threads.take k, a, v.io⟩) := by
      unfold St.whole
      dsimp only
      rw [← he]
      exact h
    rcases hx _ hv with ⟨⟨y, s⟩, h1, h2⟩ | ⟨f, h1, h2⟩
    · rw [h1]; exact .ok h2
    · rw [h1]; exact .inr ⟨f, rfl, h2⟩

/-- Values of the host as they arrive. -/
def hostVal : View → Val
  | .int v => .int v
  | .float v => .float v
  | .str s => .str s
  | .func v => .func v
  | .syscall v => .syscall v
  | _ => .none

/-- Calls the host may make in a state: functions of the program, the right number of arguments for
`call_once` (which does not look at the result of `new_thread`), a cycle count that is not negative,
threads that exist. -/
def AskOk (prog : Program) (v : VmState Val Store) : HostOp → Prop
  | .init => True
  | .spawn f xs => f ∈ prog.functions ∧ ∀ x ∈ xs, (∀ n, x ≠ .arr n) ∧ HostArg prog (hostVal x)
  | .resume c => 0 ≤ c.toInt
  | .call f xs _ => f ∈ prog.functions ∧ f.numArgs = xs.length ∧
      ∀ x ∈ xs, (∀ n, x ≠ .arr n) ∧ HostArg prog (hostVal x)
  | .stepInst k => k < v.threads.length
  | .stepLine k _ => k < v.threads.length
  | .steps .. => False
  | .breakAdd k _ => k < v.threads.length
  | .breakRemove k _ => k < v.threads.length

omit L HS in
theorem hostValues_eq {m : Store} : ∀ {xs : List View}, (∀ x ∈ xs, ∀ n, x ≠ .arr n) →
    hostValues e m xs = .ok (xs.map hostVal, m)
  | [], _ => rfl
  | x :: xs, h => by
    have hx : hostValue e m x = .ok (hostVal x, m) := by
      unfold hostValue
      rw [M.mem]
      cases x <;> first | rfl | exact absurd rfl (h _ (List.mem_cons_self ..) _)
    unfold hostValues
    rw [hx]
    dsimp only
    rw [hostValues_eq fun y hy => h y (List.mem_cons_of_mem _ hy)]
    rfl

/-- A call of the host. -/
theorem tame_host {v : VmState Val Store} (h : Arises e v) {op : HostOp} (ho : AskOk e.prog v op) :
    Tame e (hostStep e v op) fun r => Arises e r.2 := by
  have args : ∀ {xs : List View}, (∀ x ∈ xs, (∀ n, x ≠ .arr n) ∧ HostArg e.prog (hostVal x)) →
      hostValues e v.mem xs = .ok (xs.map hostVal, v.mem) ∧ ∀ x ∈ xs.map hostVal, HostArg e.prog x := by
    intro xs hx
    refine ⟨hostValues_eq M fun x hm => (hx x hm).1, fun x hm => ?_⟩
    obtain ⟨y, hy, rfl⟩ := List.mem_map.1 hm
    exact (hx y hy).2
  cases op with
  | init => exact (tame_init M L HS h).obind fun _ hr => .ok hr
  | spawn f xs =>
    obtain ⟨h1, h2⟩ := args ho.2
    unfold hostStep
    dsimp only
    rw [h1]
    exact (tame_spawn M L HS h ho.1 h2).obind fun _ hr => .ok hr
  | resume c => exact (tame_vmResume M L HS ho h).obind fun _ hr => .ok hr
  | call f xs fuel =>
    obtain ⟨h1, h2⟩ := args ho.2.2
    unfold hostStep
    dsimp only
    rw [h1]
    exact (tame_call M L HS h ho.1 h2 (by rw [List.length_map]; exact ho.2.1) fuel).obind fun _ hr => .ok hr
  | stepInst k =>
    exact (tame_onThread h ho fun s hs => tame_stepInst M L HS hs).obind fun _ hr => .ok hr
  | stepLine k n =>
    exact (tame_onThread h ho fun s hs => tame_stepLine M L HS n hs).obind fun _ hr => .ok hr
  | steps k c => exact ho.elim
  | breakAdd k l =>
    exact (tame_onThread h ho fun s hs => .inl ⟨((), { s with th := s.th.breakAdd l }), rfl,
      hs.flags (t' := s.th.breakAdd l) rfl rfl rfl rfl rfl⟩).obind fun _ hr => .ok hr
  | breakRemove k l =>
    exact (tame_onThread h ho fun s hs => .inl ⟨((), { s with th := s.th.breakRemove l }), rfl,
      hs.flags (t' := s.th.breakRemove l) rfl rfl rfl rfl rfl⟩).obind fun _ hr => .ok hr

omit M L HS

/-- All calls of a sequence are allowed in the states in which they are made. -/
def AsksOk (e : Env Val Store) : VmState Val Store → List HostOp → Prop
  | _, [] => True
  | v, op :: ops => AskOk e.prog v op ∧ ∀ o v', hostStep e v op = .ok (o, v') → AsksOk e v' ops

include M L HS

/-- A sequence of calls. -/
theorem tame_session : ∀ (ops : List HostOp) {v : VmState Val Store}, Arises e v → AsksOk e v ops →
    Tame e (session e v ops).2 fun v' => Arises e v' := by
  intro ops
  induction ops with
  | nil => intro v h _; exact .ok h
  | cons op ops ih =>
    intro v h hc
    unfold session
    rcases tame_host M L HS h hc.1 with ⟨⟨o, v'⟩, h1, h2⟩ | ⟨f, h1, h2⟩
    · rw [h1]
      exact ih h2 (hc.2 o v' h1)
    · rw [h1]
      exact .inr ⟨f, rfl, h2⟩

end
end Ccml
