import Verif.IoFacts
import Verif.Driver
import Verif.SdlDriver
/-!
Without breakpoints the machine does not look at the line table (proof infrastructure).
-/
namespace Ccml.LineFree
variable {P M : Type}

/-- The same machine with another line table in its program. -/
def with' (e : Env P M) (l : LineTable) : Env P M := { e with prog := { e.prog with lines := l } }

theorem fillArray_lines (e : Env P M) (l : LineTable) (a : P) : ∀ n, fillArray (with' e l) a n = fillArray e a n
  | 0 => rfl
  | n + 1 => by
    unfold fillArray
    simp only [fillArray_lines e l a n]
    rfl

theorem copyArgs_lines (e : Env P M) (l : LineTable) : ∀ (as : List P) (m : M) (acc : List P),
    copyArgs (with' e l) m acc as = copyArgs e m acc as
  | [], _, _ => rfl
  | a :: as, m, acc => by
    unfold copyArgs
    simp only [copyArgs_lines e l as]
    rfl

theorem popViews_lines (e : Env P M) (l : LineTable) : ∀ (n : Nat) (acc : List View),
    popViews (with' e l) n acc = popViews e n acc
  | 0, _ => rfl
  | n + 1, acc => by
    unfold popViews
    simp only [popViews_lines e l n]
    rfl

theorem prepare_lines (e : Env P M) (l : LineTable) (m : M) (f : Function) (as : List P) :
    prepare (with' e l) m f as = prepare e m f as := by
  unfold prepare
  rw [copyArgs_lines]

theorem spawn_lines (e : Env P M) (l : LineTable) (f : Function) (as : List P) :
    spawn (with' e l) f as = spawn e f as := by
  unfold spawn
  simp only [prepare_lines]

theorem builtin_lines (e : Env P M) (l : LineTable) (b : Builtin) (n : I32) :
    b.run (with' e l) n = b.run e n := by
  cases b with
  | new_thread =>
    show builtinNewThread (with' e l) n = builtinNewThread e n
    unfold builtinNewThread
    simp only [spawn_lines]
    rfl
  | _ => rfl

theorem hostFn_lines (e : Env P M) (l : LineTable) (b : HostFn) : b.run (with' e l) = b.run e := by
  cases b with
  | sdl fn =>
    show hostSdl (with' e l) fn = hostSdl e fn
    unfold hostSdl
    simp only [popViews_lines]
    rfl
  | _ => rfl

theorem native_lines (e : Env P M) (l : LineTable) : nativeBuiltins (with' e l) = nativeBuiltins e := by
  funext p n
  unfold nativeBuiltins
  simp only [builtin_lines, hostFn_lines]

theorem std_lines (prog : Program) (l : LineTable) (fl : FloatOps) (mem : MemOps P M) :
    Env.std { prog with lines := l } fl mem = with' (Env.std prog fl mem) l := by
  unfold Env.std with'
  congr 1
  exact native_lines { prog := prog, fl := fl, mem := mem, handlers := {}, native := fun _ _ => fault .ub } l

theorem exec_lines (e : Env P M) (l : LineTable) (op : Option Op) : exec (with' e l) op = exec e op := by
  cases op with
  | none => rfl
  | some op =>
    cases op with
    | ARY_INIT =>
      show doARY_INIT (with' e l) = doARY_INIT e
      unfold doARY_INIT
      simp only [fillArray_lines]
      rfl
    | _ => rfl

/-! ### No breakpoints -/

/-- No thread of the list has breakpoints. -/
def Clear (ts : List (Thread P)) : Prop := ∀ t ∈ ts, t.breakpoints = []

/-- No thread has breakpoints. -/
structure NoBreak (s : St P M) : Prop where
  th : s.th.breakpoints = []
  before : Clear s.before
  after : Clear s.after

/-- No breakpoints come in. -/
def Keep (s s' : St P M) : Prop := NoBreak s → NoBreak s'

theorem keep_pre : Preorderish (Keep (P := P) (M := M)) :=
  ⟨fun _ _ h k => ⟨h.th.breakpoints.trans k.th, by rw [h.before]; exact k.before, by rw [h.after]; exact k.after⟩,
   fun _ _ _ h k n => k (h n)⟩

theorem keep_modTh {f : Thread P → Thread P} (h : ∀ t, t.breakpoints = [] → (f t).breakpoints = []) :
    Pres Keep (modTh f : VM P M Unit) := by
  refine ⟨fun s a s' hx k => ?_⟩
  cases hx
  exact ⟨h _ k.th, k.before, k.after⟩

theorem prepare_clear {e : Env P M} {m m' : M} {f : Function} {as : List P} {t : Thread P}
    (h : prepare e m f as = .ok (some (t, m'))) : t.breakpoints = [] := by
  unfold prepare at h
  split at h
  · cases h
  · split at h <;> cases h
    rfl

theorem keep_spawn (e : Env P M) (f : Function) (as : List P) : Pres Keep (spawn e f as) := by
  refine ⟨fun s a s' h k => ?_⟩
  unfold spawn at h
  split at h
  · cases h
  · cases h; exact k
  · rename_i t m hp
    cases h
    refine ⟨k.th, fun t' ht => ?_, k.after⟩
    rcases List.mem_cons.1 ht with rfl | ht
    · exact prepare_clear hp
    · exact k.before _ ht

theorem withStacks_clear : ∀ (ts : List (Thread P)) (ss : List (List P)), Clear ts → Clear (withStacks ts ss)
  | [], ss, _ => by cases ss <;> exact fun _ h => nomatch h
  | t :: ts, [], _ => fun _ h => nomatch h
  | t :: ts, s :: ss, h => by
    intro x hx
    rcases List.mem_cons.1 hx with rfl | hx
    · exact h t (by simp)
    · exact withStacks_clear ts ss (fun y hy => h y (by simp [hy])) x hx

theorem keep_collect (e : Env P M) : Pres Keep (gcCollect e) := by
  refine ⟨fun s b s' h k => ?_⟩
  have hc : Clear (s.before ++ s.th :: s.after) := by
    intro t ht
    rcases List.mem_append.1 ht with ht | ht
    · exact k.before t ht
    · rcases List.mem_cons.1 ht with rfl | ht
      · exact k.th
      · exact k.after t ht
  unfold gcCollect at h
  dsimp only at h
  split at h
  · cases h
  · split at h
    · cases h
    · rename_i g ss _
      have hw := withStacks_clear (s.before ++ s.th :: s.after) ss hc
      split at h
      · cases h
      · rename_i th after hd
        cases h
        have hm : ∀ t ∈ th :: after, t.breakpoints = [] := by
          intro t ht
          rw [← hd] at ht
          exact hw t (List.mem_of_mem_drop ht)
        exact ⟨hm th (by simp), fun t ht => hw t (List.mem_of_mem_take ht), fun t ht => hm t (by simp [ht])⟩

theorem keep_tick (e : Env P M) : Pres Keep (tickGc e) := by
  refine ⟨fun s b s' h => ?_⟩
  unfold tickGc at h
  split at h
  · exact (keep_collect e).run _ _ _ h
  · cases h; exact id

theorem keep_wait (e : Env P M) : Pres Keep (builtinWait e) := by
  have hR := keep_pre (P := P) (M := M)
  unfold builtinWait
  simp only [pushInt]
  pres hR
  all_goals exact keep_modTh fun _ h => h

theorem keep_host (prog : Program) (fl : FloatOps) (mem : MemOps P M) : HostPres Keep (Env.std prog fl mem) :=
  std_host_pres keep_pre prog fl mem (fun e _ _ _ => keep_spawn e) (fun e _ _ _ => keep_wait e)
    (keep_modTh fun _ h => h)

/-- The same from every state without breakpoints. -/
def Same {α : Type} (x y : VM P M α) : Prop := ∀ s, NoBreak s → x s = y s

theorem Same.bind {α β : Type} {x y : VM P M α} {f g : α → VM P M β} (h : Same x y) (hx : Pres Keep x)
    (hf : ∀ a, Same (f a) (g a)) : Same (x >>= f) (y >>= g) := by
  intro s k
  rw [vm_bind, vm_bind, ← h s k]
  cases hs : x s with
  | error => rfl
  | ok p => exact hf p.1 p.2 (hx.run _ _ _ hs k)

theorem Same.refl {α : Type} (x : VM P M α) : Same x x := fun _ _ => rfl

section
variable (prog : Program) (l : LineTable) (fl : FloatOps) (mem : MemOps P M)

theorem keep_exec (op : Option Op) : Pres Keep (exec (Env.std prog fl mem) op) :=
  exec_pres keep_pre _ (keep_host prog fl mem) op fun _ =>
    doRET_pres keep_pre _ (leave_pres fun _ _ _ _ k => ⟨k.th, k.before, k.after⟩)

theorem keep_step : Pres Keep (stepImp (Env.std prog fl mem)) := by
  unfold stepImp
  refine Pres.bind keep_pre (Pres.readOpcode keep_pre _) fun b => ?_
  refine Pres.bind keep_pre (keep_exec prog fl mem _) fun _ => ?_
  refine Pres.bind keep_pre (keep_modTh fun t h => ?_) fun _ => keep_modTh fun _ h => h
  unfold checkBreak
  rw [h]
  exact h

theorem same_step : Same (stepImp (with' (Env.std prog fl mem) l)) (stepImp (Env.std prog fl mem)) := by
  unfold stepImp
  refine Same.bind (.refl _) (Pres.readOpcode keep_pre _) fun b => ?_
  rw [exec_lines]
  refine Same.bind (.refl _) (keep_exec prog fl mem _) fun _ => ?_
  refine Same.bind (fun s k => ?_) (keep_modTh fun t h => ?_) fun _ => .refl _
  · show Except.ok ((), { s with th := checkBreak _ s.th }) = Except.ok ((), { s with th := checkBreak _ s.th })
    unfold checkBreak
    rw [k.th]
    rfl
  · unfold checkBreak
    rw [h]
    exact h

theorem keep_finish : FinishPres Keep (Env.std prog fl mem) := ⟨fun _ h => (by cases h), fun _ h => (by cases h)⟩

theorem keep_loop : ∀ n, Pres Keep (resumeLoop (Env.std prog fl mem) n)
  | 0 => Pres.pure keep_pre _
  | n + 1 => by
    unfold resumeLoop
    refine Pres.bind keep_pre (keep_tick _) fun _ => Pres.bind keep_pre (keep_step prog fl mem) fun _ =>
      Pres.bind keep_pre (Pres.getTh keep_pre) fun t => ?_
    split
    · exact Pres.bind keep_pre (finishHandlers_pres keep_pre _ (keep_finish prog fl mem)) fun _ => Pres.pure keep_pre _
    · split
      · exact Pres.pure keep_pre _
      · exact keep_loop n

theorem same_loop : ∀ n, Same (resumeLoop (with' (Env.std prog fl mem) l) n) (resumeLoop (Env.std prog fl mem) n)
  | 0 => .refl _
  | n + 1 => by
    unfold resumeLoop
    refine Same.bind (.refl _) (keep_tick _) fun _ => Same.bind (same_step prog l fl mem) ?_ fun _ =>
      Same.bind (.refl _) (Pres.getTh keep_pre) fun t => ?_
    · refine ⟨fun s a s' h k => ?_⟩
      rw [same_step prog l fl mem s k] at h
      exact (keep_step prog fl mem).run _ _ _ h k
    · split
      · exact .refl _
      · split
        · exact .refl _
        · exact same_loop n

theorem Same.pres {α : Type} {x y : VM P M α} (h : Same x y) (hy : Pres Keep y) : Pres Keep x :=
  ⟨fun s a s' hx k => hy.run s a s' (by rw [← h s k]; exact hx) k⟩

theorem keep_quantum (c : I32) : Pres Keep (runQuantum (Env.std prog fl mem) c) := by
  unfold runQuantum
  split
  · exact Pres.bind keep_pre (keep_loop prog fl mem _) fun _ => Pres.pure keep_pre _
  · refine Pres.bind keep_pre (keep_loop prog fl mem _) fun b => ?_
    split
    · exact Pres.pure keep_pre _
    · exact Pres.fault keep_pre _

theorem same_quantum (c : I32) :
    Same (runQuantum (with' (Env.std prog fl mem) l) c) (runQuantum (Env.std prog fl mem) c) := by
  have hp := fun n => (same_loop prog l fl mem n).pres (keep_loop prog fl mem n)
  unfold runQuantum
  split
  · exact Same.bind (same_loop prog l fl mem _) (hp _) fun _ => .refl _
  · exact Same.bind (same_loop prog l fl mem _) (hp _) fun b => .refl _

theorem keep_resume (c : I32) : Pres Keep (resume (Env.std prog fl mem) c) := by
  unfold resume
  refine Pres.bind keep_pre (Pres.getTh keep_pre) fun t => ?_
  split
  · exact Pres.pure keep_pre _
  · exact Pres.bind keep_pre (keep_modTh fun _ h => h) fun _ => Pres.bind keep_pre (keep_quantum prog fl mem c) fun _ =>
      Pres.bind keep_pre (Pres.getTh keep_pre) fun t => Pres.pure keep_pre _

theorem same_resume (c : I32) : Same (resume (with' (Env.std prog fl mem) l) c) (resume (Env.std prog fl mem) c) := by
  unfold resume
  refine Same.bind (.refl _) (Pres.getTh keep_pre) fun t => ?_
  split
  · exact .refl _
  · exact Same.bind (.refl _) (keep_modTh fun _ h => h) fun _ => Same.bind (same_quantum prog l fl mem c)
      ((same_quantum prog l fl mem c).pres (keep_quantum prog fl mem c)) fun _ => .refl _

theorem clear_snoc {ts : List (Thread P)} {t : Thread P} (h : Clear ts) (ht : t.breakpoints = []) :
    Clear (ts ++ [t]) := by
  intro x hx
  rcases List.mem_append.1 hx with hx | hx
  · exact h x hx
  · rw [List.mem_singleton.1 hx]
    exact ht

theorem clear_all {s : St P M} (k : NoBreak s) : Clear (s.before ++ s.th :: s.after) := by
  intro t ht
  rcases List.mem_append.1 ht with ht | ht
  · exact k.before t ht
  · rcases List.mem_cons.1 ht with rfl | ht
    · exact k.th
    · exact k.after t ht

/-- The same result, and again no breakpoints. -/
def SameV {α : Type} (x y : Out (α × VmState P M)) : Prop := x = y ∧ ∀ a v, y = .ok (a, v) → Clear v.threads

theorem pass_lines (c : I32) : ∀ (n : Nat) (m : M) (g : List P) (io : Io) (before after : List (Thread P)),
    Clear before → Clear after →
    SameV (passLoop (with' (Env.std prog fl mem) l) c n m g io before after)
      (passLoop (Env.std prog fl mem) c n m g io before after)
  | n, m, g, io, before, [], hb, _ => by
    cases n <;> exact ⟨rfl, fun a v h => by cases h; exact hb⟩
  | 0, m, g, io, before, t :: after, hb, ha => ⟨rfl, fun a v h => by cases h⟩
  | n + 1, m, g, io, before, t :: after, hb, ha => by
    have ht : t.breakpoints = [] := ha t (by simp)
    have ha' : Clear after := fun x hx => ha x (by simp [hx])
    unfold passLoop
    split
    · cases ret32 (t.waits.toInt - 1) with
      | error f => exact ⟨rfl, fun a v h => by cases h⟩
      | ok w => exact pass_lines c n m g io _ _ (clear_snoc hb ht) ha'
    · split
      · exact pass_lines c n m g io _ _ hb ha'
      · have k : NoBreak (P := P) (M := M) ⟨t, m, g, before, after, io⟩ := ⟨ht, hb, ha'⟩
        rw [same_resume prog l fl mem c _ k]
        cases hr : resume (Env.std prog fl mem) c ⟨t, m, g, before, after, io⟩ with
        | error f => exact ⟨rfl, fun a v h => by cases h⟩
        | ok p =>
          obtain ⟨ok, s⟩ := p
          have k' := (keep_resume prog fl mem c).run _ _ _ hr k
          cases ok with
          | true => exact pass_lines c n _ _ _ _ _ (clear_snoc k'.before k'.th) k'.after
          | false =>
            dsimp only
            split
            · rename_i h; cases h
            · split
              · exact ⟨rfl, fun a v h => by cases h; exact clear_all k'⟩
              · exact ⟨rfl, fun a v h => by cases h⟩

theorem vresume_lines {v : VmState P M} (hv : Clear v.threads) (c : I32) :
    SameV (v.resume (with' (Env.std prog fl mem) l) c) (v.resume (Env.std prog fl mem) c) :=
  pass_lines prog l fl mem c _ _ _ _ _ _ (fun _ h => nomatch h) hv

theorem newThread_lines {v : VmState P M} (hv : Clear v.threads) (f : Function) (as : List P) :
    SameV (v.newThread (with' (Env.std prog fl mem) l) f as) (v.newThread (Env.std prog fl mem) f as) := by
  unfold VmState.newThread
  rw [prepare_lines]
  refine ⟨rfl, fun a v' h => ?_⟩
  split at h
  · cases h
  · cases h; exact hv
  · rename_i t m hp
    cases h
    intro x hx
    rcases List.mem_cons.1 hx with rfl | hx
    · exact prepare_clear hp
    · exact hv x hx

theorem callInit_lines {v : VmState P M} (hv : Clear v.threads) :
    SameV (v.callInit (with' (Env.std prog fl mem) l)) (v.callInit (Env.std prog fl mem)) := by
  unfold VmState.callInit
  rw [show (with' (Env.std prog fl mem) l).prog.findByName (str "@init") =
    (Env.std prog fl mem).prog.findByName (str "@init") from rfl]
  cases (Env.std prog fl mem).prog.findByName (str "@init") with
  | none => exact ⟨rfl, fun a v' h => by cases h; exact hv⟩
  | some f =>
    dsimp only
    obtain ⟨h1, h2⟩ := newThread_lines prog l fl mem hv f []
    rw [h1]
    cases hn : v.newThread (Env.std prog fl mem) f [] with
    | error x => exact ⟨rfl, fun a v h => by cases h⟩
    | ok p =>
      obtain ⟨b, v'⟩ := p
      cases b with
      | false => exact ⟨rfl, fun a v h => by cases h; exact h2 _ _ hn⟩
      | true => exact vresume_lines prog l fl mem (h2 _ _ hn) 8192

theorem keep_call : ∀ n, Pres Keep (callLoop (Env.std prog fl mem) n)
  | 0 => Pres.fault keep_pre _
  | n + 1 => by
    unfold callLoop
    refine Pres.bind keep_pre (Pres.getTh keep_pre) fun t => ?_
    split
    · exact Pres.pure keep_pre _
    · refine Pres.bind keep_pre (keep_resume prog fl mem _) fun b => ?_
      split
      · exact keep_call n
      · exact Pres.pure keep_pre _

theorem same_call : ∀ n, Same (callLoop (with' (Env.std prog fl mem) l) n) (callLoop (Env.std prog fl mem) n)
  | 0 => .refl _
  | n + 1 => by
    unfold callLoop
    refine Same.bind (.refl _) (Pres.getTh keep_pre) fun t => ?_
    split
    · exact .refl _
    · refine Same.bind (same_resume prog l fl mem _) ((same_resume prog l fl mem _).pres (keep_resume prog fl mem _))
        fun b => ?_
      split
      · exact same_call n
      · exact .refl _

theorem callOnce_lines {v : VmState P M} (hv : Clear v.threads) (fuel : Nat) (f : Function) (as : List P) :
    v.callOnce (with' (Env.std prog fl mem) l) fuel f as = v.callOnce (Env.std prog fl mem) fuel f as := by
  unfold VmState.callOnce
  obtain ⟨h1, h2⟩ := newThread_lines prog l fl mem hv f as
  rw [h1]
  cases hn : v.newThread (Env.std prog fl mem) f as with
  | error x => rfl
  | ok p =>
    obtain ⟨b, v'⟩ := p
    cases b with
    | false => rfl
    | true =>
      have hc := h2 _ _ hn
      dsimp only
      cases ht : v'.threads with
      | nil => rfl
      | cons t rest =>
        rw [ht] at hc
        have k : NoBreak (P := P) (M := M) ⟨t, v'.mem, v'.globals, [], rest, v'.io⟩ :=
          ⟨hc t (by simp), (fun _ h => nomatch h), fun x hx => hc x (by simp [hx])⟩
        have := Same.bind (.refl (gcCollect (Env.std prog fl mem))) (keep_collect _)
          (fun _ => same_call prog l fl mem fuel) _ k
        dsimp only
        rw [show (do gcCollect (with' (Env.std prog fl mem) l); callLoop (with' (Env.std prog fl mem) l) fuel : VM P M Unit)
          = (gcCollect (Env.std prog fl mem) >>= fun _ => callLoop (with' (Env.std prog fl mem) l) fuel) from rfl, this]
        rfl

theorem sdlLoop_lines : ∀ (rs : List SdlRound) {v : VmState P M}, Clear v.threads →
    sdlLoop (with' (Env.std prog fl mem) l) rs v = sdlLoop (Env.std prog fl mem) rs v
  | [], _, _ => rfl
  | r :: rs, v, hv => by
    unfold sdlLoop
    have h : SameV (if v.io.sdl.tickMark < r.ticks then v.resume (with' (Env.std prog fl mem) l) 1024 else .ok (true, v))
        (if v.io.sdl.tickMark < r.ticks then v.resume (Env.std prog fl mem) 1024 else .ok (true, v)) := by
      split
      · exact vresume_lines prog l fl mem hv 1024
      · exact ⟨rfl, fun a v' h => by cases h; exact hv⟩
    rw [h.1]
    generalize hx : (if v.io.sdl.tickMark < r.ticks then v.resume (Env.std prog fl mem) 1024 else .ok (true, v)) = x at h
    cases x with
    | error => rfl
    | ok p =>
      obtain ⟨b, v'⟩ := p
      cases b with
      | false => rfl
      | true =>
        dsimp only
        split
        · rfl
        · exact sdlLoop_lines rs (h.2 _ _ rfl)

end

end Ccml.LineFree
