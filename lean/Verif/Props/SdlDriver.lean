import Verif.SdlDriver
import Verif.Props.Driver
/-!
C75: the graphical driver: which exit status it has, when it runs the program, when it ends.
-/
namespace Ccml.Props

/-! ### The loop -/

section
variable {P M : Type} (e : Env P M)

/-- C75: as long as the clock has not passed the mark and there is no quit event, the loop does nothing to
the machine, however long that takes. -/
theorem C75_asleep (v : VmState P M) (rounds more : List SdlRound)
    (h : ∀ r ∈ rounds, r.ticks.toNat ≤ v.io.sdl.tickMark.toNat ∧ r.quit = false) :
    sdlLoop e (rounds ++ more) v = sdlLoop e more v := by
  induction rounds with
  | nil => rfl
  | cons r rs ih =>
    obtain ⟨h1, h2⟩ := h r (by simp)
    rw [List.cons_append, sdlLoop, if_neg (by rw [BitVec.lt_def]; omega)]
    dsimp only
    rw [h2]
    exact ih fun r hr => h r (List.mem_cons_of_mem _ hr)

/-- C75: in the first round behind the mark every thread gets its 1024 instructions (C37). -/
theorem C75_awake (v : VmState P M) (r : SdlRound) (more : List SdlRound)
    (h : v.io.sdl.tickMark.toNat < r.ticks.toNat) (hq : r.quit = false) :
    sdlLoop e (r :: more) v = match v.resume e 1024 with
      | .error f => .error f
      | .ok (false, v) => .ok (some .failed, v)
      | .ok (true, v) => sdlLoop e more v := by
  rw [sdlLoop, if_pos (by rw [BitVec.lt_def]; omega)]
  rcases v.resume e 1024 with f | ⟨_ | _, v⟩
  · rfl
  · rfl
  · dsimp only
    rw [hq]
    rfl

theorem passLoop_failed (c : I32) : ∀ (n : Nat) (m : M) (g : List P) (io : Io) (b a : List (Thread P)) (v : VmState P M),
    passLoop e c n m g io b a = .ok (false, v) → ∃ t ∈ v.threads, t.error ≠ .success
  | n, m, g, io, b, [], v, h => by cases n <;> cases h
  | 0, m, g, io, b, t :: a, v, h => by cases h
  | n + 1, m, g, io, b, t :: a, v, h => by
    rw [passLoop] at h
    split at h
    · split at h
      · cases h
      · exact passLoop_failed c n _ _ _ _ _ v h
    · split at h
      · exact passLoop_failed c n _ _ _ _ _ v h
      · split at h
        · cases h
        · split at h
          · exact passLoop_failed c n _ _ _ _ _ v h
          · split at h
            · rename_i he
              cases h
              refine ⟨_, List.mem_append_right _ (List.mem_cons_self ..), ?_⟩
              simpa [Thread.hasError] using he
            · cases h

/-- C75: the loop is left for a quit event or because a thread has failed, and for no other reason. -/
theorem C75_ends : ∀ (rounds : List SdlRound) (v v' : VmState P M) (x : SdlEnd),
    sdlLoop e rounds v = .ok (some x, v') →
      (x = .quit ∧ ∃ r ∈ rounds, r.quit = true) ∨ (x = .failed ∧ ∃ t ∈ v'.threads, t.error ≠ .success)
  | [], _, _, _, h => by cases h
  | r :: rs, v, v', x, h => by
    rw [sdlLoop] at h
    split at h
    · cases h
    · rename_i hr
      cases h
      refine .inr ⟨rfl, ?_⟩
      split at hr
      · exact passLoop_failed e _ _ _ _ _ _ _ _ hr
      · cases hr
    · rename_i u hr
      split at h
      · rename_i hq
        cases h
        exact .inl ⟨rfl, r, by simp, hq⟩
      · rcases C75_ends rs u v' x h with ⟨h1, r', h2, h3⟩ | h1
        · exact .inl ⟨h1, r', List.mem_cons_of_mem _ h2, h3⟩
        · exact .inr h1

theorem pass_finished (c : I32) : ∀ (n : Nat) (m : M) (g : List P) (io : Io) (b a : List (Thread P)), a.length ≤ n →
    (∀ t ∈ a, t.waits = 0 ∧ t.finished = true) → passLoop e c n m g io b a = .ok (true, ⟨m, g, b, io⟩)
  | n, m, g, io, b, [], _, _ => by cases n <;> rfl
  | 0, m, g, io, b, t :: a, hn, _ => by simp at hn
  | n + 1, m, g, io, b, t :: a, hn, h => by
    obtain ⟨h1, h2⟩ := h t (by simp)
    rw [passLoop, if_neg (by rw [h1]; simp), if_pos (.inl h2)]
    exact pass_finished c n m g io b a (by simpa using hn) fun t ht => h t (List.mem_cons_of_mem _ ht)

/-- C75 fails: when all threads are done the driver does not end.  It goes on for ever unless there is a quit
event. -/
theorem C75_never_ends (rounds : List SdlRound) (hq : ∀ r ∈ rounds, r.quit = false) (v : VmState P M)
    (h : ∀ t ∈ v.threads, t.waits = 0 ∧ t.finished = true) : ∃ v', sdlLoop e rounds v = .ok (none, v') := by
  induction rounds generalizing v with
  | nil => exact ⟨v, rfl⟩
  | cons r rs ih =>
    have hr := hq r (by simp)
    have hrs : ∀ r ∈ rs, r.quit = false := fun r hr => hq r (List.mem_cons_of_mem _ hr)
    rw [sdlLoop]
    by_cases ht : v.io.sdl.tickMark < r.ticks
    · rw [if_pos ht, VmState.resume, pass_finished e _ _ _ _ _ _ _ (Nat.le_refl _) h]
      dsimp only
      rw [hr]
      exact ih hrs _ (by simp)
    · rw [if_neg ht]
      dsimp only
      rw [hr]
      exact ih hrs _ h
end

/-! ### `sleep` -/

/-- C75: `sleep` with a whole number `n` halts the thread, and the mark is `n` ticks behind the clock. -/
theorem C75_sleep (prog : Program) (fl : FloatOps) (s : St Val Store) (n : I32) (rest : List Val)
    (hs : s.th.stack = .int n :: rest) :
    ∃ s', (Env.std prog fl Mem.abs).native (HostFn.sdl .sleep).ptr 1 s = .ok ((), s') ∧
      s'.th = { s.th with halted := true, stack := .none :: rest } ∧
      s'.io.sdl = { s.io.sdl with tickMark := (s.io.outside s.io.asked).ticks + n, halted := false } ∧
      s'.mem = s.mem ∧ s'.globals = s.globals ∧ s'.before = s.before ∧ s'.after = s.after := by
  obtain ⟨th, mem, globals, before, after, io⟩ := s
  obtain ⟨_, _, _, _, _, _, _, _, stack, _⟩ := th
  obtain rfl : stack = _ := hs
  exact ⟨_, rfl, rfl, rfl, rfl, rfl, rfl, rfl⟩

/-- C75: a thread that halts runs no further instruction of its 1024. -/
theorem C75_stops {P M : Type} (e : Env P M) (k : Nat) (s s1 s2 : St P M) (h1 : tickGc e s = .ok ((), s1))
    (h2 : stepImp e s1 = .ok ((), s2)) (hh : s2.th.halted = true) (hf : s2.th.finished = false) :
    resumeLoop e (k + 1) s = .ok (true, s2) := by
  rw [resumeLoop, vm_bind_ok h1, vm_bind_ok h2, vm_bind_ok (show getTh s2 = .ok (s2.th, s2) from rfl)]
  rw [hf, hh]
  rfl

/-- C75: `sleep(n)` keeps the whole program from running for `n` milliseconds, if the clock is read between now and
then, no other thread sleeps in the same pass, and the clock does not wrap around meanwhile. -/
theorem C75_sleep_partial {P M : Type} (e : Env P M) (v : VmState P M) (t : BitVec 32) (n : I32)
    (hm : v.io.sdl.tickMark = t + n) (hn : 0 ≤ n.toInt) (hw : (t.toNat : Int) + n.toInt < 4294967296)
    (rounds more : List SdlRound) (h : ∀ r ∈ rounds, (r.ticks.toNat : Int) ≤ t.toNat + n.toInt ∧ r.quit = false) :
    sdlLoop e (rounds ++ more) v = sdlLoop e more v := by
  refine C75_asleep e v rounds more fun r hr => ⟨?_, (h r hr).2⟩
  have h1 := (h r hr).1
  have hn' : n.toInt = n.toNat := by
    have := BitVec.toInt_eq_toNat_cond n
    have := n.isLt
    split at * <;> omega
  rw [hm, BitVec.toNat_add]
  omega

/-- C75 fails: close to the end of the 32-bit clock a sleeper wakes up at once: here at tick 4294967290 for 100
milliseconds. -/
theorem C75_wraps : ∃ (t : BitVec 32) (n : I32), 0 < n.toInt ∧ ∀ {P M : Type} (e : Env P M) (v : VmState P M) (more : List SdlRound),
    v.io.sdl.tickMark = t + n →
      sdlLoop e (⟨t, false⟩ :: more) v = match v.resume e 1024 with
        | .error f => .error f
        | .ok (false, v) => .ok (some .failed, v)
        | .ok (true, v) => sdlLoop e more v := by
  refine ⟨4294967290, 100, by decide, fun e v more hm => ?_⟩
  exact C75_awake e v _ _ (by rw [hm]; decide) rfl

/-- C75 fails: there is one mark for all threads, so that a short sleep of one thread ends the long one of
another. -/
theorem C75_overwritten (fl : FloatOps) (o : Sdl.Outside) (d : Sdl.Driver) (a b : I32) :
    ∃ d1 d2, Sdl.Fn.sleep.call fl o [.int a] d = .ok (d1, .none) ∧ Sdl.Fn.sleep.call fl o [.int b] d1 = .ok (d2, .none) ∧
      d2.tickMark = o.ticks + b :=
  ⟨_, _, rfl, rfl, rfl⟩

/-! ### Exit statuses -/

section
variable {P M : Type} (mem : MemOps P M) (m0 : M) (fl : FloatOps)

/-- C75: with a program that has a `main` without parameters the driver ends with status 0 and the line
`exit: 0` behind whatever the program has written, whether the loop was left for a quit event or because a
thread has failed; and it is running as long as the loop is. -/
theorem C75_exit (io : Io) (rounds : List SdlRound) (prog : Program) (f : Function) (b : Bool) (v w u : VmState P M)
    (x : Option SdlEnd) (hf : prog.findByName (str "main") = some f)
    (h1 : VmState.callInit (Env.std (sdlResolve prog) fl mem) ⟨m0, [], [], io⟩ = .ok (b, v))
    (h2 : v.newThread (Env.std (sdlResolve prog) fl mem) f [] = .ok (true, w))
    (h3 : sdlLoop (Env.std (sdlResolve prog) fl mem) rounds w = .ok (x, u)) :
    sdlRun mem m0 fl io rounds prog =
      .ok (x.map fun _ => ⟨0, u.io.output ++ str "exit: 0\n", none⟩) := by
  unfold sdlRun
  dsimp only
  rw [show (sdlResolve prog).findByName (str "main") = some f from hf]
  dsimp only
  rw [h1]
  dsimp only
  rw [h2]
  dsimp only
  rw [h3]
  cases x <;> rfl

/-- C75: without a `main`, or with one that has parameters, the exit status is 1 and the loop is not entered. -/
theorem C75_no_main (io : Io) (rounds : List SdlRound) (prog : Program)
    (h : ∀ f, prog.findByName (str "main") = some f → f.numArgs ≠ 0) (x : Option Exit)
    (hx : sdlRun mem m0 fl io rounds prog = .ok x) : x.map (·.status) = some 1 := by
  unfold sdlRun at hx
  dsimp only at hx
  rw [show (sdlResolve prog).findByName (str "main") = prog.findByName (str "main") from rfl] at hx
  cases hf : prog.findByName (str "main") with
  | none =>
    rw [hf] at hx
    cases hx
    rfl
  | some f =>
    rw [hf] at hx
    dsimp only at hx
    split at hx
    · cases hx
    · rename_i b v _
      have : v.newThread (Env.std (sdlResolve prog) fl mem) f [] = .ok (false, v) := by
        unfold VmState.newThread prepare
        rw [if_pos (by simpa using h f hf)]
      rw [this] at hx
      cases hx
      rfl

/-- C75: the exit statuses before anything is run: 1 if SDL cannot be started, -1 without files, -2 if one cannot be
read, 1 if the compiler rejects them.  Partial: the paths must not be the same up to the length of the shorter (C62). -/
theorem C75_status_partial (fs : Str → Option Str) (L : Layout) (n : Nat) (outside : Nat → Sdl.Outside) (rounds : List SdlRound) :
    (∀ paths, sdlMain mem m0 fs fl L n false outside rounds paths = .ok (some ⟨1, [], none⟩)) ∧
    sdlMain mem m0 fs fl L n true outside rounds [] = .ok (some ⟨-1, [], none⟩) ∧
    ∀ paths : List Str, paths.Pairwise (fun a b => ¬ (a.length ≤ b.length ∧ SamePath a (b.take a.length))) → paths ≠ [] →
      ((∃ q ∈ paths, ¬ CanRead fs q) → sdlMain mem m0 fs fl L n true outside rounds paths = .ok (some ⟨-2, [], none⟩)) ∧
      ((∀ q ∈ paths, CanRead fs q) → ∃ srcs : List Source,
        srcs.map (fun s => (s.path, s.data)) = paths.map (fun q => (q, fs q)) ∧
        (∀ x, build fs fl L true sdlSys n srcs = .error (.err x) →
          sdlMain mem m0 fs fl L n true outside rounds paths = .ok (some ⟨1, [], none⟩)) ∧
        (∀ prog, build fs fl L true sdlSys n srcs = .ok (some prog) →
          sdlMain mem m0 fs fl L n true outside rounds paths = sdlRun mem m0 fl (sdlIo outside) rounds prog)) := by
  refine ⟨fun _ => rfl, rfl, fun paths hp hne => ?_⟩
  have hp' : paths.Pairwise (fun a b => pathCmp a b = false) := hp.imp fun {a b} h => by
    cases hc : pathCmp a b with
    | false => rfl
    | true => exact absurd ((pathCmp_iff a b).1 hc) h
  obtain ⟨k1, k2⟩ := load_files (fs := fs) (srcs := []) hp' (by simp)
  refine ⟨fun h => ?_, fun h => ?_⟩
  · unfold sdlMain
    rw [k2 h]
    rfl
  · obtain ⟨srcs, h1, h2⟩ := k1 h
    rw [List.nil_append] at h1
    have hs := loadFiles_ne h1 (.inr hne)
    refine ⟨srcs, h2, fun x hx => ?_, fun prog hx => ?_⟩
    all_goals
      unfold sdlMain
      rw [if_pos rfl, h1]
      cases srcs with
      | nil => exact absurd rfl hs
      | cons s ss =>
        dsimp only
        rw [hx]
end

/-! ### The collector -/

theorem loop_sim {e : Env Val Store} {e' : Env (Option Ptr) Heap} (E : EnvSim e e') : ∀ (rounds : List SdlRound)
    {w : World} {v : VmState Val Store} {v' : VmState (Option Ptr) Heap}, VSame w v v' →
    AgreeV QEq (sdlLoop e rounds v) (sdlLoop e' rounds v')
  | [], w, v, v', h => ⟨_, v, w, rfl, h, rfl⟩
  | r :: rs, w, v, v', h => by
    have key : AgreeV QEq (if v.io.sdl.tickMark < r.ticks then v.resume e 1024 else .ok (true, v))
        (if v'.io.sdl.tickMark < r.ticks then v'.resume e' 1024 else .ok (true, v')) := by
      rw [h.io]
      by_cases ht : v.io.sdl.tickMark < r.ticks
      · rw [if_pos ht, if_pos ht]
        exact E.vmResume h _
      · rw [if_neg ht, if_neg ht]
        exact ⟨_, v, w, rfl, h, rfl⟩
    rw [sdlLoop, sdlLoop]
    generalize (if v.io.sdl.tickMark < r.ticks then v.resume e 1024 else .ok (true, v)) = x at *
    generalize (if v'.io.sdl.tickMark < r.ticks then v'.resume e' 1024 else .ok (true, v')) = y at *
    unfold AgreeV at key
    rcases y with f | ⟨b, u'⟩
    · rcases key with k | k
      · exact .inl k
      · rw [k]; exact .inr rfl
    · obtain ⟨b', u, w2, rfl, h2, h3⟩ := key
      unfold QEq at h3
      subst h3
      cases b with
      | false => exact ⟨_, _, w2, rfl, h2, rfl⟩
      | true =>
        dsimp only
        by_cases hq : r.quit = true
        · rw [if_pos hq, if_pos hq]
          exact ⟨_, _, w2, rfl, h2, rfl⟩
        · rw [if_neg hq, if_neg hq]
          exact loop_sim E rs h2

/-- The same outcome, unless memory or native stack run out. -/
def OrLimit {α : Type} (a b : Out α) : Prop := a = b ∨ a = .error .oom ∨ a = .error .diverge

theorem limit_of {α : Type} {f : Fault} (h : Limit f) (b : Out α) : OrLimit (.error f) b := by
  rcases h with rfl | rfl
  · exact .inr (.inl rfl)
  · exact .inr (.inr rfl)

theorem sdl_names : ∀ s ∈ sdlSys, s.1 ≠ initName := by decide +kernel

/-- C75: when the collector runs makes no difference to whether the driver is still running, nor to its output and exit
status, for whatever files and whatever SDL answers, unless memory or native stack run out. -/
theorem C75_collector (fs : Str → Option Str) (fl : FloatOps) (L : Layout) (n depth : Nat) (should : Heap → Bool)
    (started : Bool) (outside : Nat → Sdl.Outside) (rounds : List SdlRound) (paths : List Str) :
    OrLimit (sdlMain (Mem.gc depth should) Heap.empty fs fl L n started outside rounds paths)
      (sdlMain Mem.abs [] fs fl L n started outside rounds paths) := by
  unfold sdlMain
  cases started with
  | false => exact .inl rfl
  | true =>
    rw [if_pos rfl, if_pos rfl]
    cases hl : loadFiles fs [] paths with
    | none => exact .inl rfl
    | some srcs =>
      cases srcs with
      | nil => exact .inl rfl
      | cons s ss =>
        dsimp only
        rcases hb : build fs fl L true sdlSys n (s :: ss) with (_ | _) | (_ | prog)
        · exact .inl rfl
        · exact .inl rfl
        · exact .inl rfl
        obtain ⟨p, srcs', g1, g2, _⟩ := C60_machine_partial (names := sdlMap) sdl_names hb
        have hc : CleanProgram (sdlResolve prog) := fun s hs => C60_clean sdl_names g1 g2 s hs
        have E := std_sim (sdlResolve prog) fl depth should fun s hs => cstr_eq (hc s hs)
        dsimp only
        unfold sdlRun
        dsimp only
        cases (sdlResolve prog).findByName (str "main") with
        | none => exact .inl rfl
        | some F =>
          dsimp only
          have k1 := E.init (new_same (sdlIo outside))
          rw [show (⟨Heap.empty, [], [], sdlIo outside⟩ : VmState (Option Ptr) Heap) = newHeapVm (sdlIo outside) from rfl,
            show (⟨[], [], [], sdlIo outside⟩ : VmState Val Store) = newVm (sdlIo outside) from rfl]
          unfold AgreeV at k1
          rcases hx : VmState.callInit (Env.std (sdlResolve prog) fl (Mem.gc depth should)) (newHeapVm (sdlIo outside)) with f | ⟨b, v'⟩
          · rw [hx] at k1
            rcases k1 with k | k
            · exact limit_of k _
            · rw [k]; exact .inl rfl
          · rw [hx] at k1
            obtain ⟨b', v, w, h1, h2, _⟩ := k1
            rw [h1]
            dsimp only
            have k2 := E.newThread h2 F (.nil : All2 w.Rel [] [])
            unfold AgreeV at k2
            rcases hy : v'.newThread (Env.std (sdlResolve prog) fl (Mem.gc depth should)) F [] with f | ⟨b, u'⟩
            · rw [hy] at k2
              rcases k2 with k | k
              · exact limit_of k _
              · rw [k]; exact .inl rfl
            · rw [hy] at k2
              obtain ⟨b2, u, w2, h3, h4, h5⟩ := k2
              unfold QEq at h5
              subst h5
              rw [h3]
              cases b with
              | false =>
                dsimp only
                rw [h4.io]
                exact .inl rfl
              | true =>
                dsimp only
                have k3 := loop_sim E rounds h4
                unfold AgreeV at k3
                rcases hz : sdlLoop (Env.std (sdlResolve prog) fl (Mem.gc depth should)) rounds u' with f | ⟨x, y'⟩
                · rw [hz] at k3
                  rcases k3 with k | k
                  · exact limit_of k _
                  · rw [k]; exact .inl rfl
                · rw [hz] at k3
                  obtain ⟨x2, y, w3, h6, h7, h8⟩ := k3
                  unfold QEq at h8
                  subst h8
                  rw [h6]
                  cases x with
                  | none => exact .inl rfl
                  | some x =>
                    dsimp only [VmState.hasError]
                    rw [h7.io]
                    exact .inl rfl

/-! ### The functions known to programs -/

/-- Which function must be behind a name. -/
def sdlSpec (name : Str) (f : FnPtr) : Prop :=
  (Builtin.ofPtr f = none ∧ (name, HostFn.ofPtr f) ∈ [(str "cls", some (.sdl .cls)), (str "rand", some (.sdl .rand)),
    (str "video", some (.sdl .video)), (str "plot", some (.sdl .plot)), (str "flip", some (.sdl .flip)),
    (str "setrgb", some (.sdl .setrgb)), (str "circle", some (.sdl .circle)), (str "line", some (.sdl .line)),
    (str "sleep", some (.sdl .sleep)), (str "keydown", some (HostFn.sdl .keydown))]) ∨
  (name, Builtin.ofPtr f) ∈ [(str "abs", some .abs), (str "min", some .min), (str "max", some .max),
    (str "bitand", some .bitand), (str "sin", some .sin), (str "cos", some .cos), (str "tan", some .tan),
    (str "len", some .len), (str "chr", some .chr), (str "round", some .round), (str "ceil", some .ceil),
    (str "floor", some .floor), (str "sqrt", some .sqrt), (str "new_thread", some .new_thread),
    (str "wait", some .wait), (str "new_array", some Builtin.new_array)]

/-- C75: the functions a program run by the graphical driver may call, with the numbers of arguments the compiler
insists on (C19), and what each is bound to; each of its own functions takes as many arguments from the stack as it
is registered for. -/
theorem C75_functions :
    sdlSys =
      [(str "abs", some 1), (str "min", some 2), (str "max", some 2), (str "bitand", some 2), (str "sin", some 1),
       (str "cos", some 1), (str "tan", some 1), (str "len", some 1), (str "chr", some 1), (str "round", some 1),
       (str "ceil", some 1), (str "floor", some 1), (str "sqrt", some 1), (str "new_thread", none),
       (str "wait", some 1), (str "new_array", some 1), (str "cls", some 0), (str "rand", some 0),
       (str "video", some 2), (str "plot", some 2), (str "flip", some 0), (str "setrgb", some 3), (str "circle", some 3),
       (str "line", some 4), (str "sleep", some 1), (str "keydown", some 1)] ∧
    (∀ prog : Program, (∀ s ∈ prog.syscalls, ∃ n, (s.name, n) ∈ sdlSys) → ∀ s ∈ (sdlResolve prog).syscalls,
      ∃ f : FnPtr, s.call = some f ∧ sdlSpec s.name f) ∧
    ∀ b : Sdl.Fn, ∃ name, (name, some b.arity) ∈ sdlSys ∧ sdlSpec name (HostFn.sdl b).ptr := by
  refine ⟨by decide +kernel, fun prog hs s hm => ?_, fun b => ?_⟩
  · simp only [resolveWith, builtinsResolve, List.map_map, List.mem_map, Function.comp] at hm
    obtain ⟨s0, h0, rfl⟩ := hm
    obtain ⟨n, hn⟩ := hs s0 h0
    have hn : s0.name ∈ sdlSys.map Prod.fst := List.mem_map.2 ⟨_, hn, rfl⟩
    obtain ⟨name, call⟩ := s0
    have key : ∀ name ∈ sdlSys.map Prod.fst,
        (builtinsMap.lookup name = none ∧ ∃ b, sdlMap.lookup name = some b ∧ sdlSpec name b.ptr) ∨
        (sdlMap.lookup name = none ∧ ∃ b, builtinsMap.lookup name = some b ∧ sdlSpec name b.ptr) := by
      rw [show sdlSys.map Prod.fst = [str "abs", str "min", str "max", str "bitand", str "sin", str "cos", str "tan",
        str "len", str "chr", str "round", str "ceil", str "floor", str "sqrt", str "new_thread", str "wait", str "new_array",
        str "cls", str "rand", str "video", str "plot", str "flip", str "setrgb", str "circle", str "line", str "sleep",
        str "keydown"] by decide +kernel]
      simp only [List.mem_cons, List.not_mem_nil, or_false]
      rintro name (rfl | rfl | rfl | rfl | rfl | rfl | rfl | rfl | rfl | rfl | rfl | rfl | rfl | rfl | rfl | rfl | rfl | rfl |
        rfl | rfl | rfl | rfl | rfl | rfl | rfl | rfl) <;> first
        | exact .inl ⟨rfl, _, rfl, by unfold sdlSpec; decide +kernel⟩
        | exact .inr ⟨rfl, _, rfl, by unfold sdlSpec; decide +kernel⟩
    rcases key name hn with ⟨h1, b, h2, h3⟩ | ⟨h1, b, h2, h3⟩
    · refine ⟨b.ptr, ?_⟩
      simp only [h2, h1]
      exact ⟨trivial, h3⟩
    · refine ⟨b.ptr, ?_⟩
      simp only [h2, h1]
      exact ⟨trivial, h3⟩
  · cases b
    · exact ⟨str "cls", by unfold sdlSpec; decide +kernel⟩
    · exact ⟨str "rand", by unfold sdlSpec; decide +kernel⟩
    · exact ⟨str "video", by unfold sdlSpec; decide +kernel⟩
    · exact ⟨str "plot", by unfold sdlSpec; decide +kernel⟩
    · exact ⟨str "flip", by unfold sdlSpec; decide +kernel⟩
    · exact ⟨str "setrgb", by unfold sdlSpec; decide +kernel⟩
    · exact ⟨str "circle", by unfold sdlSpec; decide +kernel⟩
    · exact ⟨str "line", by unfold sdlSpec; decide +kernel⟩
    · exact ⟨str "sleep", by unfold sdlSpec; decide +kernel⟩
    · exact ⟨str "keydown", by unfold sdlSpec; decide +kernel⟩

/-! ### Examples -/

/-- A directory with one file. -/
def sdlFs (text : String) : Str → Option Str := fun p => if p = str "a" then some (str text) else none
/-- SDL always answers: it is tick 10, no key is down, there is no window. -/
def sdlOutside : Nat → Sdl.Outside := fun _ => ⟨10, fun _ => false, fun _ _ => none⟩

/-- What the driver does with the program in the rounds given. -/
def sdlShow (text : String) (rounds : List SdlRound) : Option (Option (Int × Str)) :=
  match sdlMain Mem.abs [] (sdlFs text) toyFl sampleLayout 5 true sdlOutside rounds [str "a"] with
  | .ok (some x) => some (some (x.status, x.output))
  | .ok none => some none
  | .error _ => none

/-- A program with an error: status 0. -/
example : sdlShow "function main()\n  return abs(none)\nend\n" [⟨11, false⟩] = some (some (0, str "exit: 0\n")) := by
  decide +kernel
/-- A program that sleeps from tick 10 to 110 and then fails: nothing happens up to 110. -/
example : sdlShow "function main()\n  sleep(100)\n  return abs(none)\nend\n" [⟨11, false⟩, ⟨60, false⟩, ⟨110, false⟩] = some none := by
  decide +kernel
example : sdlShow "function main()\n  sleep(100)\n  return abs(none)\nend\n" [⟨11, false⟩, ⟨60, false⟩, ⟨110, false⟩, ⟨111, false⟩] =
    some (some (0, str "exit: 0\n")) := by
  decide +kernel
/-- A program that is done: still running, until a quit event. -/
example : sdlShow "function main()\nend\n" [⟨11, false⟩, ⟨12, false⟩, ⟨13, false⟩] = some none := by decide +kernel
example : sdlShow "function main()\nend\n" [⟨11, false⟩, ⟨12, true⟩] = some (some (0, str "exit: 0\n")) := by decide +kernel
/-- No `main`; a `main` with a parameter; a text that is rejected. -/
example : sdlShow "var x = 1\n" [] = some (some (1, [])) := by decide +kernel
example : sdlShow "function main(x)\nend\n" [] = some (some (1, [])) := by decide +kernel
example : sdlShow "function main()\n  puts(1)\nend\n" [] = some (some (1, [])) := by decide +kernel

/-- The hypotheses of `C75_sleep_partial`: asleep from tick 10 for 100 milliseconds. -/
example {P M : Type} (e : Env P M) (v : VmState P M) (more : List SdlRound) (hm : v.io.sdl.tickMark = 10 + 100) :
    sdlLoop e ([⟨11, false⟩, ⟨110, false⟩] ++ more) v = sdlLoop e more v :=
  C75_sleep_partial e v 10 100 hm (by decide) (by decide) _ _ (by decide)

end Ccml.Props
