import Verif.Props.Slices
import Verif.Props.SdlDriver
/-!
C79: the graphical driver runs `main` as the source says, however its loop cuts the run into pieces: what
is on the screen when the program is over is what the source says is drawn.
-/
namespace Ccml.Props
open Sem (State Res)

/-! ### Specification -/

/-- The source read in surroundings in which the host functions `fs` are not bound: calling one of them fails an assertion,
lib_vm/thread.cpp:414-420.  With `new_thread` among them a meaning other than a failed assertion says that no thread is started. -/
def unbound (fs : List FnPtr) (cx : Src.Ctx) : Src.Ctx :=
  { cx with table := cx.table.map fun s => { s with call := s.call.filter fun f => !fs.contains f } }

section
variable {P M : Type}

/-- The thread started last is not at its end yet. -/
def Unfinished (v : VmState P M) : Prop := ∃ t ts, v.threads = t :: ts ∧ t.finished = false

/-- The graphical driver from `call_init` on (see `sdlRun`), with the machine it leaves: its exit status does not
tell what is on the screen. -/
def sdlState (mem : MemOps P M) (m0 : M) (fl : FloatOps) (io : Io) (rounds : List SdlRound) (prog : Program)
    (main : Function) : Out (Option SdlEnd × VmState P M) :=
  match VmState.callInit (Env.std (sdlResolve prog) fl mem) ⟨m0, [], [], io⟩ with
  | .error x => .error x
  | .ok (_, v) =>
    match v.newThread (Env.std (sdlResolve prog) fl mem) main [] with
    | .error x => .error x
    | .ok (false, v) => .ok (none, v)
    | .ok (true, v) => sdlLoop (Env.std (sdlResolve prog) fl mem) rounds v

/-- How often the threads get to run in `sdlState`. -/
def sdlTurns (mem : MemOps P M) (m0 : M) (fl : FloatOps) (io : Io) (rounds : List SdlRound) (prog : Program)
    (main : Function) : Nat :=
  match VmState.callInit (Env.std (sdlResolve prog) fl mem) ⟨m0, [], [], io⟩ with
  | .error _ => 0
  | .ok (_, v) =>
    match v.newThread (Env.std (sdlResolve prog) fl mem) main [] with
    | .ok (true, v) => turns (Env.std (sdlResolve prog) fl mem) rounds v
    | _ => 0

/-- `sdlState` is what the driver does: with a `main` without parameters it says whether the driver is still running and what
it has written. -/
theorem sdlState_run (mem : MemOps P M) (m0 : M) (fl : FloatOps) (io : Io) (rounds : List SdlRound) (prog : Program)
    (F : Function) (hF : prog.findByName (str "main") = some F) (hn : F.numArgs = 0) :
    sdlRun mem m0 fl io rounds prog = match sdlState mem m0 fl io rounds prog F with
      | .error x => .error x
      | .ok (none, _) => .ok none
      | .ok (some _, v) => .ok (some ⟨0, v.io.output ++ str "exit: 0\n", none⟩) := by
  unfold sdlRun sdlState
  dsimp only
  rw [show (sdlResolve prog).findByName (str "main") = some F from hF]
  dsimp only
  rcases VmState.callInit (Env.std (sdlResolve prog) fl mem) ⟨m0, [], [], io⟩ with f | ⟨b, v⟩
  · rfl
  dsimp only
  have : ∃ v1, v.newThread (Env.std (sdlResolve prog) fl mem) F [] = .ok (true, v1) := by
    unfold VmState.newThread prepare
    rw [if_neg (by simp [hn])]
    exact ⟨_, rfl⟩
  obtain ⟨v1, h1⟩ := this
  rw [h1]
  dsimp only
  rcases sdlLoop (Env.std (sdlResolve prog) fl mem) rounds v1 with f | ⟨_ | x, v2⟩ <;> rfl
end

/-! ### Proofs -/

section
variable {L : Layout} {opt : Bool} {p : Prog Unit} {prog : Program} {names : List (Str × HostFn)} {fl : FloatOps}

/-- The steps of an evaluation are a run. -/
theorem steps_goes {k : Nat} {s s' : St Val Store} (h : Steps (Env.std prog fl Mem.abs) k s s') : Goes prog fl k s s' := by
  induction h with
  | zero s => exact .done s
  | succ hg h1 _ ih => exact .step hg.1 h1 ih

theorem src_running_unbound (fs : List FnPtr) {q : Prog Ref} (hp : Ordinary opt p) (hc : Compiles L opt p q prog) (fl : FloatOps) :
    Running (Env.std ((resolveWith names prog).without fs) fl Mem.abs) ((unbound fs (srcCtx p prog fl names)).on q) prog := by
  have R := src_running (names := names) hp hc fl
  refine ⟨rfl, ?_, rfl, rfl, rfl, ?_, R.addr, ?_, R.slots, R.locals⟩
  · refine Eq.trans ?_ R.names
    show List.map Syscall.name (List.map _ _) = _
    rw [List.map_map]
    rfl
  · intro fn args rest s h1 h2 h3 h4
    have := R.host fn args rest s h1 h2 h3 h4
    rw [native_without]
    exact this
  · refine Nat.lt_of_le_of_lt (Nat.le_of_eq ?_) R.tableSmall
    show List.length (List.map _ _) = _
    rw [List.length_map]
    rfl

/-- The run of a function the source gives a meaning to. -/
theorem src_follows (fs : List FnPtr) (hc : compile L opt p = .ok prog) (hp : Ordinary opt p) (v : VmState Val Store) {n : Nat}
    (hn : 0 < n) {name : Str}
    {args : List Val} (hr : Src.call (unbound fs (srcCtx p prog fl names)) n name args (callState v) ≠ .undef) :
    ∃ F, prog.findByName name = some F ∧ F.numArgs = args.length ∧
      Follows (Env.std ((resolveWith names prog).without fs) fl Mem.abs) n (startSt v F.codeStart.toInt args)
        (Returned ⟨args.length, F.codeStart.toInt, F.codeStart.toInt, true⟩ [] [])
        (Src.call (unbound fs (srcCtx p prog fl names)) n name args (callState v)) := by
  obtain ⟨q, hc⟩ := compile_ok.1 hc
  obtain ⟨i, f, F, k1, rfl, k3, k4, k5⟩ := call_compiled_in (cx := unbound fs (srcCtx p prog fl names)) rfl hp hc hn hr
  obtain ⟨F', g1, _, _, g2, _⟩ := hc.entry hp.names k1
  rw [k4] at g1
  cases g1
  refine ⟨F, k4, g2.trans k3.symm, ?_⟩
  rw [← k5]
  exact call_follows hc hp.names rfl (src_running_unbound fs hp hc fl) k1 k4 v args k3 n

/-- A loop that does not call a function that was taken away. -/
theorem loop_same {fs : List FnPtr} {e : Program} {rounds : List SdlRound} {v : VmState Val Store}
    (h : sdlLoop (Env.std (e.without fs) fl Mem.abs) rounds v ≠ .error .assert) :
    sdlLoop (Env.std e fl Mem.abs) rounds v = sdlLoop (Env.std (e.without fs) fl Mem.abs) rounds v := by
  rcases sdlLoop_less fs e fl Mem.abs rounds v with h1 | h1
  · exact absurd h1 h
  · exact h1.symm

theorem turns_same (fs : List FnPtr) (e : Program) : ∀ (rounds : List SdlRound) (v : VmState Val Store),
    sdlLoop (Env.std (e.without fs) fl Mem.abs) rounds v ≠ .error .assert →
    turns (Env.std (e.without fs) fl Mem.abs) rounds v = turns (Env.std e fl Mem.abs) rounds v
  | [], v, h => rfl
  | r :: rs, v, h => by
    rw [sdlLoop] at h
    rw [turns, turns]
    by_cases ht : v.io.sdl.tickMark < r.ticks
    · rw [if_pos ht] at h
      rw [if_pos ht, if_pos ht]
      rcases vmResume_less fs e fl Mem.abs v 1024 with hx | hx
      · rw [hx] at h
        exact absurd rfl h
      · rw [hx] at h ⊢
        revert h
        rcases v.resume (Env.std e fl Mem.abs) 1024 with f | ⟨_ | _, u⟩
        · exact fun _ => rfl
        · exact fun _ => rfl
        · intro h
          dsimp only at h ⊢
          by_cases hq : r.quit = true
          · rw [if_pos hq, if_pos hq]
          · rw [if_neg hq] at h
            rw [if_neg hq, if_neg hq, turns_same fs e rs u h]
    · rw [if_neg ht] at h
      rw [if_neg ht, if_neg ht]
      dsimp only at h
      by_cases hq : r.quit = true
      · rw [if_pos hq, if_pos hq]
      · rw [if_neg hq] at h
        rw [if_neg hq, if_neg hq, turns_same fs e rs v h]

/-- A new thread for a function without arguments. -/
theorem thread_started (v : VmState Val Store) {F : Function} (hn : F.numArgs = 0) :
    ∃ v1 t, v.newThread (Env.std (sdlResolve prog) fl Mem.abs) F [] = .ok (true, v1) ∧ v1.threads = t :: v.threads ∧
      t.waits = 0 ∧ t.finished = false ∧ ErrorStops (headSt v1 t v.threads) ∧
      headSt v1 t v.threads = startSt v F.codeStart.toInt [] := by
  unfold VmState.newThread prepare
  rw [if_neg (by simp [hn])]
  exact ⟨_, _, rfl, rfl, rfl, rfl, fun h => absurd rfl h, rfl⟩

variable (hc : compile L opt p = .ok prog) (hp : Ordinary opt p) {fs : List FnPtr} (hfs : Builtin.new_thread.ptr ∈ fs)
  {v : VmState Val Store} (hd : ∀ t ∈ v.threads, Dead t)

include hc hp hfs hd in
/-- C79: the source says that `main` returns and leaves the variables, arrays and picture `w`.  Then for every
sequence of clock values and events: as long as the program is not over the loop does not fail, and when it is over
the variables, the arrays, what was written, the picture and what SDL was asked are those of `w`.  If it does not call
`wait` it is over when the clock has let it run `k` times.  (A `wait` for a negative number of passes can stop the machine.)
The meaning is the one without `new_thread`: no thread is started.
Partial: the constructs of C18 and C23; programs that start threads. -/
theorem C79_value_partial {n : Nat} {r : Val} {w : State}
    (hr : Src.call (unbound fs (srcCtx p prog fl sdlMap)) n (str "main") [] (callState v) = .ok r w) :
    ∃ F v1 k, prog.findByName (str "main") = some F ∧
      v.newThread (Env.std (sdlResolve prog) fl Mem.abs) F [] = .ok (true, v1) ∧
      ∀ rounds, match sdlLoop (Env.std (sdlResolve prog) fl Mem.abs) rounds v1 with
        | .error f => f = .ub ∧ Builtin.wait.ptr ∉ fs
        | .ok (x, v2) => x ≠ some .failed ∧
            ((Unfinished v2 ∧ (Builtin.wait.ptr ∈ fs → turns (Env.std (sdlResolve prog) fl Mem.abs) rounds v1 < k)) ∨
            (v2.mem = w.mem ∧ v2.globals = w.globals ∧ v2.io = w.io)) := by
  cases n with
  | zero => unfold Src.call Src.callFn at hr; split at hr <;> cases hr
  | succ n =>
    obtain ⟨F, hF, hn, hf⟩ := src_follows fs hc hp v (Nat.succ_pos n) (names := sdlMap) (fl := fl) (by rw [hr]; nofun)
    obtain ⟨v1, t, h1, h2, h3, h4, h5, h6⟩ := thread_started (prog := prog) (fl := fl) v hn
    rw [hr, ← h6] at hf
    obtain ⟨k, s, hk, hs⟩ := hf
    have hk := steps_goes hk
    obtain ⟨hq, hs1, -, hs2⟩ := returned_value (e := Env.std ((sdlResolve prog).without fs) fl Mem.abs) hs
    have hs3 : s.mem = w.mem := congrArg State.mem hs2
    have hs4 : s.globals = w.globals := congrArg State.globals hs2
    have hs5 : s.io = w.io := congrArg State.io hs2
    refine ⟨F, v1, k, hF, h1, fun rounds => ?_⟩
    have hl := loop_done (fl := fl) (noSpawn_without (prog := sdlResolve prog) hfs) rounds v1 t v.threads h2 hd h4 h5
    have hne : sdlLoop (Env.std ((sdlResolve prog).without fs) fl Mem.abs) rounds v1 ≠ .error .assert := fun hx => by
      rw [hx] at hl
      cases hl with
      | stuck a => exact a.no_end hk hq
    rw [loop_same hne, ← turns_same fs _ rounds v1 hne]
    generalize sdlLoop (Env.std ((sdlResolve prog).without fs) fl Mem.abs) rounds v1 = o at hl
    cases hl with
    | running a1 a2 a3 a4 a5 =>
      refine ⟨a1, .inl ⟨⟨_, _, a2, a3⟩, fun hw => ?_⟩⟩
      have := a4.shorter hk a3 hq
      have := a5 (noPause_without hw) h3
      omega
    | over a1 a2 a3 a4 a5 a6 =>
      obtain ⟨-, rfl⟩ := hk.unique a1 hq a2
      refine ⟨fun hx => ?_, .inr ⟨a3.trans hs3, a4.trans hs4, a5.trans hs5⟩⟩
      rw [a6.1 hx] at hs1
      cases hs1
    | stuck a => exact (a.no_end hk hq).elim
    | waits a => exact ⟨rfl, fun hw => a ⟨noPause_without hw, h3⟩⟩

include hc hp hfs hd in
/-- C79: likewise for a `main` that ends with an error: when it gets there the loop is left. -/
theorem C79_error_partial {n : Nat} {e : TErr} {w : State} (he : e ≠ .success)
    (hr : Src.call (unbound fs (srcCtx p prog fl sdlMap)) n (str "main") [] (callState v) = .err e w) :
    ∃ F v1 k, prog.findByName (str "main") = some F ∧
      v.newThread (Env.std (sdlResolve prog) fl Mem.abs) F [] = .ok (true, v1) ∧
      ∀ rounds, match sdlLoop (Env.std (sdlResolve prog) fl Mem.abs) rounds v1 with
        | .error f => f = .ub ∧ Builtin.wait.ptr ∉ fs
        | .ok (x, v2) =>
            (x ≠ some .failed ∧ Unfinished v2 ∧
              (Builtin.wait.ptr ∈ fs → turns (Env.std (sdlResolve prog) fl Mem.abs) rounds v1 < k)) ∨
            (x = some .failed ∧ v2.mem = w.mem ∧ v2.globals = w.globals ∧ v2.io = w.io) := by
  cases n with
  | zero => unfold Src.call Src.callFn at hr; split at hr <;> cases hr
  | succ n =>
    obtain ⟨F, hF, hn, hf⟩ := src_follows fs hc hp v (Nat.succ_pos n) (names := sdlMap) (fl := fl) (by rw [hr]; nofun)
    obtain ⟨v1, t, h1, h2, h3, h4, h5, h6⟩ := thread_started (prog := prog) (fl := fl) v hn
    rw [hr, ← h6] at hf
    obtain ⟨k, s, hk, hs⟩ := hf
    have hk := steps_goes hk
    have hq := hs.finished
    have hs2 := hs.state
    have hs1 : s.th.hasError = true := by simpa [Thread.hasError, hs.error] using he
    have hs3 : s.mem = w.mem := congrArg State.mem hs2
    have hs4 : s.globals = w.globals := congrArg State.globals hs2
    have hs5 : s.io = w.io := congrArg State.io hs2
    refine ⟨F, v1, k, hF, h1, fun rounds => ?_⟩
    have hl := loop_done (fl := fl) (noSpawn_without (prog := sdlResolve prog) hfs) rounds v1 t v.threads h2 hd h4 h5
    have hne : sdlLoop (Env.std ((sdlResolve prog).without fs) fl Mem.abs) rounds v1 ≠ .error .assert := fun hx => by
      rw [hx] at hl
      cases hl with
      | stuck a => exact a.no_end hk hq
    rw [loop_same hne, ← turns_same fs _ rounds v1 hne]
    generalize sdlLoop (Env.std ((sdlResolve prog).without fs) fl Mem.abs) rounds v1 = o at hl
    cases hl with
    | running a1 a2 a3 a4 a5 =>
      refine .inl ⟨a1, ⟨_, _, a2, a3⟩, fun hw => ?_⟩
      have := a4.shorter hk a3 hq
      have := a5 (noPause_without hw) h3
      omega
    | over a1 a2 a3 a4 a5 a6 =>
      obtain ⟨-, rfl⟩ := hk.unique a1 hq a2
      exact .inr ⟨a6.2 hs1, a3.trans hs3, a4.trans hs4, a5.trans hs5⟩
    | stuck a => exact (a.no_end hk hq).elim
    | waits a => exact ⟨rfl, fun hw => a ⟨noPause_without hw, h3⟩⟩

include hc hp hfs hd in
/-- C79: what stops the evaluation of the source (undefined behaviour of a drawing function, for one) stops the driver in
the same way, and it has not failed or come to its end before. -/
theorem C79_fault_partial {n : Nat} {x : Fault} (hxa : x ≠ .assert)
    (hr : Src.call (unbound fs (srcCtx p prog fl sdlMap)) n (str "main") [] (callState v) = .fault x) :
    ∃ F v1 k, prog.findByName (str "main") = some F ∧
      v.newThread (Env.std (sdlResolve prog) fl Mem.abs) F [] = .ok (true, v1) ∧
      ∀ rounds, match sdlLoop (Env.std (sdlResolve prog) fl Mem.abs) rounds v1 with
        | .error f => f = x ∨ f = .ub ∧ Builtin.wait.ptr ∉ fs
        | .ok (y, v2) => y ≠ some .failed ∧ Unfinished v2 ∧
            (Builtin.wait.ptr ∈ fs → turns (Env.std (sdlResolve prog) fl Mem.abs) rounds v1 ≤ k) := by
  cases n with
  | zero => unfold Src.call Src.callFn at hr; split at hr <;> cases hr
  | succ n =>
    obtain ⟨F, hF, hn, hf⟩ := src_follows fs hc hp v (Nat.succ_pos n) (names := sdlMap) (fl := fl) (by rw [hr]; nofun)
    obtain ⟨v1, t, h1, h2, h3, h4, h5, h6⟩ := thread_started (prog := prog) (fl := fl) v hn
    rw [hr, ← h6] at hf
    obtain ⟨k, s, hk, hs1, hs2⟩ := hf
    have hk : Stuck ((sdlResolve prog).without fs) fl x k (headSt v1 t v.threads) := ⟨s, steps_goes hk, hs1.1, hs2⟩
    refine ⟨F, v1, k, hF, h1, fun rounds => ?_⟩
    have hl := loop_done (fl := fl) (noSpawn_without (prog := sdlResolve prog) hfs) rounds v1 t v.threads h2 hd h4 h5
    have hne : sdlLoop (Env.std ((sdlResolve prog).without fs) fl Mem.abs) rounds v1 ≠ .error .assert := fun hx => by
      rw [hx] at hl
      cases hl with
      | stuck a => exact hxa (a.unique hk).1.symm
    rw [loop_same hne, ← turns_same fs _ rounds v1 hne]
    generalize sdlLoop (Env.std ((sdlResolve prog).without fs) fl Mem.abs) rounds v1 = o at hl
    cases hl with
    | running a1 a2 a3 a4 a5 => exact ⟨a1, ⟨_, _, a2, a3⟩, fun hw => Nat.le_trans (a5 (noPause_without hw) h3) (hk.bound a4)⟩
    | over a1 a2 a3 a4 a5 a6 => exact (hk.no_end a1 a2).elim
    | stuck a => exact .inl (a.unique hk).1
    | waits a => exact .inr ⟨rfl, fun hw => a ⟨noPause_without hw, h3⟩⟩

include hc hp hfs hd in
/-- C79: a program that the source says goes on for ever does. -/
theorem C79_diverges_partial
    (hr : ∀ n, Src.call (unbound fs (srcCtx p prog fl sdlMap)) n (str "main") [] (callState v) = .timeout) :
    ∃ F v1, prog.findByName (str "main") = some F ∧
      v.newThread (Env.std (sdlResolve prog) fl Mem.abs) F [] = .ok (true, v1) ∧
      ∀ rounds, match sdlLoop (Env.std (sdlResolve prog) fl Mem.abs) rounds v1 with
        | .error f => f = .ub ∧ Builtin.wait.ptr ∉ fs
        | .ok (y, v2) => y ≠ some .failed ∧ Unfinished v2 := by
  have hfo : ∀ n, ∃ F, prog.findByName (str "main") = some F ∧ F.numArgs = 0 ∧
      ∃ s', Goes ((sdlResolve prog).without fs) fl (n + 1) (startSt v F.codeStart.toInt []) s' := fun n => by
    obtain ⟨F, hF, hn, hf⟩ := src_follows fs hc hp v (Nat.succ_pos n) (names := sdlMap) (fl := fl) (by rw [hr]; nofun)
    rw [hr] at hf
    obtain ⟨s, hs⟩ := hf
    exact ⟨F, hF, hn, s, steps_goes hs⟩
  obtain ⟨F, hF, hn, -⟩ := hfo 0
  obtain ⟨v1, t, h1, h2, h3, h4, h5, h6⟩ := thread_started (prog := prog) (fl := fl) v hn
  have hfo : ∀ n, ∃ s', Goes ((sdlResolve prog).without fs) fl (n + 1) (headSt v1 t v.threads) s' := fun n => by
    obtain ⟨F', hF', -, s, hs⟩ := hfo n
    rw [hF] at hF'
    cases hF'
    rw [h6]
    exact ⟨s, hs⟩
  refine ⟨F, v1, hF, h1, fun rounds => ?_⟩
  have hl := loop_done (fl := fl) (noSpawn_without (prog := sdlResolve prog) hfs) rounds v1 t v.threads h2 hd h4 h5
  have hne : sdlLoop (Env.std ((sdlResolve prog).without fs) fl Mem.abs) rounds v1 ≠ .error .assert := fun hx => by
    rw [hx] at hl
    cases hl with
    | stuck a =>
      rename_i j
      obtain ⟨s2, h⟩ := hfo j
      have := a.bound h
      omega
  rw [loop_same hne]
  generalize sdlLoop (Env.std ((sdlResolve prog).without fs) fl Mem.abs) rounds v1 = o at hl
  cases hl with
  | running a1 a2 a3 a4 a5 => exact ⟨a1, _, _, a2, a3⟩
  | over a1 a2 a3 a4 a5 a6 =>
    rename_i s' j
    obtain ⟨s2, h⟩ := hfo j
    have := a1.split h (by omega)
    rw [Nat.add_sub_cancel_left] at this
    cases this with
    | step hf => rw [a2] at hf; cases hf
  | stuck a =>
    rename_i j
    obtain ⟨s2, h⟩ := hfo j
    have := a.bound h
    omega
  | waits a => exact ⟨rfl, fun hw => a ⟨noPause_without hw, h3⟩⟩

/-! ### From the texts, with the collector -/

theorem turns_sim {e : Env Val Store} {e' : Env (Option Ptr) Heap} (E : EnvSim e e') : ∀ (rounds : List SdlRound)
    {w : World} {v : VmState Val Store} {v' : VmState (Option Ptr) Heap}, VSame w v v' →
    ∀ r, sdlLoop e' rounds v' = .ok r → turns e' rounds v' = turns e rounds v
  | [], w, v, v', h, _, _ => rfl
  | r :: rs, w, v, v', h, o, ho => by
    rw [sdlLoop, h.io] at ho
    rw [turns, turns, h.io]
    by_cases ht : v.io.sdl.tickMark < r.ticks
    · rw [if_pos ht] at ho
      rw [if_pos ht, if_pos ht]
      have key := E.vmResume h 1024
      unfold AgreeV at key
      rcases hx : v'.resume e' 1024 with f | ⟨b, u'⟩
      · rw [hx] at ho; cases ho
      · rw [hx] at ho key
        obtain ⟨b', u, w2, h1, h2, h3⟩ := key
        unfold QEq at h3
        subst h3
        rw [h1]
        cases b with
        | false => rfl
        | true =>
          dsimp only at ho ⊢
          by_cases hq : r.quit = true
          · rw [if_pos hq, if_pos hq]
          · rw [if_neg hq] at ho
            rw [if_neg hq, if_neg hq, turns_sim E rs h2 o ho]
    · rw [if_neg ht] at ho
      rw [if_neg ht, if_neg ht]
      dsimp only at ho
      by_cases hq : r.quit = true
      · rw [if_pos hq, if_pos hq]
      · rw [if_neg hq] at ho
        rw [if_neg hq, if_neg hq, turns_sim E rs h o ho]

theorem Unfinished.same {w : World} {v : VmState Val Store} {v' : VmState (Option Ptr) Heap} (h : VSame w v v') :
    Unfinished v' ↔ Unfinished v := by
  have := h.threads
  unfold Unfinished
  revert this
  generalize v.threads = a
  generalize v'.threads = b
  intro ha
  cases ha with
  | nil => constructor <;> (rintro ⟨_, _, h, _⟩; cases h)
  | cons h1 h2 =>
    constructor
    · rintro ⟨t, ts, h, hf⟩
      cases h
      exact ⟨_, _, rfl, h1.finished.symm.trans hf⟩
    · rintro ⟨t, ts, h, hf⟩
      cases h
      exact ⟨_, _, rfl, h1.finished.trans hf⟩

/-- The driver on the collected heap and on the store that is never collected. -/
theorem state_sim (hcl : CleanProgram prog) (fl : FloatOps) (depth : Nat) (should : Heap → Bool) (io : Io)
    (rounds : List SdlRound) (F : Function) :
    match sdlState (Mem.gc depth should) Heap.empty fl io rounds prog F with
    | .error f => Limit f ∨ sdlState Mem.abs [] fl io rounds prog F = .error f
    | .ok (x, v') => ∃ v w, sdlState Mem.abs [] fl io rounds prog F = .ok (x, v) ∧ VSame w v v' ∧
        v'.seen (Mem.gc depth should) = v.seen Mem.abs ∧
        sdlTurns (Mem.gc depth should) Heap.empty fl io rounds prog F = sdlTurns Mem.abs [] fl io rounds prog F := by
  have E := std_sim (sdlResolve prog) fl depth should fun s hs => cstr_eq (hcl s hs)
  unfold sdlState sdlTurns
  have k1 := E.init (new_same io)
  rw [show (⟨Heap.empty, [], [], io⟩ : VmState (Option Ptr) Heap) = newHeapVm io from rfl,
    show (⟨[], [], [], io⟩ : VmState Val Store) = newVm io from rfl]
  unfold AgreeV at k1
  rcases hx : VmState.callInit (Env.std (sdlResolve prog) fl (Mem.gc depth should)) (newHeapVm io) with f | ⟨b, v'⟩
  · rw [hx] at k1
    rcases k1 with k | k
    · exact .inl k
    · rw [k]; exact .inr rfl
  · rw [hx] at k1
    obtain ⟨b', v, w, h1, h2, -⟩ := k1
    rw [h1]
    dsimp only
    have k2 := E.newThread h2 F (.nil : All2 w.Rel [] [])
    unfold AgreeV at k2
    rcases hy : v'.newThread (Env.std (sdlResolve prog) fl (Mem.gc depth should)) F [] with f | ⟨b, u'⟩
    · rw [hy] at k2
      rcases k2 with k | k
      · exact .inl k
      · rw [k]; exact .inr rfl
    · rw [hy] at k2
      obtain ⟨b2, u, w2, h3, h4, h5⟩ := k2
      unfold QEq at h5
      subst h5
      rw [h3]
      cases b with
      | false => exact ⟨_, w2, rfl, h4, E.seen h4, rfl⟩
      | true =>
        dsimp only
        have k3 := loop_sim E rounds h4
        unfold AgreeV at k3
        rcases hz : sdlLoop (Env.std (sdlResolve prog) fl (Mem.gc depth should)) rounds u' with f | ⟨x, y'⟩
        · rw [hz] at k3
          exact k3
        · rw [hz] at k3
          obtain ⟨x2, y, w3, h6, h7, h8⟩ := k3
          unfold QEq at h8
          subst h8
          exact ⟨y, w3, h6, h7, E.seen h7, turns_sim E rounds h4 _ hz⟩
end

/-- C79: from the texts of a graphical program to its picture.  `p` is the tree of the texts (C58), the source says that
the initialisers of the variables leave `w0` and that `main` then returns and leaves `w`.  Then for whatever SDL answers, for every
sequence of clock values and events, and whenever the collector runs: the program is not over yet, or the picture, the clock
mark, the random numbers, what was written and the global variables are those of `w`; without `wait` it is over when the clock has let
it run `k` times.  Unless memory or native stack run out.  Partial: the constructs of C18 and C23, programs that
start threads, and start-ups that `call_init` does not finish. -/
theorem C79_machine_partial {fs : Str → Option Str} {fl : FloatOps} {L : Layout} {m : Nat} {srcs : List Source} {prog : Program}
    (hb : build fs fl L true sdlSys m srcs = .ok (some prog)) {gone : List FnPtr} (hg : Builtin.new_thread.ptr ∈ gone) :
    ∃ p srcs', buildSources fs fl m 0 srcs [] (registered sdlSys) = .ok (p, srcs') ∧
      (ElseApart p → Src.PlainIfs p → Src.Small p → ∀ (outside : Nat → Sdl.Outside) (n : Nat) (w0 : State),
        Src.startUp (srcCtx p prog fl sdlMap) n (callState (newVm (sdlIo outside))) = .ok () w0 →
        (∀ v, (newVm (sdlIo outside)).callInit (Env.std (sdlResolve prog) fl Mem.abs) = .ok (true, v) →
          ∀ t ∈ v.threads, t.waits = 0 ∧ t.finished = true) →
        ∀ (r : Val) (w : State), Src.call (unbound gone (srcCtx p prog fl sdlMap)) n (str "main") [] (mainState w0) = .ok r w →
        ∃ F k, prog.findByName (str "main") = some F ∧ ∀ depth should rounds,
          match sdlState (Mem.gc depth should) Heap.empty fl (sdlIo outside) rounds prog F with
          | .error f => f = .oom ∨ f = .diverge ∨ (f = .ub ∧ Builtin.wait.ptr ∉ gone)
          | .ok (x, v2) => x ≠ some .failed ∧
              ((Unfinished v2 ∧ (Builtin.wait.ptr ∈ gone →
                sdlTurns (Mem.gc depth should) Heap.empty fl (sdlIo outside) rounds prog F < k)) ∨
              (v2.io = w.io ∧
                v2.globals.map (Ccml.peek (Mem.gc depth should) v2.mem) = w.globals.map (Ccml.peek Mem.abs w.mem)))) := by
  obtain ⟨p, srcs', g1, g2, -⟩ := C60_machine_partial (names := sdlMap) sdl_names hb
  refine ⟨p, srcs', g1, fun ha hi hm outside n w0 hs hd r w hr => ?_⟩
  have hp : Ordinary true p := ⟨ha, fun _ => hi, C60_names sdl_names g1, hm⟩
  obtain ⟨w', t, h1, -, -, h2⟩ := C57_start_partial g2 hp fl (newVm (sdlIo outside)) rfl hs
  have hdd := hd _ h1
  obtain rfl := h2 (hdd t (by simp [leftBy])).2
  have hr' : Src.call (unbound gone (srcCtx p prog fl sdlMap)) n (str "main") [] (callState (leftBy w' t)) =
      .ok r (Src.on (w'.before ++ t :: w'.after) w) := by
    rw [main_on, Src.on_call (fun _ _ _ => Src.on_builtins ..), hr]
    rfl
  obtain ⟨F, v1, k, hF, hn, hl⟩ := C79_value_partial g2 hp hg (fun t ht => ⟨(hdd t ht).1, .inl (hdd t ht).2⟩) hr'
  refine ⟨F, k, hF, fun depth should rounds => ?_⟩
  have hl := hl rounds
  have hst : sdlState Mem.abs [] fl (sdlIo outside) rounds prog F =
      sdlLoop (Env.std (sdlResolve prog) fl Mem.abs) rounds v1 := by
    unfold sdlState
    rw [show (⟨[], [], [], sdlIo outside⟩ : VmState Val Store) = newVm (sdlIo outside) from rfl, h1]
    dsimp only
    rw [hn]
  have htu : sdlTurns Mem.abs [] fl (sdlIo outside) rounds prog F =
      turns (Env.std (sdlResolve prog) fl Mem.abs) rounds v1 := by
    unfold sdlTurns
    rw [show (⟨[], [], [], sdlIo outside⟩ : VmState Val Store) = newVm (sdlIo outside) from rfl, h1]
    dsimp only
    rw [hn]
  have hsim := state_sim (C60_clean sdl_names g1 g2) fl depth should (sdlIo outside) rounds F
  rw [hst, htu] at hsim
  generalize sdlState (Mem.gc depth should) Heap.empty fl (sdlIo outside) rounds prog F = o at *
  rcases o with f | ⟨x, v2⟩
  · rcases hsim with h | h
    · rcases h with rfl | rfl
      · exact .inl rfl
      · exact .inr (.inl rfl)
    · rw [h] at hl
      exact .inr (.inr hl)
  · obtain ⟨v, wd, a1, a2, a3, a4⟩ := hsim
    rw [a1] at hl
    obtain ⟨b1, b2⟩ := hl
    refine ⟨b1, ?_⟩
    rcases b2 with ⟨b2, b3⟩ | ⟨b2, b3, b4⟩
    · refine .inl ⟨(Unfinished.same a2).2 b2, fun hw => ?_⟩
      rw [a4]
      exact b3 hw
    · refine .inr ⟨a2.io.trans b4, ?_⟩
      have := congrArg (fun x => x.1) a3
      refine this.trans ?_
      show v.globals.map (Ccml.peek Mem.abs v.mem) = _
      rw [b2, b3]
      rfl

/-! ### Examples -/

/-- A program that draws two pixels, the second one after a pause. -/
def drawText : Str :=
  str "var n = 1\nfunction dot(x)\n  plot(x, n)\nend\nfunction main()\n  video(2, 2)\n  setrgb(0, 0, 9)\n  plot(n, 0)\n  sleep(5)\n  dot(0)\nend\n"
/-- Its source. -/
def drawSrc : Source := ⟨str "a", some drawText, []⟩
/-- SDL answers: it is tick 10, no key is down, the window has four pixels. -/
def drawOutside : Nat → Sdl.Outside := fun _ => ⟨10, fun _ => false, fun _ _ => some (some [0, 0, 0, 0])⟩

/-- What is read. -/
def drawRead : Prog Unit × List Source :=
  outOf ([], []) (buildSources (fun _ => none) toyFl 5 0 [drawSrc] [] (registered sdlSys))
/-- The tree that is compiled. -/
def drawTree : Prog Unit := drawRead.1
/-- The program. -/
def drawProg : Program := outOf Program.empty (compile sampleLayout true drawTree)

theorem draw_read : buildSources (fun _ => none) toyFl 5 0 [drawSrc] [] (registered sdlSys) = .ok drawRead := by
  have h : isOk (buildSources (fun _ => none) toyFl 5 0 [drawSrc] [] (registered sdlSys)) = true := by decide +kernel
  unfold drawRead
  exact outOf_ok h
theorem draw_reads : buildSources (fun _ => none) toyFl 5 0 [drawSrc] [] (registered sdlSys) = .ok (drawTree, drawRead.2) := by
  rw [draw_read, drawTree]
theorem draw_compiles : compile sampleLayout true drawTree = .ok drawProg := outOf_ok (by decide +kernel)

theorem draw_builds : build (fun _ => none) toyFl sampleLayout true sdlSys 5 [drawSrc] = .ok (some drawProg) := by
  unfold build
  dsimp only
  rw [draw_reads]
  dsimp only
  rw [draw_compiles]

theorem draw_apart : ElseApart drawTree := fun f hf =>
  apartB_of (List.all_eq_true.1 (by decide +kernel : (funcsOf drawTree).all (fun f => apartB [] f.body) = true) f
    (mem_funcsOf hf))
theorem draw_ifs : Src.PlainIfs drawTree := fun f hf e he =>
  List.all_eq_true.1 (List.all_eq_true.1 (by decide +kernel : (funcsOf drawTree).all
    (fun f => (Src.condsB f.body).all (Src.plainCond drawTree)) = true) f (mem_funcsOf hf)) e he
theorem draw_small : Src.Small drawTree := ⟨by decide +kernel, fun f hf =>
  of_decide_eq_true (List.all_eq_true.1 (by decide +kernel : (funcsOf drawTree).all
    (fun f => decide (f.args.length + Src.varsB f.body < 2147483648)) = true) f (mem_funcsOf hf))⟩
/-- The library functions it does not call. -/
def drawGone : List FnPtr := [Builtin.new_thread.ptr, Builtin.wait.ptr]

/-- The state the initialisers leave. -/
def drawW : State := endOf (Src.startUp (srcCtx drawTree drawProg toyFl sdlMap) 9 (callState (newVm (sdlIo drawOutside))))

attribute [local irreducible] sdlState sdlTurns in
/-- `C79_machine_partial` for it: the top right and the bottom left pixel have colour 9, and the clock
mark is 15, as soon as the clock has let the program run `k` times, whenever the collector runs. -/
example : ∃ F k, drawProg.findByName (str "main") = some F ∧ ∀ depth should rounds,
    match sdlState (Mem.gc depth should) Heap.empty toyFl (sdlIo drawOutside) rounds drawProg F with
    | .error f => f = .oom ∨ f = .diverge
    | .ok (x, v2) => x ≠ some .failed ∧
        ((Unfinished v2 ∧ sdlTurns (Mem.gc depth should) Heap.empty toyFl (sdlIo drawOutside) rounds drawProg F < k) ∨
        (v2.io.sdl.video.video = [0, 9, 9, 0] ∧ v2.io.sdl.tickMark = 15)) := by
  obtain ⟨p, ss, h1, h2⟩ := C79_machine_partial draw_builds (gone := drawGone) (by simp [drawGone])
  rw [draw_reads] at h1
  obtain ⟨h1, _⟩ := Prod.mk.inj (Except.ok.inj h1)
  subst h1
  obtain ⟨w, hr, hw⟩ : ∃ w, Src.call (unbound drawGone (srcCtx drawTree drawProg toyFl sdlMap)) 9 (str "main") [] (mainState drawW) =
      .ok (.int 0) w ∧ (decide (w.io.sdl.video.video = [0, 9, 9, 0]) && decide (w.io.sdl.tickMark = 15)) = true :=
    ok_of_check (by decide +kernel)
  simp only [Bool.and_eq_true, decide_eq_true_eq] at hw
  obtain ⟨F, k, hF, hk⟩ := h2 draw_apart draw_ifs draw_small drawOutside 9 drawW (end_ok (by decide +kernel))
    (fun v hv => by
      have h : (match (newVm (sdlIo drawOutside)).callInit (Env.std (sdlResolve drawProg) toyFl Mem.abs) with
        | .ok (_, v) => v.threads.all (fun t => decide (t.waits = 0) && t.finished) | _ => false) = true := by decide +kernel
      rw [hv] at h
      intro t ht
      simpa using List.all_eq_true.1 h t ht) _ w hr
  refine ⟨F, k, hF, fun depth should rounds => ?_⟩
  have hD : Builtin.wait.ptr ∈ drawGone := by simp [drawGone]
  have h := hk depth should rounds
  generalize sdlState (Mem.gc depth should) Heap.empty toyFl (sdlIo drawOutside) rounds drawProg F = o at *
  rcases o with f | ⟨x, v2⟩
  · rcases h with h | h | h
    · exact .inl h
    · exact .inr h
    · exact absurd hD h.2
  · refine ⟨h.1, h.2.imp (fun h => ⟨h.1, h.2 hD⟩) fun h => ?_⟩
    rw [h.1]
    exact hw

/-- A program that fails, or stops the machine, depending on its variable. -/
def oddText : Str :=
  str "var k = 0\nfunction main()\n  video(2, 2)\n  if (k == 2)\n    plot(1 + none, 0)\n  end\n  if (k == 3)\n    video(-1, 5)\n  end\nend\n"
/-- What is read. -/
def oddRead : Prog Unit × List Source :=
  outOf ([], []) (buildSources (fun _ => none) toyFl 5 0 [⟨str "a", some oddText, []⟩] [] (registered sdlSys))
/-- The tree that is compiled. -/
def oddTree : Prog Unit := oddRead.1
/-- The program. -/
def oddProg : Program := outOf Program.empty (compile sampleLayout true oddTree)
/-- A machine whose variable has the value `k`. -/
def oddVm (k : I32) : VmState Val Store := { newVm (sdlIo drawOutside) with globals := [.int k] }

theorem odd_compiles : compile sampleLayout true oddTree = .ok oddProg := outOf_ok (by decide +kernel)
theorem odd_ordinary : Ordinary true oddTree where
  apart f hf :=
    apartB_of (List.all_eq_true.1 (by decide +kernel : (funcsOf oddTree).all (fun f => apartB [] f.body) = true) f
      (mem_funcsOf hf))
  ifs _ f hf e he :=
    List.all_eq_true.1 (List.all_eq_true.1 (by decide +kernel : (funcsOf oddTree).all
      (fun f => (Src.condsB f.body).all (Src.plainCond oddTree)) = true) f (mem_funcsOf hf)) e he
  names := by decide +kernel
  small := ⟨by decide +kernel, fun f hf =>
    of_decide_eq_true (List.all_eq_true.1 (by decide +kernel : (funcsOf oddTree).all
      (fun f => decide (f.args.length + Src.varsB f.body < 2147483648)) = true) f (mem_funcsOf hf))⟩

theorem err_checked {r : Res Val} {x : TErr} {P : State → Bool}
    (h : (match r with | .err y w => decide (y = x) && P w | _ => false) = true) : ∃ w, r = .err x w ∧ P w = true := by
  split at h
  · rename_i y w
    simp only [Bool.and_eq_true, decide_eq_true_eq] at h
    exact ⟨w, by rw [h.1], h.2⟩
  · cases h

/-- `C79_error_partial`: the source says that `main` fails; so the loop is left when it gets there. -/
example : ∃ F v1 k, oddProg.findByName (str "main") = some F ∧
    (oddVm 2).newThread (Env.std (sdlResolve oddProg) toyFl Mem.abs) F [] = .ok (true, v1) ∧
    ∀ rounds, k ≤ turns (Env.std (sdlResolve oddProg) toyFl Mem.abs) rounds v1 →
      match sdlLoop (Env.std (sdlResolve oddProg) toyFl Mem.abs) rounds v1 with
      | .error _ => False
      | .ok (x, v2) => x = some .failed ∧ v2.io.sdl.video.video = [0, 0, 0, 0] := by
  obtain ⟨w, hr, hw⟩ : ∃ w, Src.call (unbound drawGone (srcCtx oddTree oddProg toyFl sdlMap)) 9 (str "main") [] (callState (oddVm 2)) =
      .err .bad_type_operation w ∧ decide (w.io.sdl.video.video = [0, 0, 0, 0]) = true :=
    err_checked (by decide +kernel)
  have hD : Builtin.wait.ptr ∈ drawGone := by simp [drawGone]
  obtain ⟨F, v1, k, hF, h1, hk⟩ := C79_error_partial odd_compiles odd_ordinary (fs := drawGone) (by simp [drawGone])
    (v := oddVm 2) (by simp [oddVm, newVm]) (by nofun) hr
  refine ⟨F, v1, k, hF, h1, fun rounds hle => ?_⟩
  have h := hk rounds
  generalize sdlLoop (Env.std (sdlResolve oddProg) toyFl Mem.abs) rounds v1 = o at *
  rcases o with f | ⟨x, v2⟩
  · exact h.2 hD
  · rcases h with h | h
    · exact absurd (h.2.2 hD) (by omega)
    · exact ⟨h.1, by rw [h.2.2.2]; exact of_decide_eq_true hw⟩

/-- `C79_fault_partial`: a window of a negative size is undefined behaviour. -/
example : Src.call (unbound drawGone (srcCtx oddTree oddProg toyFl sdlMap)) 9 (str "main") [] (callState (oddVm 3)) = .fault .ub :=
  fault_of_check (by decide +kernel)

end Ccml.Props
