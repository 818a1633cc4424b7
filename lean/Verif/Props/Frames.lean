import Verif.Props.Graphics
import Verif.Cut
/-!
C80: what a graphical program shows while it is running.  Most graphical programs draw in a loop that does not end; C79 says
nothing about their pictures.
-/
namespace Ccml.Props
open Sem (State Res)

/-! ### Specification -/

/-- The source read up to the `N`th call of a function of the graphical driver, counted from the start of the program: the
evaluation ends behind it with an error (`cutHost`). -/
def upToCall (N : Nat) (cx : Src.Ctx) : Src.Ctx := { cx with host := cutHost N cx.host }

/-! ### Proofs -/

section
variable {L : Layout} {opt : Bool} {p : Prog Unit} {prog : Program} {names : List (Str × HostFn)} {fl : FloatOps}

theorem src_running_cut (N : Nat) (fs : List FnPtr) {q : Prog Ref} (hp : Ordinary opt p) (hc : Compiles L opt p q prog) (fl : FloatOps) :
    Running (cutEnv N (Env.std ((resolveWith names prog).without fs) fl Mem.abs))
      ((upToCall N (unbound fs (srcCtx p prog fl names))).on q) prog := by
  have R := src_running_unbound (names := names) fs hp hc fl
  exact ⟨R.program, R.names, R.mem, R.fl, R.handlers, hostOk_cut R.host, R.addr, R.tableSmall, R.slots, R.locals⟩

/-- The run of a function up to the `N`th call. -/
theorem src_cut (N : Nat) (fs : List FnPtr) (hc : compile L opt p = .ok prog) (hp : Ordinary opt p) (v : VmState Val Store) {n : Nat}
    (hn : 0 < n) {name : Str} {args : List Val} {x : TErr} {w : State}
    (hr : Src.call (upToCall N (unbound fs (srcCtx p prog fl names))) n name args (callState v) = .err x w) :
    ∃ F, prog.findByName name = some F ∧ F.numArgs = args.length ∧
      ∃ j s1, Goes ((resolveWith names prog).without fs) fl j (startSt v F.codeStart.toInt args) s1 ∧ s1.io = w.io := by
  obtain ⟨q, hc⟩ := compile_ok.1 hc
  obtain ⟨i, f, F, k1, rfl, k3, k4, k5⟩ :=
    call_compiled_in (cx := upToCall N (unbound fs (srcCtx p prog fl names))) rfl hp hc hn (by rw [hr]; nofun)
  obtain ⟨F', g1, _, _, g2, _⟩ := hc.entry hp.names k1
  rw [k4] at g1
  cases g1
  refine ⟨F, k4, g2.trans k3.symm, ?_⟩
  have := call_follows hc hp.names rfl (src_running_cut (names := names) N fs hp hc fl) k1 k4 v args k3 n
  rw [k5, hr] at this
  obtain ⟨k, s, hk, hs⟩ := this
  obtain ⟨j, s1, h1, h2⟩ := steps_cut hk
  exact ⟨j, s1, h1, h2.trans (congrArg State.io hs.state)⟩

theorem cut_on {N : Nat} {Q : List (Thread Val)} {host : FnPtr → List Val → State → Res Val}
    (h : ∀ fn args w, host fn args (Src.on Q w) = Src.onR Q (host fn args w)) {fn : FnPtr} {args : List Val} {w : State} :
    cutHost N host fn args (Src.on Q w) = Src.onR Q (cutHost N host fn args w) := by
  unfold cutHost
  rw [h]
  cases host fn args w with
  | ok a w' =>
    show (if w.io.asked < N ∧ N ≤ w'.io.asked then Res.err cutErr (Src.on Q w') else .ok a (Src.on Q w')) = _
    dsimp only
    split <;> rfl
  | err => rfl
  | fault => rfl
  | timeout => rfl
  | undef => rfl

variable (hc : compile L opt p = .ok prog) (hp : Ordinary opt p) {fs : List FnPtr} (hfs : Builtin.new_thread.ptr ∈ fs)
  {v : VmState Val Store} (hd : ∀ t ∈ v.threads, Dead t)

include hc hp hfs hd in
/-- C80: the source says that `main` calls functions of the graphical driver `N` times or more, and that the picture, the
clock mark and the random numbers are those of `w` behind the `N`th call.  Then for every sequence of clock values and events:
whenever the loop of the driver is seen with `N` calls made the picture is that of `w`; and if the program does not
call `wait`, `N` calls have been made when the clock has let it run `k` times.  Nothing is assumed about what the
program does later: it need not end.
Partial: the constructs of C18 and C23; programs that start threads before the `N`th call. -/
theorem C80_frame_partial {N n : Nat} {e : TErr} {w : State} (hN : w.io.asked = N)
    (hr : Src.call (upToCall N (unbound fs (srcCtx p prog fl sdlMap))) n (str "main") [] (callState v) = .err e w) :
    ∃ F v1 k, prog.findByName (str "main") = some F ∧
      v.newThread (Env.std (sdlResolve prog) fl Mem.abs) F [] = .ok (true, v1) ∧
      ∀ rounds x v2, sdlLoop (Env.std (sdlResolve prog) fl Mem.abs) rounds v1 = .ok (x, v2) →
        (v2.io.asked = N → v2.io.sdl = w.io.sdl) ∧
        (Builtin.wait.ptr ∈ fs → k ≤ turns (Env.std (sdlResolve prog) fl Mem.abs) rounds v1 → N ≤ v2.io.asked) := by
  cases n with
  | zero => unfold Src.call Src.callFn at hr; split at hr <;> cases hr
  | succ n =>
    obtain ⟨F, hF, hn, j, s1, hj, hio⟩ := src_cut N fs hc hp v (Nat.succ_pos n) (names := sdlMap) (fl := fl) hr
    obtain ⟨v1, t, h1, h2, h3, h4, h5, h6⟩ := thread_started (prog := prog) (fl := fl) v hn
    rw [← h6] at hj
    have hj : Goes ((sdlResolve prog).without fs) fl j (headSt v1 t v.threads) s1 := hj
    refine ⟨F, v1, j, hF, h1, fun rounds x v2 ho => ?_⟩
    have hns := noSpawn_without (prog := sdlResolve prog) hfs
    have hl := loop_done (fl := fl) hns rounds v1 t v.threads h2 hd h4 h5
    have key : IoNext w.io v2.io ∨ (IoNext v2.io w.io ∧ (Builtin.wait.ptr ∈ fs →
        turns (Env.std (sdlResolve prog) fl Mem.abs) rounds v1 < j)) := by
      by_cases hne : sdlLoop (Env.std ((sdlResolve prog).without fs) fl Mem.abs) rounds v1 = .error .assert
      · obtain ⟨i, s2, g1, g2, g3, g4⟩ := loop_missed hns rounds v1 v2 x t v.threads h2 hd h4 h5 hne ho
        have hst : Stuck ((sdlResolve prog).without fs) fl .assert i (headSt v1 t v.threads) := ⟨s2, g1, g2, g3⟩
        have := (hj.split g1 (hst.bound hj)).io.trans g4
        rw [hio] at this
        exact .inl this
      · rw [loop_same hne] at ho
        rw [ho] at hl
        rw [← turns_same fs _ rounds v1 hne]
        cases hl with
        | running a1 a2 a3 a4 a5 =>
          rename_i r b a w' i
          by_cases hij : j ≤ i
          · have := (hj.split a4 hij).io
            rw [hio] at this
            exact .inl this
          · have := (a4.split hj (by omega)).io
            rw [hio] at this
            refine .inr ⟨this, fun hw => ?_⟩
            have := a5 (noPause_without hw) h3
            omega
        | over a1 a2 a3 a4 a5 a6 =>
          rename_i s' i
          by_cases hij : j ≤ i
          · have := (hj.split a1 hij).io
            rw [hio, ← a5] at this
            exact .inl this
          · have := a1.split hj (by omega)
            obtain ⟨m, hm⟩ : ∃ m, j - i = m + 1 := ⟨j - i - 1, by omega⟩
            rw [hm] at this
            cases this with
            | step hf => rw [a2] at hf; cases hf
    rcases key with key | ⟨key, hk⟩
    · exact ⟨fun h => key.sdl (h.trans hN.symm), fun _ _ => hN ▸ key.asked⟩
    · refine ⟨fun h => (key.sdl (hN.trans h.symm)).symm, fun hw hle => ?_⟩
      have := hk hw
      omega
end

/-- C80: from the texts of a graphical program to its pictures, for whatever SDL answers, for every sequence of clock values and
events, and whenever the collector runs.  The initialisers of the variables leave `w0`.  Partial: see `C80_frame_partial`, and
start-ups that `call_init` does not finish. -/
theorem C80_machine_partial {fs : Str → Option Str} {fl : FloatOps} {L : Layout} {m : Nat} {srcs : List Source} {prog : Program}
    (hb : build fs fl L true sdlSys m srcs = .ok (some prog)) {gone : List FnPtr} (hg : Builtin.new_thread.ptr ∈ gone) :
    ∃ p srcs', buildSources fs fl m 0 srcs [] (registered sdlSys) = .ok (p, srcs') ∧
      (ElseApart p → Src.PlainIfs p → Src.Small p → ∀ (outside : Nat → Sdl.Outside) (n : Nat) (w0 : State),
        Src.startUp (srcCtx p prog fl sdlMap) n (callState (newVm (sdlIo outside))) = .ok () w0 →
        (∀ v, (newVm (sdlIo outside)).callInit (Env.std (sdlResolve prog) fl Mem.abs) = .ok (true, v) →
          ∀ t ∈ v.threads, t.waits = 0 ∧ t.finished = true) →
        ∀ (N : Nat) (e : TErr) (w : State), w.io.asked = N →
        Src.call (upToCall N (unbound gone (srcCtx p prog fl sdlMap))) n (str "main") [] (mainState w0) = .err e w →
        ∃ F k, prog.findByName (str "main") = some F ∧ ∀ depth should rounds x v2,
          sdlState (Mem.gc depth should) Heap.empty fl (sdlIo outside) rounds prog F = .ok (x, v2) →
          (v2.io.asked = N → v2.io.sdl = w.io.sdl) ∧
          (Builtin.wait.ptr ∈ gone →
            k ≤ sdlTurns (Mem.gc depth should) Heap.empty fl (sdlIo outside) rounds prog F → N ≤ v2.io.asked)) := by
  obtain ⟨p, srcs', g1, g2, -⟩ := C60_machine_partial (names := sdlMap) sdl_names hb
  refine ⟨p, srcs', g1, fun ha hi hm outside n w0 hs hd N e w hN hr => ?_⟩
  have hp : Ordinary true p := ⟨ha, fun _ => hi, C60_names sdl_names g1, hm⟩
  obtain ⟨w', t, h1, -, -, h2⟩ := C57_start_partial g2 hp fl (newVm (sdlIo outside)) rfl hs
  have hdd := hd _ h1
  obtain rfl := h2 (hdd t (by simp [leftBy])).2
  have hr' : Src.call (upToCall N (unbound gone (srcCtx p prog fl sdlMap))) n (str "main") [] (callState (leftBy w' t)) =
      .err e (Src.on (w'.before ++ t :: w'.after) w) := by
    rw [main_on, Src.on_call (fun a b c => cut_on (host := Sem.builtins fl (resolveWith sdlMap prog)) (fn := a) (args := b) (w := c)
      fun _ _ _ => Src.on_builtins ..), hr]
    rfl
  obtain ⟨F, v1, k, hF, hn, hl⟩ := C80_frame_partial g2 hp hg (fun t ht => ⟨(hdd t ht).1, .inl (hdd t ht).2⟩)
    (w := Src.on (w'.before ++ t :: w'.after) w) hN hr'
  refine ⟨F, k, hF, fun depth should rounds x v2 ho => ?_⟩
  have hst : sdlState Mem.abs [] fl (sdlIo outside) rounds prog F =
      sdlLoop (Env.std (sdlResolve prog) fl Mem.abs) rounds v1 := by
    unfold sdlState
    rw [show (⟨[], [], [], sdlIo outside⟩ : VmState Val Store) = newVm (sdlIo outside) from rfl, h1]
    dsimp only
    rw [hn]
  have htu : sdlTurns Mem.abs [] fl (sdlIo outside) rounds prog F =
      turns (Env.std (sdlResolve prog) fl Mem.abs) rounds v1 := by
    unfold sdlTurns
    rw [show (⟨[], [], [], sdlIo outside⟩ : VmState Val Store) = newVm (sdlIo outside) from rfl, h1]
    dsimp only
    rw [hn]
  have hsim := state_sim (C60_clean sdl_names g1 g2) fl depth should (sdlIo outside) rounds F
  rw [ho, hst, htu] at hsim
  obtain ⟨v, wd, a1, a2, -, a4⟩ := hsim
  obtain ⟨b1, b2⟩ := hl rounds x v a1
  rw [a2.io, a4]
  exact ⟨b1, b2⟩

/-! ### Examples -/

/-- A program that draws one pixel after the other and does not end. -/
def blinkText : Str :=
  str "var n = 0\nfunction main()\n  video(2, 2)\n  setrgb(0, 0, 9)\n  while (1)\n    cls()\n    plot(n, 0)\n    flip()\n    n = 1 - n\n  end\nend\n"
/-- Its source. -/
def blinkSrc : Source := ⟨str "a", some blinkText, []⟩
/-- SDL answers: it is tick 10, no key is down, the window is three times as wide and high as the picture. -/
def blinkOutside : Nat → Sdl.Outside := fun _ => ⟨10, fun _ => false, fun _ _ => some (some (List.replicate 36 0))⟩
/-- What is read. -/
def blinkRead : Prog Unit × List Source :=
  outOf ([], []) (buildSources (fun _ => none) toyFl 5 0 [blinkSrc] [] (registered sdlSys))
/-- The tree that is compiled. -/
def blinkTree : Prog Unit := blinkRead.1
/-- The program. -/
def blinkProg : Program := outOf Program.empty (compile sampleLayout true blinkTree)

theorem blink_read : buildSources (fun _ => none) toyFl 5 0 [blinkSrc] [] (registered sdlSys) = .ok blinkRead := by
  have h : isOk (buildSources (fun _ => none) toyFl 5 0 [blinkSrc] [] (registered sdlSys)) = true := by decide +kernel
  unfold blinkRead
  exact outOf_ok h
theorem blink_reads : buildSources (fun _ => none) toyFl 5 0 [blinkSrc] [] (registered sdlSys) = .ok (blinkTree, blinkRead.2) := by
  rw [blink_read, blinkTree]
theorem blink_compiles : compile sampleLayout true blinkTree = .ok blinkProg := outOf_ok (by decide +kernel)

theorem blink_builds : build (fun _ => none) toyFl sampleLayout true sdlSys 5 [blinkSrc] = .ok (some blinkProg) := by
  unfold build
  dsimp only
  rw [blink_reads]
  dsimp only
  rw [blink_compiles]

theorem blink_apart : ElseApart blinkTree := fun f hf =>
  apartB_of (List.all_eq_true.1 (by decide +kernel : (funcsOf blinkTree).all (fun f => apartB [] f.body) = true) f
    (mem_funcsOf hf))
theorem blink_ifs : Src.PlainIfs blinkTree := fun f hf e he =>
  List.all_eq_true.1 (List.all_eq_true.1 (by decide +kernel : (funcsOf blinkTree).all
    (fun f => (Src.condsB f.body).all (Src.plainCond blinkTree)) = true) f (mem_funcsOf hf)) e he
theorem blink_small : Src.Small blinkTree := ⟨by decide +kernel, fun f hf =>
  of_decide_eq_true (List.all_eq_true.1 (by decide +kernel : (funcsOf blinkTree).all
    (fun f => decide (f.args.length + Src.varsB f.body < 2147483648)) = true) f (mem_funcsOf hf))⟩

/-- The state the initialisers leave. -/
def blinkW : State := endOf (Src.startUp (srcCtx blinkTree blinkProg toyFl sdlMap) 9 (callState (newVm (sdlIo blinkOutside))))

attribute [local irreducible] sdlState sdlTurns in
/-- `C80_machine_partial` for it: behind the 5th call, that of `flip` in the first round, the top left pixel has colour 9, behind
the 8th, that of `flip` in the second round, the top right one; and there are 5 and 8 calls when the clock has let it
run for long enough. -/
example : ∀ c ∈ [(5, [9, 0, 0, 0]), (8, [0, 9, 0, 0])], ∃ F k, blinkProg.findByName (str "main") = some F ∧
    ∀ depth should rounds x v2,
      sdlState (Mem.gc depth should) Heap.empty toyFl (sdlIo blinkOutside) rounds blinkProg F = .ok (x, v2) →
      (v2.io.asked = c.1 → v2.io.sdl.video.video = c.2) ∧
      (k ≤ sdlTurns (Mem.gc depth should) Heap.empty toyFl (sdlIo blinkOutside) rounds blinkProg F → c.1 ≤ v2.io.asked) := by
  obtain ⟨p, ss, h1, h2⟩ := C80_machine_partial blink_builds (gone := drawGone) (by simp [drawGone])
  rw [blink_reads] at h1
  obtain ⟨h1, _⟩ := Prod.mk.inj (Except.ok.inj h1)
  subst h1
  intro c hc
  obtain ⟨w, hr, hw⟩ : ∃ w, Src.call (upToCall c.1 (unbound drawGone (srcCtx blinkTree blinkProg toyFl sdlMap))) 9 (str "main") []
      (mainState blinkW) = .err cutErr w ∧ (decide (w.io.asked = c.1) && decide (w.io.sdl.video.video = c.2)) = true := by
    rcases List.mem_cons.1 hc with rfl | hc
    · exact err_checked (by decide +kernel)
    · rcases List.mem_cons.1 hc with rfl | hc
      · exact err_checked (by decide +kernel)
      · cases hc
  simp only [Bool.and_eq_true, decide_eq_true_eq] at hw
  obtain ⟨F, k, hF, hk⟩ := h2 blink_apart blink_ifs blink_small blinkOutside 9 blinkW (end_ok (by decide +kernel))
    (fun v hv => by
      have h : (match (newVm (sdlIo blinkOutside)).callInit (Env.std (sdlResolve blinkProg) toyFl Mem.abs) with
        | .ok (_, v) => v.threads.all (fun t => decide (t.waits = 0) && t.finished) | _ => false) = true := by decide +kernel
      rw [hv] at h
      intro t ht
      simpa using List.all_eq_true.1 h t ht) c.1 _ w hw.1 hr
  refine ⟨F, k, hF, fun depth should rounds x v2 ho => ?_⟩
  obtain ⟨b1, b2⟩ := hk depth should rounds x v2 ho
  exact ⟨fun h => by rw [b1 h]; exact hw.2, b2 (by simp [drawGone])⟩

end Ccml.Props
