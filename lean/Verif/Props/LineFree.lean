import Verif.LineFree
import Verif.Props.Spacing
import Verif.Samples
/-!
# C82: the line table does not influence a run, and C81 for both drivers
-/
namespace Ccml.Props
variable {P M : Type}

/-- A thread goes on in the same way whatever the line table, if no thread has breakpoints. -/
theorem C82_resume (prog : Program) (l : LineTable) (fl : FloatOps) (mem : MemOps P M) (c : I32) (s : St P M)
    (h : ∀ t ∈ s.before ++ s.th :: s.after, t.breakpoints = []) :
    resume (Env.std { prog with lines := l } fl mem) c s = resume (Env.std prog fl mem) c s := by
  rw [LineFree.std_lines]
  exact LineFree.same_resume prog l fl mem c s
    ⟨h _ (by simp), fun t ht => h t (by simp [ht]), fun t ht => h t (by simp [ht])⟩

/-- With a breakpoint it may not: the lines decide where the thread halts. -/
theorem C82_breakpoints_matter : ∃ (prog : Program) (l : LineTable) (s : St Val Store),
    (resume (Env.std { prog with lines := l } toyFl Mem.abs) 1 s).map (fun r => r.2.th.halted) = .ok true ∧
    (resume (Env.std prog toyFl Mem.abs) 1 s).map (fun r => r.2.th.halted) = .ok false :=
  ⟨{ Program.empty with code := List.replicate 5 Op.NEW_NONE.code }, [(1, ⟨0, 5⟩)],
    { toySt [] with th := { (toySt []).th with breakpoints := [⟨0, 5⟩] } }, by decide +kernel, by decide +kernel⟩

/-- Threads as the machine makes them have none: the hypothesis of `C82_resume` for two of them. -/
example : ∀ t ∈ (toySt []).before ++ (toySt []).th :: [(Thread.fresh : Thread Val)], t.breakpoints = [] := by
  decide

/-- A pass over all threads, the start-up and a call from outside. -/
theorem C82_machine (prog : Program) (l : LineTable) (fl : FloatOps) (mem : MemOps P M) (v : VmState P M)
    (h : ∀ t ∈ v.threads, t.breakpoints = []) (c : I32) (fuel : Nat) (f : Function) (args : List P) :
    v.resume (Env.std { prog with lines := l } fl mem) c = v.resume (Env.std prog fl mem) c ∧
    v.callInit (Env.std { prog with lines := l } fl mem) = v.callInit (Env.std prog fl mem) ∧
    v.callOnce (Env.std { prog with lines := l } fl mem) fuel f args = v.callOnce (Env.std prog fl mem) fuel f args := by
  rw [LineFree.std_lines]
  exact ⟨(LineFree.vresume_lines prog l fl mem h c).1, (LineFree.callInit_lines prog l fl mem h).1,
    LineFree.callOnce_lines prog l fl mem h fuel f args⟩

/-- The same status and the same output, or the same failure. -/
def SameExit : Out Exit → Out Exit → Prop
  | .ok a, .ok b => a.status = b.status ∧ a.output = b.output
  | .error f, .error g => f = g
  | _, _ => False

theorem SameExit.refl : ∀ x, SameExit x x
  | .ok _ => ⟨rfl, rfl⟩
  | .error _ => rfl

/-- Whatever the line table, the command line driver runs a program in the same way. -/
theorem C82_driver (prog : Program) (l : LineTable) (fl : FloatOps) (mem : MemOps P M) (m0 : M) (fuel : Nat)
    (input : Str) :
    SameExit (driverRun mem m0 fl fuel { prog with lines := l } input) (driverRun mem m0 fl fuel prog input) := by
  unfold driverRun
  dsimp only
  rw [show (driverResolve { prog with lines := l }) = { driverResolve prog with lines := l } from rfl]
  rw [show ({ driverResolve prog with lines := l } : Program).findByName (str "main") =
    (driverResolve prog).findByName (str "main") from rfl]
  generalize driverResolve prog = p
  cases p.findByName (str "main") with
  | none => exact ⟨rfl, rfl⟩
  | some f =>
    dsimp only
    rw [LineFree.std_lines]
    obtain ⟨h1, h2⟩ := LineFree.callInit_lines p l fl mem
      (v := ⟨m0, [], [], { input := input, output := [], seed := 12345 }⟩) (fun _ h => nomatch h)
    rw [h1]
    cases hi : VmState.callInit (Env.std p fl mem) ⟨m0, [], [], { input := input, output := [], seed := 12345 }⟩ with
    | error => rfl
    | ok r =>
      obtain ⟨b, v⟩ := r
      cases b with
      | false => exact ⟨rfl, rfl⟩
      | true =>
        dsimp only
        rw [LineFree.callOnce_lines p l fl mem (h2 _ _ hi)]
        cases v.callOnce (Env.std p fl mem) fuel f [] with
        | error => rfl
        | ok r =>
          obtain ⟨r, v⟩ := r
          cases r with
          | error => exact ⟨rfl, rfl⟩
          | value x =>
            dsimp only
            cases mem.view v.mem x with
            | error => rfl
            | ok => exact ⟨rfl, rfl⟩

/-- The graphical driver as well. -/
theorem C82_sdl (prog : Program) (l : LineTable) (fl : FloatOps) (mem : MemOps P M) (m0 : M) (io : Io)
    (rounds : List SdlRound) :
    sdlRun mem m0 fl io rounds { prog with lines := l } = sdlRun mem m0 fl io rounds prog := by
  unfold sdlRun
  dsimp only
  rw [show (sdlResolve { prog with lines := l }) = { sdlResolve prog with lines := l } from rfl]
  rw [show ({ sdlResolve prog with lines := l } : Program).findByName (str "main") =
    (sdlResolve prog).findByName (str "main") from rfl]
  generalize sdlResolve prog = p
  cases p.findByName (str "main") with
  | none => rfl
  | some f =>
    dsimp only
    rw [LineFree.std_lines]
    obtain ⟨h1, h2⟩ := LineFree.callInit_lines p l fl mem (v := ⟨m0, [], [], io⟩) (fun _ h => nomatch h)
    rw [h1]
    cases hi : VmState.callInit (Env.std p fl mem) ⟨m0, [], [], io⟩ with
    | error => rfl
    | ok r =>
      obtain ⟨b, v⟩ := r
      dsimp only
      obtain ⟨h3, h4⟩ := LineFree.newThread_lines p l fl mem (h2 _ _ hi) f []
      rw [h3]
      cases hn : v.newThread (Env.std p fl mem) f [] with
      | error => rfl
      | ok r =>
        obtain ⟨b, v⟩ := r
        cases b with
        | false => rfl
        | true =>
          dsimp only
          rw [LineFree.sdlLoop_lines p l fl mem rounds (h4 _ _ hn)]

theorem loadFiles_same {fl : FloatOps} {fs fs' : Str → Option Str} (hf : Bare.SameFiles fl fs fs') :
    ∀ (paths : List Str) {srcs srcs' : List Source}, Bare.SameSources fl srcs srcs' →
      (loadFiles fs srcs paths = none ∧ loadFiles fs' srcs' paths = none) ∨ ∃ a b,
        loadFiles fs srcs paths = some a ∧ loadFiles fs' srcs' paths = some b ∧ Bare.SameSources fl a b
  | [], _, _, h => .inr ⟨_, _, rfl, rfl, h⟩
  | path :: paths, srcs, srcs', h => by
    have hl := Bare.loadSource_same hf h path
    unfold loadFiles
    generalize loadSource fs srcs path = x at hl ⊢
    generalize loadSource fs' srcs' path = y at hl ⊢
    obtain ⟨x, xs⟩ := x
    obtain ⟨y, ys⟩ := y
    obtain ⟨h1, h2⟩ := hl
    dsimp only at h1 h2
    subst h1
    cases x with
    | true => exact loadFiles_same hf paths h2
    | false => exact .inl ⟨rfl, rfl⟩

/-- The command line driver on files of the same words: the same status and the same output. -/
theorem C81_driver (mem : MemOps P M) (m0 : M) (fl : FloatOps) (L : Layout) (n fuel : Nat)
    (fs fs' : Str → Option Str) (hf : ∀ p, SameFile fl (fs p) (fs' p)) (paths : List Str) (input : Str) :
    SameExit (driverMain mem m0 fs fl L n fuel paths input) (driverMain mem m0 fs' fl L n fuel paths input) := by
  have hf' := sameFiles hf
  unfold driverMain
  rcases loadFiles_same hf' paths .nil with ⟨h1, h2⟩ | ⟨a, b, h1, h2, h3⟩
  · rw [h1, h2]
    exact ⟨rfl, rfl⟩
  · rw [h1, h2]
    have hb := build_both fl L true driverSys n hf' h3
    cases h3 with
    | nil => exact ⟨rfl, rfl⟩
    | cons =>
      dsimp only
      rcases Bare.Both.elim hb with ⟨x, y, hx, hy, e⟩ | ⟨a, b, hx, hy, ⟨rfl, rfl⟩ | ⟨p, l, rfl, rfl⟩⟩
      · rw [hx, hy]
        cases x <;> cases y <;> first | exact ⟨rfl, rfl⟩ | exact e
      · rw [hx, hy]
        exact ⟨rfl, rfl⟩
      · rw [hx, hy]
        have := C82_driver p l fl mem m0 fuel input
        dsimp only
        generalize driverRun mem m0 fl fuel { p with lines := l } input = x at this ⊢
        generalize driverRun mem m0 fl fuel p input = y at this ⊢
        cases x <;> cases y <;> first | exact ⟨this.1.symm, this.2.symm⟩ | exact this.symm | exact this

/-- The graphical driver on files of the same words does the same. -/
theorem C81_sdl (mem : MemOps P M) (m0 : M) (fl : FloatOps) (L : Layout) (n : Nat) (started : Bool)
    (outside : Nat → Sdl.Outside) (rounds : List SdlRound) (fs fs' : Str → Option Str)
    (hf : ∀ p, SameFile fl (fs p) (fs' p)) (paths : List Str) :
    sdlMain mem m0 fs fl L n started outside rounds paths = sdlMain mem m0 fs' fl L n started outside rounds paths := by
  have hf' := sameFiles hf
  unfold sdlMain
  split
  · rcases loadFiles_same hf' paths .nil with ⟨h1, h2⟩ | ⟨a, b, h1, h2, h3⟩
    · rw [h1, h2]
    · rw [h1, h2]
      have hb := build_both fl L true sdlSys n hf' h3
      cases h3 with
      | nil => rfl
      | cons =>
        dsimp only
        rcases Bare.Both.elim hb with ⟨x, y, hx, hy, e⟩ | ⟨a, b, hx, hy, ⟨rfl, rfl⟩ | ⟨p, l, rfl, rfl⟩⟩
        · rw [hx, hy]
          cases x <;> cases y <;> first | exact congrArg _ e | exact False.elim e | rfl
        · rw [hx, hy]
        · rw [hx, hy]
          exact (C82_sdl p l fl mem m0 _ rounds).symm
  · rfl

end Ccml.Props
