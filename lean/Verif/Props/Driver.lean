import Verif.Driver
import Verif.Props.Build
import Verif.Props.Accepts
import Verif.SrcFrame
/-!
C62: the command line driver does with its files and its input what the source says.
-/
namespace Ccml.Props
open Sem (State)

/-! ### Binding -/

theorem resolve_names (p : Program) : (driverResolve p).syscalls.map (·.name) = p.syscalls.map (·.name) := by
  simp only [resolveWith, builtinsResolve, List.map_map]
  apply List.map_congr_left
  intro s _
  simp only [Function.comp]
  split <;> split <;> rfl

theorem saveList_congr {α β : Type} (f : α → List Byte) (g : β → List Byte) (l : List α) (l' : List β)
    (h : l.map f = l'.map g) : saveList f l = saveList g l' := by
  have : l.length = l'.length := by simpa using congrArg List.length h
  unfold saveList
  rw [this, List.flatMap_def, List.flatMap_def, h]

/-- The file that is written does not depend on the binding of the host functions. -/
theorem save_resolve (p : Program) : serialSave (driverResolve p) = serialSave p := by
  have h : saveList (fun s : Syscall => saveStr s.name) (driverResolve p).syscalls =
      saveList (fun s : Syscall => saveStr s.name) p.syscalls := by
    apply saveList_congr
    have := congrArg (List.map saveStr) (resolve_names p)
    simpa [List.map_map, Function.comp_def] using this
  unfold serialSave
  rw [h]
  rfl

/-- `driverResolve` is what the calls of `syscall_resolve` in `main` do one after the other
(driver/driver.cpp:176-183). -/
theorem resolve_calls (p : Program) :
    driverResolve p = builtinsResolve (driverMap.foldl (fun p s => (p.resolve s.1 s.2.ptr).1) p) := by
  unfold driverResolve resolveWith
  congr 1
  simp only [driverMap, List.foldl_cons, List.foldl_nil, Program.resolve, List.map_map]
  congr 1
  apply List.map_congr_left
  rintro ⟨nm, c⟩ _
  simp only [Function.comp]
  by_cases h1 : nm = str "putc"
  · subst h1; rfl
  by_cases h2 : nm = str "getc"
  · subst h2; rfl
  by_cases h3 : nm = str "puts"
  · subst h3; rfl
  by_cases h4 : nm = str "gets"
  · subst h4; rfl
  by_cases h5 : nm = str "rand"
  · subst h5; rfl
  by_cases h6 : nm = str "print"
  · subst h6; rfl
  have e : ∀ a : Str, nm ≠ a → (nm == a) = false := fun a h => by simpa using h
  simp [List.lookup, h1, h2, h3, h4, h5, h6, e]

/-! ### C62 -/

/-- The same outcome, unless memory or native stack run out. -/
def OrOut (a b : Out Exit) : Prop := a = b ∨ a = .error .oom ∨ a = .error .diverge

theorem sameCalls_refl (l : List HostOp) : SameCalls l l := by
  induction l with
  | nil => exact .nil
  | cons a l ih => exact .same a ih

section
variable {P M : Type}

theorem init_session (e : Env P M) (v : VmState P M) :
    session e v [.init] = match v.callInit e with
      | .error f => ([], .error f)
      | .ok (b, v) => ([.flag b], .ok v) := by
  simp only [session, hostStep]
  cases v.callInit e with
  | error f => rfl
  | ok r => rfl

theorem call_session (e : Env P M) (v : VmState P M) (F : Function) (fuel : Nat) {b : Bool} {v1 : VmState P M}
    (h : v.callInit e = .ok (b, v1)) :
    session e v [.init, .call F [] fuel] = match v1.callOnce e fuel F [] with
      | .error f => ([.flag b], .error f)
      | .ok (.value p, v2) => ([.flag b, .returned (.value (Ccml.peek e.mem v2.mem p))], .ok v2)
      | .ok (.error x, v2) => ([.flag b, .returned (.error x)], .ok v2) := by
  have h1 : hostStep e v .init = .ok (.flag b, v1) := by
    simp only [hostStep, h]
    rfl
  have h2 : hostStep e v1 (.call F [] fuel) = match v1.callOnce e fuel F [] with
      | .error f => .error f
      | .ok (.value p, v2) => .ok (.returned (.value (Ccml.peek e.mem v2.mem p)), v2)
      | .ok (.error x, v2) => .ok (.returned (.error x), v2) := by
    simp only [hostStep, hostValues]
    show (VmState.callOnce e fuel v1 F [] >>= _) = _
    rcases VmState.callOnce e fuel v1 F [] with f | ⟨r, v2⟩
    · rfl
    · cases r <;> rfl
  rw [session, h1]
  dsimp only
  rw [session, h2]
  rcases VmState.callOnce e fuel v1 F [] with f | ⟨r, v2⟩
  · rfl
  · cases r <;> rfl
end

theorem run_collector (fl : FloatOps) (depth : Nat) (should : Heap → Bool) (fuel : Nat) {prog : Program}
    (hp : CleanProgram prog) (input : Str) :
    OrOut (driverRun (Mem.gc depth should) Heap.empty fl fuel prog input)
      (driverRun Mem.abs [] fl fuel prog input) := by
  unfold driverRun
  dsimp only
  have hp' : CleanProgram (driverResolve prog) := fun s hs => hp s hs
  cases hF : (driverResolve prog).findByName (str "main") with
  | none => exact .inl rfl
  | some F =>
    dsimp only
    have k1 := C45_collections_unobservable (io := { input := input, output := [], seed := 12345 }) (driverResolve prog) fl depth should hp'
      [.init] _ (sameCalls_refl _) (by simp [CleanCall])
    have k2 := C45_collections_unobservable (io := { input := input, output := [], seed := 12345 }) (driverResolve prog) fl depth should hp'
      [.init, .call F [] fuel] _ (sameCalls_refl _) (by simp [CleanCall])
    dsimp only at k1 k2
    rw [init_session, init_session] at k1
    rw [show (⟨Heap.empty, [], [], { input := input, output := [], seed := 12345 }⟩ : VmState (Option Ptr) Heap) = newHeapVm { input := input, output := [], seed := 12345 } from rfl,
      show (⟨[], [], [], { input := input, output := [], seed := 12345 }⟩ : VmState Val Store) = newVm { input := input, output := [], seed := 12345 } from rfl]
    rcases h1 : VmState.callInit (Env.std (driverResolve prog) fl (Mem.gc depth should))
      (newHeapVm { input := input, output := [], seed := 12345 }) with x | ⟨b, v⟩
    · rw [h1] at k1
      dsimp only at k1 ⊢
      rcases h2 : VmState.callInit (Env.std (driverResolve prog) fl Mem.abs) (newVm { input := input, output := [], seed := 12345 }) with y | ⟨c, u⟩
      · rw [h2] at k1
        rcases k1 with ⟨_, k1⟩ | ⟨k1, _⟩
        · cases k1; exact .inl rfl
        · rcases k1 with rfl | rfl
          · exact .inr (.inl rfl)
          · exact .inr (.inr rfl)
      · rw [h2] at k1
        rcases k1 with ⟨_, k1⟩ | ⟨k1, _⟩
        · cases k1
        · rcases k1 with rfl | rfl
          · exact .inr (.inl rfl)
          · exact .inr (.inr rfl)
    · rw [h1] at k1
      dsimp only at k1
      rcases h2 : VmState.callInit (Env.std (driverResolve prog) fl Mem.abs) (newVm { input := input, output := [], seed := 12345 }) with y | ⟨c, u⟩
      · rw [h2] at k1
        obtain ⟨_, _, k1, _⟩ := k1
        cases k1
      rw [h2] at k1
      obtain ⟨g1, u', g2, g3⟩ := k1
      cases g2
      obtain rfl : b = c := by
        have := List.cons.inj g1
        exact HostOut.flag.inj this.1
      have hio : v.io = u.io := congrArg (fun x => x.2.2) g3
      cases b with
      | false => dsimp only; rw [hio]; exact .inl rfl
      | true =>
        dsimp only
        rw [call_session _ _ _ _ h1, call_session _ _ _ _ h2] at k2
        rcases h3 : VmState.callOnce (Env.std (driverResolve prog) fl (Mem.gc depth should)) fuel v F [] with x | ⟨r, v2⟩
        · rw [h3] at k2
          dsimp only at k2 ⊢
          rcases h4 : VmState.callOnce (Env.std (driverResolve prog) fl Mem.abs) fuel u F [] with y | ⟨r', u2⟩
          · rw [h4] at k2
            rcases k2 with ⟨_, k2⟩ | ⟨k2, _⟩
            · cases k2; exact .inl rfl
            · rcases k2 with rfl | rfl
              · exact .inr (.inl rfl)
              · exact .inr (.inr rfl)
          · rw [h4] at k2
            rcases k2 with ⟨_, k2⟩ | ⟨k2, _⟩
            · cases r' <;> cases k2
            · rcases k2 with rfl | rfl
              · exact .inr (.inl rfl)
              · exact .inr (.inr rfl)
        · rw [h3] at k2
          rcases h4 : VmState.callOnce (Env.std (driverResolve prog) fl Mem.abs) fuel u F [] with y | ⟨r', u2⟩
          · rw [h4] at k2
            cases r <;> · obtain ⟨_, _, k2, _⟩ := k2; cases k2
          rw [h4] at k2
          cases r with
          | error x =>
            obtain ⟨g1, u', g2, g3⟩ := k2
            cases r' with
            | value q => cases g1
            | error y =>
              cases g2
              have hio : v2.io = u2.io := congrArg (fun x => x.2.2) g3
              dsimp only
              rw [hio]
              exact .inl rfl
          | value p =>
            obtain ⟨g1, u', g2, g3⟩ := k2
            cases r' with
            | error y => cases g1
            | value q =>
              cases g2
              have hio : v2.io = u2.io := congrArg (fun x => x.2.2) g3
              have hv : (Mem.gc depth should).view v2.mem p = Mem.abs.view u2.mem q := by
                have := (List.cons.inj (List.cons.inj g1).2).1
                have := CallResult.value.inj (HostOut.returned.inj this)
                have := congrFun this []
                exact this
              dsimp only
              rw [hio, hv]
              exact .inl rfl

theorem driver_names : ∀ s ∈ driverSys, s.1 ≠ initName := by decide +kernel

/-- C62: what the driver prints, its exit status and the file it writes do not depend on when the
collector runs, for whatever files and input, unless memory or native stack run out. -/
theorem C62_collector (fs : Str → Option Str) (fl : FloatOps) (L : Layout) (n fuel depth : Nat)
    (should : Heap → Bool) (paths : List Str) (input : Str) :
    OrOut (driverMain (Mem.gc depth should) Heap.empty fs fl L n fuel paths input)
      (driverMain Mem.abs [] fs fl L n fuel paths input) := by
  unfold driverMain
  cases hl : loadFiles fs [] paths with
  | none => exact .inl rfl
  | some srcs =>
    cases srcs with
    | nil => exact .inl rfl
    | cons s ss =>
      dsimp only
      rcases hb : build fs fl L true driverSys n (s :: ss) with (_ | _) | (_ | prog)
      · exact .inl rfl
      · exact .inl rfl
      · exact .inl rfl
      · obtain ⟨p, srcs', h1, h2, _⟩ := C60_machine_partial (names := driverMap) driver_names hb
        exact run_collector fl depth should fuel (C60_clean driver_names h1 h2) input

/-- The machine the driver sets up. -/
abbrev driverVm (input : Str) : VmState Val Store := newVm { input := input, output := [], seed := 12345 }

/-- Files that are programs of the language, and the conditions under which the meaning of the source
is the meaning of the code (C57). -/
structure DriverInput (fs : Str → Option Str) (fl : FloatOps) (L : Layout) (paths : List Str) (p : Prog Unit)
    (prog : Program) : Prop where
  /-- at least one file -/
  some_files : paths ≠ []
  /-- the files can be read, and their texts are texts of the tree `p` (imported files included) -/
  texts : ∃ srcs srcs', loadFiles fs [] paths = some srcs ∧ Texts fs fl 0 srcs p srcs'
  /-- the compiler accepts -/
  compiles : compile L true (registered driverSys ++ p) = .ok prog
  apart : ElseApart p
  ifs : Src.PlainIfs (registered driverSys ++ p)
  small : Src.Small (registered driverSys ++ p)

theorem loadSource_ne {fs : Str → Option Str} {srcs srcs' : List Source} {path : Str}
    (h : loadSource fs srcs path = (true, srcs')) : srcs' ≠ [] := by
  unfold loadSource at h
  split at h
  · rename_i h1
    cases h
    intro h2
    subst h2
    simp at h1
  · rw [← (Prod.mk.inj h).2]
    simp

theorem loadFiles_ne {fs : Str → Option Str} : ∀ {paths : List Str} {srcs srcs' : List Source},
    loadFiles fs srcs paths = some srcs' → srcs ≠ [] ∨ paths ≠ [] → srcs' ≠ []
  | [], srcs, srcs', h, hne => by
    cases h
    exact hne.resolve_right (· rfl)
  | path :: paths, srcs, srcs', h, _ => by
    rw [loadFiles] at h
    split at h
    · rename_i s1 h1
      exact loadFiles_ne h (.inl (loadSource_ne h1))
    · cases h

theorem driver_ordinary {fs : Str → Option Str} {fl : FloatOps} {L : Layout} {paths : List Str} {p : Prog Unit}
    {prog : Program} (h : DriverInput fs fl L paths p prog) : Ordinary true (registered driverSys ++ p) := by
  obtain ⟨srcs, srcs', _, ht⟩ := h.texts
  obtain ⟨m, hm⟩ := texts_built ht [] (registered driverSys)
  refine ⟨?_, fun _ => h.ifs, C60_names driver_names (hm m (Nat.le_refl _)), h.small⟩
  intro f hf
  rcases List.mem_append.1 hf with hf | hf
  · obtain ⟨s, _, hs⟩ := List.mem_map.1 hf
    cases hs
  · exact h.apart f hf

/-- Up to the run, the driver does what the language says. -/
theorem driver_built {fs : Str → Option Str} {fl : FloatOps} {L : Layout}
    {paths : List Str} {p : Prog Unit} {prog : Program} (h : DriverInput fs fl L paths p prog) (input : Str) :
    ∃ m, ∀ n, m ≤ n → ∀ {P M : Type} (mem : MemOps P M) (m0 : M) fuel,
      driverMain mem m0 fs fl L n fuel paths input = driverRun mem m0 fl fuel prog input := by
  obtain ⟨srcs, srcs', hl, ht⟩ := h.texts
  have hne := loadFiles_ne hl (.inr h.some_files)
  obtain ⟨m, hm⟩ := C58_reads fs fl L true driverSys hne ht
  refine ⟨m, fun n hn P M mem m0 fuel => ?_⟩
  unfold driverMain
  rw [hl]
  cases srcs with
  | nil => exact absurd rfl hne
  | cons s ss =>
    dsimp only
    rw [hm n hn, h.compiles]
    rfl

/-- The run on the reference machine. -/
theorem run_abs (fl : FloatOps) (fuel : Nat) (prog : Program) (input : Str) :
    driverRun Mem.abs [] fl fuel prog input = match prog.findByName (str "main") with
      | none => .ok ⟨-4, [], some (serialSave prog)⟩
      | some F =>
        match (driverVm input).callInit (Env.std (driverResolve prog) fl Mem.abs) with
        | .error x => .error x
        | .ok (false, v) => .ok ⟨-5, v.io.output, some (serialSave prog)⟩
        | .ok (true, v) =>
          match v.callOnce (Env.std (driverResolve prog) fl Mem.abs) fuel F [] with
          | .error x => .error x
          | .ok (.error _, v) => .ok ⟨-6, v.io.output, some (serialSave prog)⟩
          | .ok (.value p, v) =>
            match p.view v.mem with
            | .error x => .error x
            | .ok x => .ok ⟨0, v.io.output ++ printResult fl x, some (serialSave prog)⟩ := by
  rw [← save_resolve]
  unfold driverRun
  dsimp only
  rw [show (⟨[], [], [], { input := input, output := [], seed := 12345 }⟩ : VmState Val Store) = driverVm input from rfl,
    show (driverResolve prog).findByName (str "main") = prog.findByName (str "main") from rfl]
  cases prog.findByName (str "main") with
  | none => rfl
  | some F =>
    dsimp only
    rcases (driverVm input).callInit (Env.std (driverResolve prog) fl Mem.abs) with f | ⟨_ | _, v⟩
    · rfl
    · rfl
    · dsimp only
      rcases v.callOnce (Env.std (driverResolve prog) fl Mem.abs) fuel F [] with f | ⟨_ | _, v⟩
      · rfl
      · rename_i q
        dsimp only
        rw [show Mem.abs.view v.mem q = q.view v.mem from rfl]
        cases q.view v.mem <;> rfl
      · rfl

section
variable {fs : Str → Option Str} {fl : FloatOps} {L : Layout} {paths : List Str} {p : Prog Unit} {prog : Program}

/-- C62: the files are a program, the start-up of the program has brought the reference machine to `v`,
and the source says that `main` returns `r` and leaves `w`.  Then the driver prints what the program
has printed followed by the line for the value, and its exit status is 0, unless memory or native stack
run out. -/
theorem C62_value_partial (h : DriverInput fs fl L paths p prog) {input : Str} {v : VmState Val Store}
    (hv : (driverVm input).callInit (Env.std (driverResolve prog) fl Mem.abs) = .ok (true, v)) {k : Nat} {r : Val}
    {w : State} (hr : Src.call (srcCtx (registered driverSys ++ p) prog fl) k (str "main") [] (callState v) = .ok r w)
    {x : View} (hx : r.view w.mem = .ok x) :
    ∃ m, ∀ n fuel, m ≤ n → m ≤ fuel → ∀ depth should,
      OrOut (driverMain (Mem.gc depth should) Heap.empty fs fl L n fuel paths input)
        (.ok ⟨0, w.io.output ++ printResult fl x, some (serialSave prog)⟩) := by
  obtain ⟨m1, h1⟩ := driver_built h input
  obtain ⟨F, hF, m2, t, _, h2⟩ := C57_value_partial h.compiles (driver_ordinary h) fl v rfl hr
  refine ⟨max m1 m2, fun n fuel hn hfu depth should => ?_⟩
  have h3 : driverMain Mem.abs [] fs fl L n fuel paths input =
      .ok ⟨0, w.io.output ++ printResult fl x, some (serialSave prog)⟩ := by
    rw [h1 n (by omega), run_abs, hF]
    dsimp only
    rw [hv]
    dsimp only
    rw [h2 fuel (by omega)]
    dsimp only
    rw [show r.view (leftBy w t).mem = _ from hx]
    rfl
  rw [← h3]
  exact C62_collector fs fl L n fuel depth should paths input

/-- C62: likewise when `main` ends with an error: the exit status is -6. -/
theorem C62_error_partial (h : DriverInput fs fl L paths p prog) {input : Str} {v : VmState Val Store}
    (hv : (driverVm input).callInit (Env.std (driverResolve prog) fl Mem.abs) = .ok (true, v)) {k : Nat} {x : TErr}
    {w : State} (hx : x ≠ .success)
    (hr : Src.call (srcCtx (registered driverSys ++ p) prog fl) k (str "main") [] (callState v) = .err x w) :
    ∃ m, ∀ n fuel, m ≤ n → m ≤ fuel → ∀ depth should,
      OrOut (driverMain (Mem.gc depth should) Heap.empty fs fl L n fuel paths input)
        (.ok ⟨-6, w.io.output, some (serialSave prog)⟩) := by
  obtain ⟨m1, h1⟩ := driver_built h input
  obtain ⟨F, hF, m2, t, _, h2⟩ := C57_error_partial h.compiles (driver_ordinary h) fl v rfl hx hr
  refine ⟨max m1 m2, fun n fuel hn hfu depth should => ?_⟩
  have h3 : driverMain Mem.abs [] fs fl L n fuel paths input = .ok ⟨-6, w.io.output, some (serialSave prog)⟩ := by
    rw [h1 n (by omega), run_abs, hF]
    dsimp only
    rw [hv]
    dsimp only
    rw [h2 fuel (by omega)]
    rfl
  rw [← h3]
  exact C62_collector fs fl L n fuel depth should paths input

/-- C62, the other direction: if the driver exits with status 0 or -6 then the source says so, unless it
makes no claim about `main` in this state. -/
theorem C62_complete_partial (h : DriverInput fs fl L paths p prog) {input : Str} {v : VmState Val Store}
    (hv : (driverVm input).callInit (Env.std (driverResolve prog) fl Mem.abs) = .ok (true, v)) :
    ∃ m, ∀ n fuel depth should x, m ≤ n →
      driverMain (Mem.gc depth should) Heap.empty fs fl L n fuel paths input = .ok x → x.status ≠ -4 →
      ∃ k, (∃ r w y, Src.call (srcCtx (registered driverSys ++ p) prog fl) k (str "main") [] (callState v) = .ok r w ∧
          r.view w.mem = .ok y ∧ x = ⟨0, w.io.output ++ printResult fl y, some (serialSave prog)⟩) ∨
        (∃ e w, Src.call (srcCtx (registered driverSys ++ p) prog fl) k (str "main") [] (callState v) = .err e w ∧
          (e ≠ .success → x = ⟨-6, w.io.output, some (serialSave prog)⟩)) ∨
        Src.call (srcCtx (registered driverSys ++ p) prog fl) k (str "main") [] (callState v) = .undef := by
  obtain ⟨m1, h1⟩ := driver_built h input
  refine ⟨m1, fun n fuel depth should x hn hx h4 => ?_⟩
  have hx : driverMain Mem.abs [] fs fl L n fuel paths input = .ok x := by
    rcases C62_collector fs fl L n fuel depth should paths input with h5 | h5 | h5
    · rw [← h5, hx]
    · rw [h5] at hx; cases hx
    · rw [h5] at hx; cases hx
  rw [h1 n hn, run_abs] at hx
  cases hF : prog.findByName (str "main") with
  | none =>
    rw [hF] at hx
    cases hx
    exact absurd rfl h4
  | some F =>
    rw [hF] at hx
    dsimp only at hx
    rw [hv] at hx
    dsimp only at hx
    rcases hr : v.callOnce (Env.std (driverResolve prog) fl Mem.abs) fuel F [] with f | ⟨r, v'⟩
    · rw [hr] at hx; cases hx
    · rw [hr] at hx
      obtain ⟨k, h5⟩ := C57_complete_partial h.compiles (driver_ordinary h) fl v rfl hF hr
      refine ⟨k, ?_⟩
      rcases h5 with ⟨a, w, t, h5, rfl, rfl⟩ | ⟨e, w, t, h5, rfl, h6⟩ | h5
      · left
        dsimp only at hx
        cases hy : a.view (leftBy w t).mem with
        | error f => rw [hy] at hx; cases hx
        | ok y =>
          rw [hy] at hx
          cases hx
          exact ⟨a, w, y, h5, hy, rfl⟩
      · right; left
        refine ⟨e, w, h5, fun he => ?_⟩
        rcases h6 with rfl | ⟨h6, _⟩
        · cases hx
          rfl
        · exact absurd h6 he
      · exact .inr (.inr h5)

/-- C62: what stops the evaluation of the source stops the driver in the same way. -/
theorem C62_fault_partial (h : DriverInput fs fl L paths p prog) {input : Str} {v : VmState Val Store}
    (hv : (driverVm input).callInit (Env.std (driverResolve prog) fl Mem.abs) = .ok (true, v)) {k : Nat} {x : Fault}
    (hr : Src.call (srcCtx (registered driverSys ++ p) prog fl) k (str "main") [] (callState v) = .fault x) :
    ∃ m, ∀ n fuel, m ≤ n → m ≤ fuel → ∀ depth should,
      OrOut (driverMain (Mem.gc depth should) Heap.empty fs fl L n fuel paths input) (.error x) := by
  obtain ⟨m1, h1⟩ := driver_built h input
  obtain ⟨F, hF, m2, h2⟩ := C57_fault_partial h.compiles (driver_ordinary h) fl v rfl hr
  refine ⟨max m1 m2, fun n fuel hn hfu depth should => ?_⟩
  have h3 : driverMain Mem.abs [] fs fl L n fuel paths input = .error x := by
    rw [h1 n (by omega), run_abs, hF]
    dsimp only
    rw [hv]
    dsimp only
    rw [h2 fuel (by omega)]
  rw [← h3]
  exact C62_collector fs fl L n fuel depth should paths input

/-- The state after the start-up with no other threads: where `main` starts. -/
def mainState (w : State) : State := ⟨w.mem, w.globals, [], [], 0, w.io⟩

theorem main_on (w0 : State) (t : Thread Val) :
    callState (leftBy w0 t) = Src.on (w0.before ++ t :: w0.after) (mainState w0) := rfl

/-- C62: all from the source: it says that the initialisers leave `w0`, and that from there `main` returns
`r` and leaves `w`.  Then the driver prints what the program has printed and the line for `r`, unless memory
or native stack run out.  Partial: `call_init` has to get through the initialisers, that is, they take at
most 8192 instructions and do not `wait`. -/
theorem C62_source_partial (h : DriverInput fs fl L paths p prog) {input : Str} {k : Nat} {w0 : State}
    (hs : Src.startUp (srcCtx (registered driverSys ++ p) prog fl) k (callState (driverVm input)) = .ok () w0)
    (hd : ∀ v, (driverVm input).callInit (Env.std (driverResolve prog) fl Mem.abs) = .ok (true, v) →
      ∀ t ∈ v.threads, t.finished = true)
    {r : Val} {w : State} {x : View}
    (hr : Src.call (srcCtx (registered driverSys ++ p) prog fl) k (str "main") [] (mainState w0) = .ok r w)
    (hx : r.view w.mem = .ok x) :
    ∃ m, ∀ n fuel, m ≤ n → m ≤ fuel → ∀ depth should,
      OrOut (driverMain (Mem.gc depth should) Heap.empty fs fl L n fuel paths input)
        (.ok ⟨0, w.io.output ++ printResult fl x, some (serialSave prog)⟩) := by
  obtain ⟨w', t, h1, _, _, h2⟩ := C57_start_partial h.compiles (driver_ordinary h) fl _ rfl hs
  obtain rfl := h2 (hd _ h1 t (by simp [leftBy]))
  refine C62_value_partial h h1 (r := r) (w := Src.on (w'.before ++ t :: w'.after) w) (k := k) ?_ hx
  rw [main_on, Src.on_call (fun _ _ _ => Src.on_builtins ..), hr]
  rfl

/-- C62: all from the source, for a `main` that ends with an error. -/
theorem C62_source_error_partial (h : DriverInput fs fl L paths p prog) {input : Str} {k : Nat} {w0 : State}
    (hs : Src.startUp (srcCtx (registered driverSys ++ p) prog fl) k (callState (driverVm input)) = .ok () w0)
    (hd : ∀ v, (driverVm input).callInit (Env.std (driverResolve prog) fl Mem.abs) = .ok (true, v) →
      ∀ t ∈ v.threads, t.finished = true)
    {x : TErr} {w : State} (hx : x ≠ .success)
    (hr : Src.call (srcCtx (registered driverSys ++ p) prog fl) k (str "main") [] (mainState w0) = .err x w) :
    ∃ m, ∀ n fuel, m ≤ n → m ≤ fuel → ∀ depth should,
      OrOut (driverMain (Mem.gc depth should) Heap.empty fs fl L n fuel paths input)
        (.ok ⟨-6, w.io.output, some (serialSave prog)⟩) := by
  obtain ⟨w', t, h1, _, _, h2⟩ := C57_start_partial h.compiles (driver_ordinary h) fl _ rfl hs
  obtain rfl := h2 (hd _ h1 t (by simp [leftBy]))
  refine C62_error_partial h h1 (w := Src.on (w'.before ++ t :: w'.after) w) (k := k) hx ?_
  rw [main_on, Src.on_call (fun _ _ _ => Src.on_builtins ..), hr]
  rfl

/-- C62: initialisers that the source says end with an error: the exit status is -5 if `call_init` gets
to the error. -/
theorem C62_start_error_partial (h : DriverInput fs fl L paths p prog) {input : Str} {k : Nat} {x : TErr}
    {w : State} (hx : x ≠ .success)
    (hs : Src.startUp (srcCtx (registered driverSys ++ p) prog fl) k (callState (driverVm input)) = .err x w)
    (hd : ∀ b v, (driverVm input).callInit (Env.std (driverResolve prog) fl Mem.abs) = .ok (b, v) →
      ∀ t ∈ v.threads, t.finished = true) (hmain : prog.findByName (str "main") ≠ none) :
    ∃ m, ∀ n fuel, m ≤ n → ∀ depth should,
      OrOut (driverMain (Mem.gc depth should) Heap.empty fs fl L n fuel paths input)
        (.ok ⟨-5, w.io.output, some (serialSave prog)⟩) := by
  obtain ⟨b, w', t, h1, _, h2⟩ := C57_start_error_partial h.compiles (driver_ordinary h) fl _ rfl hx hs
  rw [if_pos (hd _ _ h1 t (by simp [leftBy]))] at h2
  obtain ⟨rfl, _, rfl⟩ := h2
  obtain ⟨m1, h3⟩ := driver_built h input
  refine ⟨m1, fun n fuel hn depth should => ?_⟩
  have h4 : driverMain Mem.abs [] fs fl L n fuel paths input = .ok ⟨-5, w'.io.output, some (serialSave prog)⟩ := by
    rw [h3 n hn, run_abs]
    cases hF : prog.findByName (str "main") with
    | none => exact absurd hF hmain
    | some F =>
      dsimp only
      rw [h1]
      rfl
  rw [← h4]
  exact C62_collector fs fl L n fuel depth should paths input

/-- C62: without anything called `main` nothing is run and the exit status is -4. -/
theorem C62_no_main (h : DriverInput fs fl L paths p prog) (hm : ∀ x ∈ p, x.declName ≠ str "main") (input : Str) :
    ∃ m, ∀ n fuel, m ≤ n → ∀ depth should,
      driverMain (Mem.gc depth should) Heap.empty fs fl L n fuel paths input =
        .ok ⟨-4, [], some (serialSave prog)⟩ := by
  have hF : prog.findByName (str "main") = none := by
    have hp := driver_ordinary h
    obtain ⟨q, hc⟩ := compile_ok.1 h.compiles
    have hfn := hc.func hp.names
    have hnames := hc.names.1
    obtain ⟨q0, _, _, h3⟩ := hc
    obtain ⟨segs, es, G⟩ := codegen_generated hfn h3
    obtain ⟨l, hl, hes⟩ := G.table
    refine List.find?_eq_none.2 fun F hF hname => ?_
    have hname : F.name = str "main" := by simpa using hname
    have h1 : F.name ∈ prog.functions.map Function.name := List.mem_map_of_mem hF
    rw [G.fnames, ← G.esNames, hes, List.map_append, entriesOf_names hl, hname] at h1
    rcases List.mem_append.1 h1 with h1 | h1
    · have h2 := (funcNames_sub q).subset h1
      rw [hnames] at h2
      obtain ⟨x, hx, hx'⟩ := List.mem_map.1 h2
      rcases List.mem_append.1 hx with hx | hx
      · have : ∀ x ∈ registered driverSys, x.declName ≠ str "main" := by decide +kernel
        exact this x hx hx'
      · exact hm x hx hx'
    · revert h1
      decide +kernel
  obtain ⟨m1, h3⟩ := driver_built h input
  refine ⟨m1, fun n fuel hn depth should => ?_⟩
  rw [h3 n hn, driverRun]
  dsimp only
  rw [show (driverResolve prog).findByName (str "main") = none from hF, save_resolve]

end

/-- A file that can be read and is not empty. -/
def CanRead (fs : Str → Option Str) (path : Str) : Prop := ∃ t, fs path = some t ∧ t ≠ []

theorem load_new {fs : Str → Option Str} {srcs : List Source} {path : Str}
    (h : ∀ s ∈ srcs, pathCmp s.path path = false) :
    (∀ t, fs path = some t → t ≠ [] → loadSource fs srcs path = (true, srcs ++ [⟨path, some t, genLines t⟩])) ∧
    (¬ CanRead fs path → (loadSource fs srcs path).1 = false) := by
  have h1 : ¬ (srcs.any fun s => pathCmp s.path path) = true := by
    simpa using h
  unfold loadSource Source.fromFile
  rw [if_neg h1]
  refine ⟨fun t ht hn => ?_, fun hr => ?_⟩
  · rw [ht]
    dsimp only
    rw [if_neg (by simpa using hn)]
  · cases ht : fs path with
    | none => rfl
    | some t =>
      dsimp only
      rw [if_pos]
      simp only [List.length_eq_zero_iff]
      exact Classical.byContradiction fun hn => hr ⟨t, ht, hn⟩

theorem load_files {fs : Str → Option Str} : ∀ {paths : List Str} {srcs : List Source},
    paths.Pairwise (fun a b => pathCmp a b = false) → (∀ s ∈ srcs, ∀ q ∈ paths, pathCmp s.path q = false) →
    ((∀ q ∈ paths, CanRead fs q) → ∃ new, loadFiles fs srcs paths = some (srcs ++ new) ∧
      new.map (fun s => (s.path, s.data)) = paths.map fun q => (q, fs q)) ∧
    ((∃ q ∈ paths, ¬ CanRead fs q) → loadFiles fs srcs paths = none)
  | [], srcs, _, _ => ⟨fun _ => ⟨[], by simp [loadFiles]⟩, by simp⟩
  | q :: paths, srcs, hp, hs => by
    obtain ⟨hp1, hp2⟩ := List.pairwise_cons.1 hp
    obtain ⟨k1, k2⟩ := load_new (fs := fs) (srcs := srcs) (path := q) fun s hs' => hs s hs' q (by simp)
    by_cases hq : CanRead fs q
    · obtain ⟨t, ht, hn⟩ := hq
      obtain ⟨i1, i2⟩ := load_files (fs := fs) (paths := paths) (srcs := srcs ++ [⟨q, some t, genLines t⟩]) hp2 (by
        intro s hs' q' hq'
        rcases List.mem_append.1 hs' with hs' | hs'
        · exact hs s hs' q' (List.mem_cons_of_mem _ hq')
        · cases List.mem_singleton.1 hs'
          exact hp1 q' hq')
      rw [loadFiles, k1 t ht hn]
      dsimp only
      refine ⟨fun ha => ?_, fun ⟨q', hq', hr⟩ => ?_⟩
      · obtain ⟨new, j1, j2⟩ := i1 fun q' hq' => ha q' (List.mem_cons_of_mem _ hq')
        refine ⟨⟨q, some t, genLines t⟩ :: new, by rw [j1]; simp, ?_⟩
        simp only [List.map_cons, j2, ht]
      · rcases List.mem_cons.1 hq' with rfl | hq'
        · exact absurd ⟨t, ht, hn⟩ hr
        · exact i2 ⟨q', hq', hr⟩
    · refine ⟨fun ha => absurd (ha q (by simp)) hq, fun _ => ?_⟩
      have := k2 hq
      rw [loadFiles]
      rcases hl : loadSource fs srcs q with ⟨_ | _, s⟩
      · rfl
      · rw [hl] at this
        cases this

/-- No path begins with an earlier one, up to case and kind of slash. -/
def NoPrefix (paths : List Str) : Prop :=
  paths.Pairwise fun a b => ¬ (a.length ≤ b.length ∧ SamePath a (b.take a.length))

/-- C62: the exit statuses before anything is run.  Without files it is -1; if some file cannot be
read or is empty it is -2; otherwise the sources that are compiled are the files in their order, and if
the compiler finds an error it is 1.  Nothing is printed and no file written.  Partial: this needs that no path
begins with an earlier one; `C62_unread` shows what happens otherwise. -/
theorem C62_status_partial {P M : Type} (mem : MemOps P M) (m0 : M) (fs : Str → Option Str) (fl : FloatOps) (L : Layout)
    (n fuel : Nat) (input : Str) :
    driverMain mem m0 fs fl L n fuel [] input = .ok ⟨-1, [], none⟩ ∧
    ∀ paths, NoPrefix paths → paths ≠ [] →
      ((∃ q ∈ paths, ¬ CanRead fs q) → driverMain mem m0 fs fl L n fuel paths input = .ok ⟨-2, [], none⟩) ∧
      ((∀ q ∈ paths, CanRead fs q) → ∃ srcs, srcs.map (fun s => (s.path, s.data)) = paths.map (fun q => (q, fs q)) ∧
        (∀ x, build fs fl L true driverSys n srcs = .error (.err x) →
          driverMain mem m0 fs fl L n fuel paths input = .ok ⟨1, [], none⟩) ∧
        (∀ prog, build fs fl L true driverSys n srcs = .ok (some prog) →
          driverMain mem m0 fs fl L n fuel paths input = driverRun mem m0 fl fuel prog input)) := by
  refine ⟨rfl, fun paths hp hne => ?_⟩
  have hp' : paths.Pairwise (fun a b => pathCmp a b = false) := hp.imp fun {a b} h => by
    cases hc : pathCmp a b with
    | false => rfl
    | true => exact absurd ((pathCmp_iff a b).1 hc) h
  obtain ⟨k1, k2⟩ := load_files (fs := fs) (srcs := []) hp' (by simp)
  refine ⟨fun h => ?_, fun h => ?_⟩
  · unfold driverMain
    rw [k2 h]
  · obtain ⟨srcs, h1, h2⟩ := k1 h
    rw [List.nil_append] at h1
    have hs := loadFiles_ne h1 (.inr hne)
    refine ⟨srcs, h2, fun x hx => ?_, fun prog hx => ?_⟩
    all_goals
      unfold driverMain
      rw [h1]
      cases srcs with
      | nil => exact absurd rfl hs
      | cons s ss =>
        dsimp only
        rw [hx]

/-- C62 fails: a file whose path begins with the path of an earlier one is not read, whether it exists
or not, and the driver goes on without it. -/
theorem C62_unread {P M : Type} (mem : MemOps P M) (m0 : M) (fs : Str → Option Str) (fl : FloatOps) (L : Layout)
    (n fuel : Nat) (input : Str) (a b : Str) (h : CanRead fs a) :
    driverMain mem m0 fs fl L n fuel [a, a ++ b] input = driverMain mem m0 fs fl L n fuel [a] input := by
  obtain ⟨t, ht, hn⟩ := h
  have h1 := (load_new (fs := fs) (srcs := []) (path := a) (by simp)).1 t ht hn
  have h2 : loadSource fs [⟨a, some t, genLines t⟩] (a ++ b) = (true, [⟨a, some t, genLines t⟩]) := by
    unfold loadSource
    rw [if_pos]
    simp only [List.any_cons, List.any_nil, Bool.or_false]
    refine (pathCmp_iff _ _).2 ⟨by simp, ?_⟩
    simp [SamePath.refl]
  have h3 : loadFiles fs [] [a, a ++ b] = loadFiles fs [] [a] := by
    simp only [loadFiles, h1, List.nil_append, h2]
  unfold driverMain
  rw [h3]

/-- C62 fails: if `main` has parameters then the driver dereferences the null pointer `new_thread`
returns (lib_vm/vm.cpp:55-64). -/
theorem C62_parameters {fl : FloatOps} {prog : Program} {F : Function} {input : Str} {v : VmState Val Store}
    (hF : prog.findByName (str "main") = some F) (ha : F.numArgs ≠ 0)
    (hv : (driverVm input).callInit (Env.std (driverResolve prog) fl Mem.abs) = .ok (true, v)) (fuel : Nat) :
    driverRun Mem.abs [] fl fuel prog input = .error .ub := by
  rw [run_abs, hF]
  dsimp only
  rw [hv]
  dsimp only
  have : v.callOnce (Env.std (driverResolve prog) fl Mem.abs) fuel F [] = .error .ub := by
    unfold VmState.callOnce VmState.newThread prepare
    rw [if_pos (by simpa using ha)]
  rw [this]


/-! ### Examples -/

/-- A directory with one file, made of the words `xs`. -/
def oneFs (xs : List (Lexeme × Str)) : Str → Option Str := fun p => if p = str "e.ccml" then some (written xs) else none
/-- Its source. -/
def oneSrc (xs : List (Lexeme × Str)) : Source := ⟨str "e.ccml", some (written xs), genLines (written xs)⟩
/-- Its tokens. -/
def oneToks (xs : List (Lexeme × Str)) : List Token := expectedTokens toyFl 0 1 (xs.map (·.1))
/-- The last of them. -/
def oneLast (xs : List (Lexeme × Str)) : Token := (oneToks xs).getLast?.getD ⟨.EOF, [], ⟨0, 0⟩, 0⟩
/-- What is parsed. -/
def oneRead (xs : List (Lexeme × Str)) : Prog Unit × PState :=
  outOf ([], ⟨[], ⟨0, 0⟩, [], [], []⟩)
    (parse (oneFs xs) (oneSrc xs) [oneSrc xs] [] ((oneToks xs).dropLast ++ [oneLast xs]))
/-- The tree. -/
def oneTree (xs : List (Lexeme × Str)) : Prog Unit := (oneRead xs).1
/-- The program. -/
def oneProg (xs : List (Lexeme × Str)) : Program :=
  outOf Program.empty (compile sampleLayout true (registered driverSys ++ (oneTree xs ++ [])))

/-- What is to be computed to see that the file is an input of the theorems. -/
def oneCheck (xs : List (Lexeme × Str)) : Bool :=
  readableB xs && decide (oneToks xs = (oneToks xs).dropLast ++ [oneLast xs]) && decide ((oneLast xs).type = .EOF) &&
  (oneToks xs).dropLast.all (fun t => decide (t.type ≠ .EOF)) && decide (Only.NoUnary .EOL (oneToks xs).dropLast) &&
  isOk (parse (oneFs xs) (oneSrc xs) [oneSrc xs] [] ((oneToks xs).dropLast ++ [oneLast xs])) &&
  decide ((oneRead xs).2.srcs = [oneSrc xs]) && decide (loadFiles (oneFs xs) [] [str "e.ccml"] = some [oneSrc xs]) &&
  isOk (compile sampleLayout true (registered driverSys ++ (oneTree xs ++ []))) &&
  (funcsOf (oneTree xs ++ [])).all (fun f => apartB [] f.body) &&
  (funcsOf (registered driverSys ++ (oneTree xs ++ []))).all
    (fun f => (Src.condsB f.body).all (Src.plainCond (registered driverSys ++ (oneTree xs ++ [])))) &&
  decide ((registered driverSys ++ (oneTree xs ++ [])).length < 2147483648) &&
  (funcsOf (registered driverSys ++ (oneTree xs ++ []))).all
    (fun f => decide (f.args.length + Src.varsB f.body < 2147483648))

theorem one_input {xs : List (Lexeme × Str)} (h : oneCheck xs = true) :
    DriverInput (oneFs xs) toyFl sampleLayout [str "e.ccml"] (oneTree xs ++ []) (oneProg xs) := by
  simp only [oneCheck, Bool.and_eq_true, decide_eq_true_eq] at h
  obtain ⟨⟨⟨⟨⟨⟨⟨⟨⟨⟨⟨⟨h1, h2⟩, h3⟩, h4⟩, h5⟩, h6⟩, h7⟩, h8⟩, h9⟩, h10⟩, h11⟩, h12⟩, h13⟩ := h
  have hp := outOf_ok (d := (([], ⟨[], ⟨0, 0⟩, [], [], []⟩) : Prog Unit × PState)) h6
  have hr := (C61_only_partial (oneFs xs) (oneSrc xs) [oneSrc xs] [] (oneToks xs).dropLast (oneLast xs) h3
    (fun t ht => of_decide_eq_true (List.all_eq_true.1 h4 t ht)) h5 (oneTree xs) (oneRead xs).2 hp).1
  rw [h7] at hr
  exact {
    some_files := by simp
    texts := ⟨[oneSrc xs], [oneSrc xs], h8, .next (src := oneSrc xs) (xs := xs) rfl rfl (readable_of h1) h2 hr (.done rfl)⟩
    compiles := outOf_ok h9
    apart := fun f hf => apartB_of (List.all_eq_true.1 h10 f (mem_funcsOf hf))
    ifs := fun f hf e he => List.all_eq_true.1 (List.all_eq_true.1 h11 f (mem_funcsOf hf)) e he
    small := ⟨h12, fun f hf => of_decide_eq_true (List.all_eq_true.1 h13 f (mem_funcsOf hf))⟩ }

theorem started_of {ε α : Type} {d : Bool × α} {x : Except ε (Bool × α)} (h : isOk x = true)
    (h1 : (outOf d x).1 = true) : x = .ok (true, (outOf d x).2) := by
  cases x with
  | error => cases h
  | ok p => exact congrArg Except.ok (Prod.ext h1 rfl)

/-- The machine after the start-up. -/
def oneStarted (xs : List (Lexeme × Str)) (input : Str) : VmState Val Store :=
  (outOf (false, driverVm []) ((driverVm input).callInit (Env.std (driverResolve (oneProg xs)) toyFl Mem.abs))).2

theorem one_start {xs : List (Lexeme × Str)} {input : Str}
    (h : isOk ((driverVm input).callInit (Env.std (driverResolve (oneProg xs)) toyFl Mem.abs)) = true)
    (h1 : (outOf (false, driverVm [])
      ((driverVm input).callInit (Env.std (driverResolve (oneProg xs)) toyFl Mem.abs))).1 = true) :
    (driverVm input).callInit (Env.std (driverResolve (oneProg xs)) toyFl Mem.abs) = .ok (true, oneStarted xs input) := by
  unfold oneStarted
  exact started_of h h1

/-- The words of a program that reads a line and prints it. -/
def echoWords : List (Lexeme × Str) :=
  let nl : Lexeme × Str := (.newline, [])
  let open_ : Lexeme × Str := (.fixed (str "(") .LPAREN, [])
  let close : Lexeme × Str := (.fixed (str ")") .RPAREN, [])
  let eq : Lexeme × Str := (.fixed (str "=") .ASSIGN, str " ")
  [(.fixed (str "var") .VAR, str " "), (.name (str "n"), str " "), eq, (.int 0, str " "),
   (.fixed (str "-") .SUB, str " "), (.int 3, []), nl,
   (.fixed (str "function") .FUNC, str " "), (.name (str "main"), []), open_, close, nl,
   (.fixed (str "var") .VAR, str " "), (.name (str "s"), str " "), eq, (.name (str "gets"), []), open_, close, nl,
   (.name (str "puts"), []), open_, (.name (str "s"), []), close, nl,
   (.name (str "n"), str " "), eq, (.name (str "n"), str " "), (.fixed (str "+") .ADD, str " "),
   (.name (str "len"), []), open_, (.name (str "s"), []), close, nl,
   (.fixed (str "return") .RETURN, str " "), (.int 12, str " "), (.fixed (str "/") .DIV, str " "),
   (.name (str "n"), []), nl,
   (.fixed (str "end") .END, []), nl]

example : written echoWords = str
  "var n = 0 - 3\nfunction main()\nvar s = gets()\nputs(s)\nn = n + len(s)\nreturn 12 / n\nend\n" := by decide +kernel

theorem echo_input : DriverInput (oneFs echoWords) toyFl sampleLayout [str "e.ccml"] (oneTree echoWords ++ [])
    (oneProg echoWords) := one_input (by decide +kernel)

/-- The state at the end of an evaluation. -/
def endOf (r : Sem.Res Unit) : State :=
  match r with
  | .ok _ w => w
  | .err _ w => w
  | _ => ⟨[], [], [], [], 0, Io.fresh⟩

theorem end_ok {r : Sem.Res Unit} (h : (match r with | .ok _ _ => true | _ => false) = true) : r = .ok () (endOf r) := by
  cases r <;> first | rfl | cases h

/-- The state the initialisers of a file leave. -/
def oneW (xs : List (Lexeme × Str)) (input : Str) : State :=
  endOf (Src.startUp (srcCtx (registered driverSys ++ (oneTree xs ++ [])) (oneProg xs) toyFl) 9
    (callState (driverVm input)))

theorem one_startUp {xs : List (Lexeme × Str)} {input : Str}
    (h : (match Src.startUp (srcCtx (registered driverSys ++ (oneTree xs ++ [])) (oneProg xs) toyFl) 9
      (callState (driverVm input)) with | .ok _ _ => true | _ => false) = true) :
    Src.startUp (srcCtx (registered driverSys ++ (oneTree xs ++ [])) (oneProg xs) toyFl) 9
      (callState (driverVm input)) = .ok () (oneW xs input) := end_ok h

theorem one_done {xs : List (Lexeme × Str)} {input : Str}
    (h : (match (driverVm input).callInit (Env.std (driverResolve (oneProg xs)) toyFl Mem.abs) with
      | .ok (_, v) => v.threads.all (·.finished) | _ => false) = true) (b : Bool) (v : VmState Val Store)
    (hv : (driverVm input).callInit (Env.std (driverResolve (oneProg xs)) toyFl Mem.abs) = .ok (b, v)) :
    ∀ t ∈ v.threads, t.finished = true := by
  rw [hv] at h
  exact List.all_eq_true.1 h

/-- `C62_source_partial` for it: with the line `heyya` as input, the driver prints `heyya` and `exit: 6`,
whenever the collector runs. -/
example : ∃ m, ∀ n fuel, m ≤ n → m ≤ fuel → ∀ depth should,
    OrOut (driverMain (Mem.gc depth should) Heap.empty (oneFs echoWords) toyFl sampleLayout n fuel [str "e.ccml"]
      (str "heyya\n")) (.ok ⟨0, str "heyya\nexit: 6\n", some (serialSave (oneProg echoWords))⟩) := by
  obtain ⟨w, hr, hw⟩ : ∃ w, Src.call (srcCtx (registered driverSys ++ (oneTree echoWords ++ [])) (oneProg echoWords)
      toyFl) 9 (str "main") [] (mainState (oneW echoWords (str "heyya\n"))) = .ok (.int 6) w ∧
      (w.io.output == str "heyya\n") = true := ok_of_check (by decide +kernel)
  have h := C62_source_partial echo_input (one_startUp (by decide +kernel)) (one_done (by decide +kernel) true) hr
    (x := .int 6) rfl
  have e : w.io.output ++ printResult toyFl (.int 6) = str "heyya\nexit: 6\n" := by
    rw [eq_of_beq hw]
    decide +kernel
  rwa [e] at h

theorem unit_err {α : Type} {r : Sem.Res α} {x : TErr} {P : State → Bool}
    (h : (match r with | .err y w => y == x && P w | _ => false) = true) : ∃ w, r = .err x w ∧ P w = true := by
  split at h
  · simp only [Bool.and_eq_true, beq_iff_eq] at h
    exact ⟨_, by rw [h.1], h.2⟩
  · cases h

/-- `C62_source_error_partial` for it: with the line `hey` it divides by zero after it has printed. -/
example : ∃ m, ∀ n fuel, m ≤ n → m ≤ fuel → ∀ depth should,
    OrOut (driverMain (Mem.gc depth should) Heap.empty (oneFs echoWords) toyFl sampleLayout n fuel [str "e.ccml"]
      (str "hey\n")) (.ok ⟨-6, str "hey\n", some (serialSave (oneProg echoWords))⟩) := by
  obtain ⟨w, hr, hw⟩ : ∃ w, Src.call (srcCtx (registered driverSys ++ (oneTree echoWords ++ [])) (oneProg echoWords)
      toyFl) 9 (str "main") [] (mainState (oneW echoWords (str "hey\n"))) = .err .bad_divide_by_zero w ∧
      (w.io.output == str "hey\n") = true := unit_err (by decide +kernel)
  have h := C62_source_error_partial echo_input (one_startUp (by decide +kernel)) (one_done (by decide +kernel) true)
    (by decide) hr
  rwa [eq_of_beq hw] at h

/-- `C62_complete_partial` for it: any run that ends with a result had a source evaluation behind it. -/
example : ∃ m, ∀ n fuel depth should out saved, m ≤ n →
    driverMain (Mem.gc depth should) Heap.empty (oneFs echoWords) toyFl sampleLayout n fuel [str "e.ccml"]
      (str "heyya\n") = .ok ⟨0, out, saved⟩ → ∃ k r, r ≠ Sem.Res.timeout ∧
        Src.call (srcCtx (registered driverSys ++ (oneTree echoWords ++ [])) (oneProg echoWords) toyFl) k (str "main") []
          (callState (oneStarted echoWords (str "heyya\n"))) = r := by
  have hv : _ = Except.ok (true, oneStarted echoWords (str "heyya\n")) :=
    one_start (by decide +kernel) (by decide +kernel)
  obtain ⟨m, h⟩ := C62_complete_partial echo_input hv
  refine ⟨m, fun n fuel depth should out saved hn hx => ?_⟩
  rcases h n fuel depth should _ hn hx (by decide : (0 : Int) ≠ -4) with
    ⟨k, ⟨r, w, y, h1, _⟩ | ⟨e, w, h1, _⟩ | h1⟩
  · exact ⟨k, _, by nofun, h1⟩
  · exact ⟨k, _, by nofun, h1⟩
  · exact ⟨k, _, by nofun, h1⟩

/-- `C62_start_error_partial` for `var n = len(1)` and an empty `main`. -/
def badStartWords : List (Lexeme × Str) :=
  [(.fixed (str "var") .VAR, str " "), (.name (str "n"), str " "), (.fixed (str "=") .ASSIGN, str " "),
   (.name (str "len"), []), (.fixed (str "(") .LPAREN, []), (.int 1, []), (.fixed (str ")") .RPAREN, []), (.newline, []),
   (.fixed (str "function") .FUNC, str " "), (.name (str "main"), []), (.fixed (str "(") .LPAREN, []),
   (.fixed (str ")") .RPAREN, []), (.newline, []), (.fixed (str "end") .END, []), (.newline, [])]

example : ∃ m, ∀ n fuel, m ≤ n → ∀ depth should,
    OrOut (driverMain (Mem.gc depth should) Heap.empty (oneFs badStartWords) toyFl sampleLayout n fuel [str "e.ccml"]
      (str "x")) (.ok ⟨-5, [], some (serialSave (oneProg badStartWords))⟩) := by
  obtain ⟨w, hr, hw⟩ : ∃ w, Src.startUp (srcCtx (registered driverSys ++ (oneTree badStartWords ++ []))
      (oneProg badStartWords) toyFl) 9 (callState (driverVm (str "x"))) = .err .bad_argument w ∧
      (w.io.output == []) = true := unit_err (by decide +kernel)
  have h := C62_start_error_partial (one_input (by decide +kernel)) (by decide) hr (one_done (by decide +kernel))
    (by
      intro h
      have : ((oneProg badStartWords).findByName (str "main")).isSome = true := by decide +kernel
      rw [h] at this
      cases this)
  rwa [eq_of_beq hw] at h

/-- `C62_parameters` for `main(x)`. -/
def badMainWords : List (Lexeme × Str) :=
  [(.fixed (str "function") .FUNC, str " "), (.name (str "main"), []), (.fixed (str "(") .LPAREN, []),
   (.name (str "x"), []), (.fixed (str ")") .RPAREN, []), (.newline, []), (.fixed (str "end") .END, []), (.newline, [])]

example (fuel : Nat) : driverRun Mem.abs [] toyFl fuel (oneProg badMainWords) (str "x") = .error .ub := by
  have hv : _ = Except.ok (true, oneStarted badMainWords (str "x")) :=
    one_start (by decide +kernel) (by decide +kernel)
  have h : ((oneProg badMainWords).findByName (str "main")).map (·.numArgs) = some 1 := by decide +kernel
  cases hF : (oneProg badMainWords).findByName (str "main") with
  | none => rw [hF] at h; cases h
  | some F =>
    rw [hF] at h
    have h : F.numArgs = 1 := Option.some.inj h
    exact C62_parameters hF (by rw [h]; decide) hv fuel

/-- `C62_fault_partial` for it: at the end of the input `gets` runs into undefined behaviour (C63). -/
example : ∃ m, ∀ n fuel, m ≤ n → m ≤ fuel → ∀ depth should,
      OrOut (driverMain (Mem.gc depth should) Heap.empty (oneFs echoWords) toyFl sampleLayout n fuel [str "e.ccml"] [])
        (.error .ub) := by
  have hv : _ = Except.ok (true, oneStarted echoWords []) := one_start (by decide +kernel) (by decide +kernel)
  refine C62_fault_partial echo_input hv (k := 9) (fault_of_check ?_)
  decide +kernel

/-- `C62_no_main` for a text with one constant. -/
example (input : Str) : ∃ m, ∀ n fuel, m ≤ n → ∀ depth should,
    driverMain (Mem.gc depth should) Heap.empty (oneFs bWords) toyFl sampleLayout n fuel [str "e.ccml"] input =
      .ok ⟨-4, [], some (serialSave (oneProg bWords))⟩ :=
  C62_no_main (one_input (by decide +kernel)) (by decide +kernel) input

/-- `C62_status_partial` for a file that is not there. -/
example {P M : Type} (mem : MemOps P M) (m0 : M) (input : Str) :
    driverMain mem m0 (oneFs echoWords) toyFl sampleLayout 5 9 [str "e.ccml", str "f.ccml"] input =
      .ok ⟨-2, [], none⟩ := by
  refine ((C62_status_partial mem m0 (oneFs echoWords) toyFl sampleLayout 5 9 input).2
    [str "e.ccml", str "f.ccml"] ?_ (by simp)).1 ⟨str "f.ccml", by simp, fun ⟨t, h, _⟩ => ?_⟩
  · refine List.pairwise_cons.2 ⟨fun b hb ⟨_, h⟩ => ?_, by simp⟩
    obtain rfl := List.mem_singleton.1 hb
    have := (pathCmp_iff (str "e.ccml") (str "f.ccml")).2 ⟨by decide +kernel, h⟩
    exact absurd this (by decide +kernel)
  · rw [show oneFs echoWords (str "f.ccml") = none by decide +kernel] at h
    cases h

/-- `C62_unread` for it: `e.ccml2` is never looked at. -/
example {P M : Type} (mem : MemOps P M) (m0 : M) (input : Str) :
    driverMain mem m0 (oneFs echoWords) toyFl sampleLayout 5 9 [str "e.ccml", str "e.ccml" ++ str "2"] input =
      driverMain mem m0 (oneFs echoWords) toyFl sampleLayout 5 9 [str "e.ccml"] input :=
  C62_unread mem m0 (oneFs echoWords) toyFl sampleLayout 5 9 input _ _
    ⟨written echoWords, by decide +kernel, by decide +kernel⟩

/-! ### The functions known to programs -/

/-- Which function must be behind a name. -/
def driverSpec (name : Str) (f : FnPtr) : Prop :=
  (Builtin.ofPtr f = none ∧ (name, HostFn.ofPtr f) ∈ [(str "putc", some .putc), (str "getc", some .getc),
    (str "puts", some .puts), (str "gets", some .gets), (str "rand", some .rand), (str "print", some HostFn.puts)]) ∨
  (name, Builtin.ofPtr f) ∈ [(str "abs", some .abs), (str "min", some .min), (str "max", some .max),
    (str "bitand", some .bitand), (str "sin", some .sin), (str "cos", some .cos), (str "tan", some .tan),
    (str "len", some .len), (str "chr", some .chr), (str "round", some .round), (str "ceil", some .ceil),
    (str "floor", some .floor), (str "sqrt", some .sqrt), (str "new_thread", some .new_thread),
    (str "wait", some .wait), (str "new_array", some Builtin.new_array)]

/-- C62: the functions a program run by the command line driver may call, with the numbers of arguments the
compiler insists on (C19), and what each is bound to. -/
theorem C62_functions :
    driverSys =
      [(str "abs", some 1), (str "min", some 2), (str "max", some 2), (str "bitand", some 2), (str "sin", some 1),
       (str "cos", some 1), (str "tan", some 1), (str "len", some 1), (str "chr", some 1), (str "round", some 1),
       (str "ceil", some 1), (str "floor", some 1), (str "sqrt", some 1), (str "new_thread", none),
       (str "wait", some 1), (str "new_array", some 1), (str "putc", some 1), (str "getc", some 0),
       (str "puts", some 1), (str "gets", some 0), (str "rand", some 0), (str "print", some 1)] ∧
    ∀ prog : Program, (∀ s ∈ prog.syscalls, ∃ n, (s.name, n) ∈ driverSys) → ∀ s ∈ (driverResolve prog).syscalls,
      ∃ f : FnPtr, s.call = some f ∧ driverSpec s.name f := by
  refine ⟨by decide +kernel, fun prog hs s hm => ?_⟩
  simp only [resolveWith, builtinsResolve, List.map_map, List.mem_map, Function.comp] at hm
  obtain ⟨s0, h0, rfl⟩ := hm
  obtain ⟨n, hn⟩ := hs s0 h0
  have hn : s0.name ∈ driverSys.map Prod.fst := List.mem_map.2 ⟨_, hn, rfl⟩
  obtain ⟨name, call⟩ := s0
  have key : ∀ name ∈ driverSys.map Prod.fst,
      (builtinsMap.lookup name = none ∧ ∃ b, driverMap.lookup name = some b ∧ driverSpec name b.ptr) ∨
      (driverMap.lookup name = none ∧ ∃ b, builtinsMap.lookup name = some b ∧ driverSpec name b.ptr) := by
    rw [show driverSys.map Prod.fst = [str "abs", str "min", str "max", str "bitand", str "sin", str "cos", str "tan",
      str "len", str "chr", str "round", str "ceil", str "floor", str "sqrt", str "new_thread", str "wait", str "new_array",
      str "putc", str "getc", str "puts", str "gets", str "rand", str "print"] by decide +kernel]
    simp only [List.mem_cons, List.not_mem_nil, or_false]
    rintro name (rfl | rfl | rfl | rfl | rfl | rfl | rfl | rfl | rfl | rfl | rfl | rfl | rfl | rfl | rfl | rfl | rfl | rfl |
      rfl | rfl | rfl | rfl) <;> first
      | exact .inl ⟨rfl, _, rfl, by unfold driverSpec; decide +kernel⟩
      | exact .inr ⟨rfl, _, rfl, by unfold driverSpec; decide +kernel⟩
  rcases key name hn with ⟨h1, b, h2, h3⟩ | ⟨h1, b, h2, h3⟩
  · refine ⟨b.ptr, ?_⟩
    simp only [h2, h1]
    exact ⟨trivial, h3⟩
  · refine ⟨b.ptr, ?_⟩
    simp only [h2, h1]
    exact ⟨trivial, h3⟩

/-- C62: what the driver prints at the end. -/
theorem C62_printed (fl : FloatOps) : printResult fl .none = str "exit: none\n\n" ∧
    (∀ v : I32, ∃ ds : Str, IsDecimal v.toInt ds ∧ printResult fl (.int v) = str "exit: " ++ ds ++ str "\n") ∧
    (∀ s : Str, 0 ∉ s → printResult fl (.str s) = str "exit: \"" ++ s ++ str "\"\n") ∧
    (∀ f : F32, 0 ∉ fl.fmt f → printResult fl (.float f) = str "exit: " ++ fl.fmt f ++ str "\n") ∧
    (∀ n, printResult fl (.arr n) = str "exit: array\n") ∧ (∀ a, printResult fl (.func a) = str "exit: function\n") ∧
    (∀ a, printResult fl (.syscall a) = str "exit: \n") := by
  have hs : ∀ s : Str, 0 ∉ s → cstr s = s := fun s h => cstr_id fun b hb h0 => h (h0 ▸ hb)
  refine ⟨by simp only [printResult]; decide +kernel, fun v => ⟨decimal v, (C32_integer_text v).1, rfl⟩, fun s h => ?_, fun f h => ?_, fun n => ?_,
    fun a => ?_, fun a => ?_⟩
  · simp only [printResult, hs s h]
    simp [str]
  · simp only [printResult, hs _ h]
    rfl
  all_goals
    simp only [printResult]
    decide +kernel

example : printResult toyFl (.int (-42)) = str "exit: -42\n" := by decide +kernel

end Ccml.Props
