import Verif.SimHost
import Verif.WfHost
import Verif.Props.Gc
import Verif.Props.Ops
/-!
C45: when the collector runs cannot be seen by the program or its host; and the hypotheses of the
operator and collector properties hold in every state a machine gets to.
-/
namespace Ccml.Props
open Ccml

/-- A machine before anything was run on the mathematical store. -/
def newVm (io : Io) : VmState Val Store := ⟨[], [], [], io⟩
/-- A machine before anything was run on the collected heap. -/
def newHeapVm (io : Io) : VmState (Option Ptr) Heap := ⟨Heap.empty, [], [], io⟩

/-- Strings of the program hold no NUL.  (A file with a longer string is read differently by
`serial_load`, C01; the compiler's lexer never puts a NUL into a string since it stops there.) -/
def CleanProgram (p : Program) : Prop := ∀ s ∈ p.strings, ∀ b ∈ s, b ≠ 0

/-- Strings among the arguments the host hands over hold no NUL. -/
def CleanCall : HostOp → Prop
  | .spawn _ args => ∀ x ∈ args, ∀ s, x = .str s → ∀ b ∈ s, b ≠ 0
  | .call _ args _ => ∀ x ∈ args, ∀ s, x = .str s → ∀ b ∈ s, b ≠ 0
  | _ => True

/-- The same calls, collections within `steps` at other places. -/
inductive SameCalls : List HostOp → List HostOp → Prop
  | nil : SameCalls [] []
  | same (op : HostOp) {a b} : SameCalls a b → SameCalls (op :: a) (op :: b)
  | steps (k : Nat) {cs ds : List Bool} {a b} : cs.length = ds.length → SameCalls a b →
      SameCalls (.steps k cs :: a) (.steps k ds :: b)

theorem SameCalls.alike {a b : List HostOp} (h : SameCalls a b) : All2 HostOp.Alike a b := by
  induction h with
  | nil => exact .nil
  | same op _ ih => exact .cons (by cases op <;> simp [HostOp.Alike]) ih
  | steps k h _ ih => exact .cons ⟨rfl, h⟩ ih

theorem CleanCall.ok {op : HostOp} (h : CleanCall op) : op.Ok := by
  cases op <;> try trivial
  all_goals exact fun x hx s hs => cstr_eq (h x hx s hs)

/-- The empty world. -/
def World.empty : World :=
  ⟨[], Heap.empty, fun _ _ => False,
    ⟨Heap.Packed.below ⟨Arena.packed_clear, Arena.packed_clear⟩, fun _ _ h => h.elim,
      fun _ _ _ h => h.elim, fun _ _ _ h => h.elim, fun _ => rfl⟩,
    ⟨Arena.packed_clear, Arena.packed_clear⟩⟩

theorem new_same (io : Io) : VSame World.empty (newVm io) (newHeapVm io) := ⟨rfl, rfl, .nil, .nil, rfl⟩

/- What host functions read and write. -/
variable {io : Io}

/-! ### C45 -/

/-- C45: run any sequence of host calls (creating threads, running them for any number of cycles,
single steps, collections before any of the instructions) on the collected heap.  Whenever the
collector runs (`should`, the schedule inside `steps`), the results of the calls and the final state
— globals, threads with stacks, frames, errors, cycle counts; values looked at through any path of
array elements — are those of the machine that never collects, on any schedule.  A fault other than running out of
memory or native stack happens at the same point on both. -/
theorem C45_collections_unobservable (prog : Program) (fl : FloatOps) (depth : Nat)
    (should : Heap → Bool) (hp : CleanProgram prog) (ops ops' : List HostOp)
    (hops : SameCalls ops ops') (hc : ∀ op ∈ ops, CleanCall op) :
    let heap := session (Env.std prog fl (Mem.gc depth should)) (newHeapVm io) ops
    let ideal := session (Env.std prog fl Mem.abs) (newVm io) ops'
    match heap.2 with
    | .ok v' => heap.1 = ideal.1 ∧
        ∃ v, ideal.2 = .ok v ∧ v'.seen (Mem.gc depth should) = v.seen Mem.abs
    | .error f => (heap.1 = ideal.1 ∧ ideal.2 = .error f) ∨
        ((f = .oom ∨ f = .diverge) ∧ heap.1 <+: ideal.1) := by
  have E := std_sim prog fl depth should fun s hs => cstr_eq (hp s hs)
  have := E.sessionSim hops.alike (fun o ho => (hc o ho).ok) (new_same io)
  dsimp only
  rcases hx : session (Env.std prog fl (Mem.gc depth should)) (newHeapVm io) ops with ⟨os, r⟩
  rw [hx] at this
  cases r with
  | ok v' =>
    obtain ⟨u, w, h1, h2⟩ := this
    rw [h1]
    exact ⟨rfl, u, rfl, E.seen h2⟩
  | error f =>
    rcases this with ⟨h1, h2⟩ | h
    · exact .inr ⟨h1, h2⟩
    · rw [h]; exact .inl ⟨rfl, rfl⟩

/-- C45: two runs of the same calls that differ in when the collector runs and both get to the end
give the same results and the same visible state. -/
theorem C45_schedules_agree (prog : Program) (fl : FloatOps) (d1 d2 : Nat)
    (s1 s2 : Heap → Bool) (hp : CleanProgram prog) (ops1 ops2 : List HostOp)
    (hops : SameCalls ops1 ops2) (hc : ∀ op ∈ ops1, CleanCall op) (v1 v2 os1 os2)
    (h1 : session (Env.std prog fl (Mem.gc d1 s1)) (newHeapVm io) ops1 = (os1, .ok v1))
    (h2 : session (Env.std prog fl (Mem.gc d2 s2)) (newHeapVm io) ops2 = (os2, .ok v2)) :
    os1 = os2 ∧ v1.seen (Mem.gc d1 s1) = v2.seen (Mem.gc d2 s2) := by
  have refl : ∀ l : List HostOp, SameCalls l l := fun l => by
    induction l with
    | nil => exact .nil
    | cons a l ih => exact .same a ih
  have hc2 : ∀ op ∈ ops2, CleanCall op := by
    clear h1 h2
    induction hops with
    | nil => exact hc
    | same op h ih =>
      intro o ho
      rcases List.mem_cons.1 ho with rfl | ho
      · exact hc _ (List.mem_cons_self ..)
      · exact ih (fun p hp => hc p (List.mem_cons_of_mem _ hp)) o ho
    | steps k hl h ih =>
      intro o ho
      rcases List.mem_cons.1 ho with rfl | ho
      · trivial
      · exact ih (fun p hp => hc p (List.mem_cons_of_mem _ hp)) o ho
  have a := C45_collections_unobservable (io := io) prog fl d1 s1 hp ops1 ops2 hops hc
  have b := C45_collections_unobservable (io := io) prog fl d2 s2 hp ops2 ops2 (refl _) hc2
  rw [h1] at a
  rw [h2] at b
  obtain ⟨a1, u, a2, a3⟩ := a
  obtain ⟨b1, u', b2, b3⟩ := b
  rw [a2] at b2
  cases b2
  exact ⟨a1.trans b1.symm, a3.trans b3.symm⟩

/-! ### Reachable states -/

/-- The roots of a machine: globals and all stacks (`vm_t::gc_collect`, lib_vm/vm.cpp:22-31). -/
def rootsOf (v : VmState (Option Ptr) Heap) : List (Option Ptr) :=
  v.globals ++ (v.threads.map (·.stack)).flatten

theorem World.sound {w : World} {roots : List (Option Ptr)}
    (hr : ∀ p ∈ roots, ∃ v, w.Rel v p) : Sound w.h roots := by
  have hreach : ∀ q, Reach w.h roots q → ∃ v, w.Rel v (some q) := by
    intro q h
    induction h with
    | root h => exact hr _ h
    | elem h1 h2 h3 ih =>
      rename_i q x ps
      obtain ⟨v, hv⟩ := ih
      have : ∃ a, w.L a q := by
        unfold World.Rel Rep at hv
        split at hv
        · cases hv
        all_goals first
          | exact hv.elim
          | (obtain ⟨q', hq, hv⟩ := hv
             cases hq
             first
               | exact ⟨_, hv⟩
               | (have := hv.1; rw [h2] at this; cases this)
               | (rw [h2] at hv; cases hv; done))
      obtain ⟨a, ha⟩ := this
      obtain ⟨xs, ps', _, _, h6, h7⟩ := w.ok.arr a q ha
      rw [h2] at h6
      cases h6
      exact h7.mem_right h3
  intro q hq
  obtain ⟨v, hv⟩ := hreach q hq
  unfold World.Rel Rep at hv
  split at hv
  · cases hv
  all_goals first
    | exact hv.elim
    | (obtain ⟨q', hq', hv⟩ := hv
       cases hq'
       first
         | exact ⟨_, hv, (fun s h => by cases h), (fun s h => by cases h)⟩
         | exact ⟨_, hv.1, (fun s h => by
             cases h
             exact ⟨(cstr_eq_iff _).1 hv.2.1, hv.2.2⟩), (fun s h => by cases h)⟩
         | (obtain ⟨xs, ps, _, h2, h3, h4⟩ := w.ok.arr _ _ hv
            exact ⟨_, h3, (fun s h => by cases h), (fun s h => by
              cases h
              rw [← h4.length]
              exact h2)⟩))

/-- C45: after any sequence of host calls the heap is in order: what is reachable from the globals
and stacks is allocated, and both spaces are laid out without overlap.  So the hypotheses of C41, C42
and C43 hold at every collection. -/
theorem C45_heap_sound (prog : Program) (fl : FloatOps) (depth : Nat)
    (should : Heap → Bool) (hp : CleanProgram prog) (ops : List HostOp)
    (hc : ∀ op ∈ ops, CleanCall op) (os v)
    (h : session (Env.std prog fl (Mem.gc depth should)) (newHeapVm io) ops = (os, .ok v)) :
    Sound v.mem (rootsOf v) ∧ Idle v.mem := by
  have refl : ∀ l : List HostOp, SameCalls l l := fun l => by
    induction l with
    | nil => exact .nil
    | cons a l ih => exact .same a ih
  have E := std_sim prog fl depth should fun s hs => cstr_eq (hp s hs)
  have := E.sessionSim (refl ops).alike (fun o ho => (hc o ho).ok) (new_same io)
  rw [h] at this
  obtain ⟨u, w, _, h2⟩ := this
  rw [h2.h]
  refine ⟨World.sound fun p hp => ?_, ⟨w.packed, w.ok.fwd⟩⟩
  unfold rootsOf at hp
  rcases List.mem_append.1 hp with hp | hp
  · exact h2.globals.mem_right hp
  · obtain ⟨st, h3, h4⟩ := List.mem_flatten.1 hp
    obtain ⟨t, h5, rfl⟩ := List.mem_map.1 h3
    obtain ⟨t0, h6⟩ := h2.threads.mem_right h5
    exact h6.stack.mem_right h4

/-- C34, also C29 to C33: in every state a machine gets to, all values in globals, stacks and array
elements are live and their strings hold no NUL: the hypotheses of the operator properties. -/
theorem C34_no_nul (prog : Program) (fl : FloatOps) (hp : CleanProgram prog) (ops : List HostOp)
    (hc : ∀ op ∈ ops, CleanCall op) (os v)
    (h : session (Env.std prog fl Mem.abs) (newVm io) ops = (os, .ok v)) :
    ∀ x, (x ∈ v.globals ∨ (∃ t ∈ v.threads, x ∈ t.stack) ∨ (∃ xs ∈ v.mem, x ∈ xs)) →
      Live v.mem x ∧ NoNul x := by
  have hw := (std_keep prog fl fun s hs => cstr_eq (hp s hs)).sessionOk
    (fun o ho => (hc o ho).ok) (v := newVm io)
    ⟨(fun _ h => by cases h), (fun _ h => by cases h), (fun _ h => by cases h)⟩ h
  intro x hx
  have : WfV v.mem.length x := by
    rcases hx with hx | ⟨t, ht, hx⟩ | ⟨xs, hxs, hx⟩
    · exact hw.globals x hx
    · exact hw.threads t ht x hx
    · exact hw.mem xs hxs x hx
  cases x with
  | arr l => exact ⟨this, trivial⟩
  | str s => exact ⟨trivial, (cstr_eq_iff s).1 this⟩
  | _ => exact ⟨trivial, trivial⟩

/-! ### Examples -/

/-- `function f() { var x = [5, "ab"]; return x; }`. -/
def arrayProg : Program :=
  { Program.empty with
    code := Op.LOCALS.code :: le32 1 ++ Op.NEW_INT.code :: le32 5 ++ Op.NEW_STR.code :: le32 0 ++
      Op.ARY_INIT.code :: le32 2 ++ Op.SETV.code :: le32 0 ++ Op.GETV.code :: le32 0 ++
      Op.RET.code :: le32 1
    strings := [str "ab"]
    functions := [⟨str "f", 0, 35, [⟨str "x", 0⟩], []⟩] }

def arrayFn : Function := ⟨str "f", 0, 35, [⟨str "x", 0⟩], []⟩

example : CleanProgram arrayProg := by unfold CleanProgram; decide
example : ∀ op ∈ [HostOp.spawn arrayFn [.str (str "q")], .call arrayFn [] 9], CleanCall op := by
  intro op h
  simp only [List.mem_cons, List.not_mem_nil, or_false] at h
  rcases h with rfl | rfl
  · intro x hx s hs
    simp only [List.mem_cons, List.not_mem_nil, or_false] at hx
    subst hx
    cases hs
    decide
  · intro x hx; cases hx

/-- Two threads of `f`, the first stepped five instructions with collections in between, then run
to the end, then `f` called once more. -/
def arraySession (cs : List Bool) : List HostOp :=
  [.spawn arrayFn [], .spawn arrayFn [], .steps 0 cs, .resume 100, .call arrayFn [] 3]

example : SameCalls (arraySession [true, false, true, true, true])
    (arraySession [false, false, false, false, false]) :=
  .same _ (.same _ (.steps 0 rfl (.same _ (.same _ .nil))))

/-- What the results and the final state of a session show on a few paths. -/
def glimpse {P M : Type} (mem : MemOps P M) (r : List HostOut × Out (VmState P M)) :
    List (List (Out View)) :=
  let look : Seen → List (Out View) := fun f => [f [], f [0], f [1]]
  r.1.map (fun o => match o with
    | .returned (.value f) => look f
    | .flag true => [.ok (.int 1)]
    | _ => []) ++
  match r.2 with
  | .ok v => (v.seen mem).2.1.map (fun t => t.stack.flatMap look)
  | .error f => [[.error f]]

/-- The session gets to its end, with collections and without, and shows the array. -/
example :
    let seen : List (Out View) := [.ok (.arr 2), .ok (.int 5), .ok (.str (str "ab"))]
    glimpse (Mem.gc 100) (session (Env.std arrayProg toyFl (Mem.gc 100)) (newHeapVm Io.fresh)
      (arraySession [true, false, true, true, true])) =
      [[.ok (.int 1)], [.ok (.int 1)], [], [.ok (.int 1)], seen, seen, seen, seen] := by
  decide +kernel

end Ccml.Props
