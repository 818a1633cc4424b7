import Verif.SemFrame
import Verif.Props.Compile
import Verif.Props.Layout
import Verif.Props.Sched
/-!
C49: the initialisers of the global variables.
-/
set_option linter.unusedSimpArgs false
namespace Ccml.Props
open Sem (State Res callFn startUp handOver)

/-! ### Specification -/

/-- The initial value of a global variable whose initialiser, if any, is a literal. -/
def plainInit : Item Ref → Option Val
  | .var _ false none => some .none
  | .var _ false (some (.int v _ _)) => some (.int v)
  | .var _ false (some (.float v _)) => some (.float v)
  | .var _ false (some (.str s _)) => some (.str s)
  | .var _ false (some (.none _)) => some .none
  | _ => none

/-- All initialisers are literals. -/
def PlainInits (q : Prog Ref) : Prop :=
  ∀ t x, Item.var t false (some x) ∈ q → ∃ v, Sem.literal x = some v

/-! ### Proofs -/

section
variable {L : Layout} {opt : Bool} {p : Prog Unit} {q : Prog Ref} {prog : Program}
  {e : Env Val Store} {cx : Sem.Ctx}

theorem resume_quantum {e : Env Val Store} {s : St Val Store} (hg : Going s) :
    resume e 8192 s = match resumeLoop e 8192 (awake s) with
      | .ok (_, s1) => .ok (!s1.th.hasError, s1)
      | .error f => .error f := by
  unfold resume
  rw [vm_bind_ok (show getTh s = .ok (s.th, s) from rfl), if_neg (by rw [hg.1]; decide)]
  rw [vm_bind_ok (show modTh _ s = .ok ((), awake s) from rfl)]
  unfold runQuantum
  rw [if_pos (by decide), vm_bind, vm_bind]
  have : (8192 : I32).toNat = 8192 := rfl
  rw [this]
  cases resumeLoop e 8192 (awake s) with
  | error f => rfl
  | ok r => obtain ⟨b, s1⟩ := r; rfl

theorem loop_alone (hm : e.mem = Mem.abs) (hh : e.handlers = {}) (hiso : HostPres OthersUntouched e)
    {v : VmState Val Store} (hv : v.threads = []) {a : Int} {b : Bool} {s1 : St Val Store}
    (h : resumeLoop e 8192 (startSt v a []) = .ok (b, s1)) : s1.after = [] := by
  have hq := resume_quantum (e := e) (s := startSt v a []) ⟨rfl, rfl⟩
  rw [awake_of (show (startSt v a []).th.halted = false from rfl), h] at hq
  have := (C39_resume_untouched e (by rw [hm]; exact abs_keepsRoots) hiso
    { error := by rw [hh]; nofun, finish := by rw [hh]; nofun } 8192 _ _ _ hq).after
  rw [this]
  exact hv

/-- The whole of `call_init` on a machine without threads. -/
theorem callInit_eq (hm : e.mem = Mem.abs) (hh : e.handlers = {}) (hiso : HostPres OthersUntouched e)
    {F : Function} (hF : e.prog.findByName initName = some F) (ha : F.numArgs = 0)
    {v : VmState Val Store} (hv : v.threads = []) :
    v.callInit e = match resumeLoop e 8192 (startSt v F.codeStart.toInt []) with
      | .ok (_, s1) => .ok (!s1.th.hasError, leftBy (stOf s1) s1.th)
      | .error f => .error f := by
  have hp := prepare_abs hm v.mem F [] ha
  unfold VmState.callInit VmState.newThread
  have hi : str "@init" = initName := rfl
  rw [hi, hF]
  dsimp only
  rw [hp]
  simp only [Sem.handOver]
  unfold VmState.resume
  rw [hv]
  simp only [List.length_cons, List.length_nil, Nat.zero_add]
  unfold passLoop
  rw [if_neg (by simp [Sem.startThread, Thread.fresh]),
    if_neg (by simp [Sem.startThread, Thread.fresh, Thread.hasError])]
  have hs : (⟨Sem.startThread F.codeStart.toInt [], v.mem, v.globals, [], [], v.io⟩ : St Val Store) =
      startSt v F.codeStart.toInt [] := by
    unfold startSt
    rw [hv]
  rw [hs]
  have hq := resume_quantum (e := e) (s := startSt v F.codeStart.toInt []) ⟨rfl, rfl⟩
  rw [awake_of (show (startSt v F.codeStart.toInt []).th.halted = false from rfl)] at hq
  rw [hq]
  cases hx : resumeLoop e 8192 (startSt v F.codeStart.toInt []) with
  | error f => rfl
  | ok r =>
    obtain ⟨b, s1⟩ := r
    rw [hx] at hq
    have haf := loop_alone hm hh hiso hv hx
    dsimp only
    cases hs1 : s1.th.hasError with
    | true =>
      rw [if_neg (by simp), if_pos rfl]
      rfl
    | false =>
      rw [if_pos (by simp), haf]
      unfold passLoop leftBy
      simp only [stOf, haf]
      rfl

/-- The entry of the initialisation code. -/
theorem _root_.Ccml.Compiles.initEntry (h : Compiles L opt p q prog) (hi : ∀ x ∈ p, x.declName ≠ initName)
    (hq : cx.prog = q) (R : Running e cx prog) :
    ∃ F, e.prog.findByName initName = some F ∧ F.numArgs = 0 ∧ ∀ (v : VmState Val Store) n,
      Follows e (n + 1) (startSt v F.codeStart.toInt [])
        (fun _ => Returned ⟨0, F.codeStart.toInt, F.codeStart.toInt, true⟩ [] [] (.int 0))
        (startUp cx (ownSlots q) n (callState v)) := by
  have S := R.setting h hi hq
  have hn := h.func hi
  obtain ⟨q0, k1, k2, k3⟩ := h
  obtain ⟨segs, es, G⟩ := codegen_generated hn k3
  have L := G.loaded hq (List.Nodup.sublist (List.sublist_append_left _ _) hn) S
  obtain ⟨F, hF, hname, hpos, hP⟩ := G.init hq S
  have hnod : (prog.functions.map Function.name).Nodup := by rw [G.fnames]; exact G.names
  refine ⟨F, ?_, ?_, ?_⟩
  · rw [R.program]
    refine find?_unique hF (by rw [hname]; simp) ?_
    intro y hy hyn
    exact fname_unique hnod hy hF (by rw [hname]; simpa using hyn)
  · obtain ⟨l, hl, hes⟩ := G.table
    have hp : ∀ E, (place segs E).args = E.args ∧ (place segs E).name = E.name := by
      intro E; unfold place; split <;> exact ⟨rfl, rfl⟩
    have hmem : place segs ⟨initName, 0, 0, [], []⟩ ∈ prog.functions := by
      rw [G.functions]
      exact List.mem_map_of_mem (by rw [hes]; simp)
    have : F = place segs ⟨initName, 0, 0, [], []⟩ :=
      fname_unique hnod hF hmem (by rw [hname, (hp _).2])
    rw [this, Function.numArgs, (hp _).1]
    rfl
  · intro v n
    exact follow_init L hP n rfl (startSt_at (by omega) [])

/-- A run that ends: `call_init` makes all of it or stops before. -/
theorem callInit_part (R : Running e cx prog) (hiso : HostPres OthersUntouched e) {F : Function}
    (hF : e.prog.findByName initName = some F) (ha : F.numArgs = 0) {v : VmState Val Store}
    (hv : v.threads = []) {k : Nat} {s' : St Val Store}
    (h : Steps e k (startSt v F.codeStart.toInt []) s') (hf : s'.th.finished = true) :
    ∃ s1, v.callInit e = .ok (!s1.th.hasError, leftBy (stOf s1) s1.th) ∧ s1.after = [] ∧
      (s1 = s' ∨ Going s1) := by
  cases k with
  | zero => cases h; cases hf
  | succ k =>
    rcases resumeLoop_run R.mem R.handlers 8191 k _ s' h rfl with
      ⟨j, s1, b, hj, hn', h3, h4, h5⟩ | ⟨hk, h3, h4, h5⟩
    · refine ⟨s1, ?_, loop_alone R.mem R.handlers hiso hv h5, ?_⟩
      · rw [callInit_eq R.mem R.handlers hiso hF ha hv, h5]
      · by_cases hg : Going s1
        · exact .inr hg
        · exact .inl (h4.stuck hg).2
    · rw [h3] at hf; cases hf

/-- C49: `call_init` on a machine without threads runs the initialisers in a new thread `t`.  If their
evaluation in the order of the declarations ends, with the state `w`, then it returns true, and when
`t` has finished the machine is in this state.  (`call_init` runs at most 8192 instructions and stops
at a `wait`; otherwise `t` is left to go on later.) -/
theorem C49_value (hc : Compiles L opt p q prog) (hi : ∀ x ∈ p, x.declName ≠ initName)
    (hq : cx.prog = q) (R : Running e cx prog) (hiso : HostPres OthersUntouched e)
    (v : VmState Val Store) (hv : v.threads = []) {n : Nat} {w : State}
    (hr : startUp cx (ownSlots q) n (callState v) = .ok () w) :
    ∃ w' t, v.callInit e = .ok (true, leftBy w' t) ∧ w'.after = [] ∧ t.error = .success ∧
      (t.finished = true → w' = w) := by
  obtain ⟨F, hF, ha, h⟩ := hc.initEntry hi hq R
  have h := h v n
  rw [hr] at h
  obtain ⟨k, s', h1, h2⟩ := h
  have hf : s'.th.finished = true := by rw [h2.finished]; rfl
  obtain ⟨s1, h3, h4, h5⟩ := callInit_part R hiso hF ha hv h1 hf
  have he : s1.th.error = .success := by
    rcases h5 with rfl | h5
    · exact h2.error
    · exact h5.2
  refine ⟨stOf s1, s1.th, ?_, h4, he, fun hfin => ?_⟩
  · rw [h3]; simp [Thread.hasError, he]
  · rcases h5 with rfl | h5
    · exact h2.state
    · rw [h5.1] at hfin; cases hfin

/-- C49: an initialiser that ends with an error makes `call_init` return false, unless it was
interrupted before. -/
theorem C49_error (hc : Compiles L opt p q prog) (hi : ∀ x ∈ p, x.declName ≠ initName)
    (hq : cx.prog = q) (R : Running e cx prog) (hiso : HostPres OthersUntouched e)
    (v : VmState Val Store) (hv : v.threads = []) {n : Nat} {x : TErr} {w : State} (hx : x ≠ .success)
    (hr : startUp cx (ownSlots q) n (callState v) = .err x w) :
    ∃ b w' t, v.callInit e = .ok (b, leftBy w' t) ∧ w'.after = [] ∧
      (if t.finished then b = false ∧ t.error = x ∧ w' = w else b = true) := by
  obtain ⟨F, hF, ha, h⟩ := hc.initEntry hi hq R
  have h := h v n
  rw [hr] at h
  obtain ⟨k, s', h1, h2⟩ := h
  obtain ⟨s1, h3, h4, h5⟩ := callInit_part R hiso hF ha hv h1 h2.finished
  refine ⟨_, stOf s1, s1.th, h3, h4, ?_⟩
  rcases h5 with rfl | h5
  · rw [if_pos h2.finished]
    exact ⟨by simpa [Thread.hasError, h2.error] using hx, h2.error, h2.state⟩
  · rw [if_neg (by rw [h5.1]; decide)]
    simp [Thread.hasError, h5.2]

/-- C49: the evaluation of the initialisers that needs more than 8192 rounds or nested calls is not
finished when `call_init` returns. -/
theorem C49_long (hc : Compiles L opt p q prog) (hi : ∀ x ∈ p, x.declName ≠ initName)
    (hq : cx.prog = q) (R : Running e cx prog) (hiso : HostPres OthersUntouched e)
    (v : VmState Val Store) (hv : v.threads = [])
    (hr : startUp cx (ownSlots q) 8192 (callState v) = .timeout) :
    ∃ w' t, v.callInit e = .ok (true, leftBy w' t) ∧ w'.after = [] ∧ t.error = .success ∧
      t.finished = false := by
  obtain ⟨F, hF, ha, h⟩ := hc.initEntry hi hq R
  have h := h v 8192
  rw [hr] at h
  obtain ⟨s', h1⟩ := h
  rcases resumeLoop_run R.mem R.handlers 8191 8192 _ s' h1 rfl with
      ⟨j, s1, b, hj, hn', h3, h4, h5⟩ | ⟨hk, _⟩
  · have hg : Going s1 := by
      by_cases hg : Going s1
      · exact hg
      · have := (h4.stuck hg).1
        omega
    refine ⟨stOf s1, s1.th, ?_, loop_alone R.mem R.handlers hiso hv h5, hg.2, hg.1⟩
    rw [callInit_eq R.mem R.handlers hiso hF ha hv, h5]
    simp [Thread.hasError, hg.2]
  · omega

/-- C49, the other direction: when `call_init` has run the initialisers to their end, the machine is in
the state in which their evaluation ends, unless the evaluation makes no claim. -/
theorem C49_complete (hc : Compiles L opt p q prog) (hi : ∀ x ∈ p, x.declName ≠ initName)
    (hq : cx.prog = q) (R : Running e cx prog) (hiso : HostPres OthersUntouched e)
    (v : VmState Val Store) (hv : v.threads = []) {b : Bool} {w' : State} {t : Thread Val}
    (hr : v.callInit e = .ok (b, leftBy w' t)) (ha' : w'.after = []) (hb : w'.waits = t.waits)
    (hf : t.finished = true) :
    (startUp cx (ownSlots q) 8192 (callState v) = .ok () w' ∧ b = true) ∨
    (startUp cx (ownSlots q) 8192 (callState v) = .err t.error w' ∧ (b = false ↔ t.error ≠ .success)) ∨
    startUp cx (ownSlots q) 8192 (callState v) = .undef := by
  have same : ∀ (s1 : St Val Store) (b1 : Bool), v.callInit e = .ok (b1, leftBy (stOf s1) s1.th) →
      s1.after = [] → b1 = b ∧ stOf s1 = w' ∧ s1.th = t := by
    intro s1 b1 h1 h2
    rw [hr] at h1
    cases w'
    simp only [leftBy, stOf, Except.ok.injEq, Prod.mk.injEq, VmState.mk.injEq] at h1 ha' hb ⊢
    obtain ⟨h3, h4, h5, h6, h9⟩ := h1
    rw [h2, ha'] at h6
    obtain ⟨h7, h8⟩ := List.append_inj' h6 rfl
    cases h8
    exact ⟨h3.symm, by simp [h4, h5, h7, h2, ha', hb, h9], rfl⟩
  obtain ⟨F, hF, ha, h⟩ := hc.initEntry hi hq R
  have h := h v 8192
  cases hx : startUp cx (ownSlots q) 8192 (callState v) with
  | ok a w =>
    rw [hx] at h
    obtain ⟨k, s', h1, h2⟩ := h
    have hf' : s'.th.finished = true := by rw [h2.finished]; rfl
    obtain ⟨s1, h3, h4, h5⟩ := callInit_part R hiso hF ha hv h1 hf'
    obtain ⟨g1, g2, g3⟩ := same s1 _ h3 h4
    rcases h5 with rfl | h5
    · refine .inl ⟨?_, ?_⟩
      · rw [← g2, h2.state]
      · rw [← g1]; simp [Thread.hasError, h2.error]
    · rw [← g3, h5.1] at hf; cases hf
  | err x w =>
    rw [hx] at h
    obtain ⟨k, s', h1, h2⟩ := h
    obtain ⟨s1, h3, h4, h5⟩ := callInit_part R hiso hF ha hv h1 h2.finished
    obtain ⟨g1, g2, g3⟩ := same s1 _ h3 h4
    rcases h5 with rfl | h5
    · refine .inr (.inl ⟨?_, ?_⟩)
      · rw [← g2, h2.state, ← g3, h2.error]
      · rw [← g1, ← g3]; simp [Thread.hasError]
    · rw [← g3, h5.1] at hf; cases hf
  | fault f =>
    rw [hx] at h
    obtain ⟨k, s', h1, h2, h6⟩ := h
    rw [callInit_eq R.mem R.handlers hiso hF ha hv] at hr
    exfalso
    have one : ∀ m, resumeLoop e (m + 1) s' = .error f ∨ s'.th.halted = true := by
      intro m
      by_cases hh : s'.th.halted = true
      · exact .inr hh
      · left
        rw [resumeLoop, vm_bind_ok (tick_id R.mem _)]
        rw [awake_of (by simpa using hh)] at h6
        rw [vm_bind_error h6]
    cases k with
    | zero =>
      cases h1
      rcases one 8191 with h7 | h7
      · rw [h7] at hr; cases hr
      · cases h7
    | succ k =>
      rcases resumeLoop_run R.mem R.handlers 8191 k _ s' h1 rfl with
        ⟨j, s1, b1, hj, hn', h3, h4, h5⟩ | ⟨hk, h3, h4, h5⟩
      · rw [h5] at hr
        obtain ⟨g1, g2, g3⟩ := same s1 (!s1.th.hasError)
          (by rw [callInit_eq R.mem R.handlers hiso hF ha hv, h5])
          (loop_alone R.mem R.handlers hiso hv h5)
        rw [← g3] at hf
        have hg : ¬ Going s1 := fun hg => by rw [hg.1] at hf; cases hf
        rw [(h4.stuck hg).2] at hg
        exact hg h2
      · rcases one (8191 - k - 1) with h7 | h7
        · rw [show 8191 - k - 1 + 1 = 8191 - k by omega] at h7
          rw [show (8192 : Nat) = 8191 + 1 from rfl, h5, h7] at hr
          cases hr
        · rw [h4] at h7; cases h7
  | timeout =>
    obtain ⟨w2, t2, h1, h2, h3, h4⟩ := C49_long hc hi hq R hiso v hv hx
    rw [hr] at h1
    simp only [leftBy, Except.ok.injEq, Prod.mk.injEq, VmState.mk.injEq, ha', h2] at h1
    obtain ⟨_, _, _, h5, _⟩ := h1
    obtain ⟨_, h8⟩ := List.append_inj' h5 rfl
    cases h8
    rw [hf] at h4; cases h4
  | undef => exact .inr (.inr rfl)

theorem slot_count (hq : cx.prog = q) : cx.slot cx.prog.length = globalCount q := by
  unfold Sem.Ctx.slot globalCount
  rw [List.take_length, hq]
  congr 2

/-- C49: after the initialisers have run there are as many global variables as the program declares
(a program without any leaves those of the machine alone). -/
theorem C49_count (hc : Compiles L opt p q prog) (hi : ∀ x ∈ p, x.declName ≠ initName)
    (hq : cx.prog = q) (R : Running e cx prog) (hiso : HostPres OthersUntouched e)
    (hk : Sem.HostKept cx (globalCount q)) (v : VmState Val Store) (hv : v.threads = [])
    (hg : 0 < globalCount q ∨ v.globals = []) {n : Nat} {w : State}
    (hr : startUp cx (ownSlots q) n (callState v) = .ok () w) :
    ∃ v' t, v.callInit e = .ok (true, v') ∧ v'.threads.getLast? = some t ∧
      (t.finished = true → v'.globals.length = globalCount q) := by
  obtain ⟨w', t, h1, h2, h3, h4⟩ := C49_value hc hi hq R hiso v hv hr
  refine ⟨_, t, h1, by simp [leftBy, h2], fun hf => ?_⟩
  have hs := slot_count hq
  have := Sem.startUp_kept (cx := cx) (by rw [hs]; exact hk) (ownSlots q) n (callState v)
    (by rw [hs]; rcases hg with hg | hg
        · exact .inl hg
        · right; simp [callState, hg])
  rw [hr] at this
  rw [h4 hf]
  rw [← hs]
  exact this

/-- C49: with the right number of global variables no call of a compiled function fails because of a
missing one, and the number stays right. -/
theorem C49_present (hc : Compiles L opt p q prog) (hi : ∀ x ∈ p, x.declName ≠ initName)
    (hq : cx.prog = q) (R : Running e cx prog) (hk : Sem.HostKept cx (globalCount q)) {i : Nat}
    {f : FuncDecl Ref} {F : Function} (hf : q[i]? = some (.func f))
    (hF : prog.findByName f.name.str = some F) (v : VmState Val Store)
    (hg : v.globals.length = globalCount q) (args : List Val) (ha : args.length = f.args.length)
    (ho : handOver v.mem args = none) {fuel : Nat} {r : CallResult Val} {v' : VmState Val Store}
    (hr : v.callOnce e fuel F args = .ok (r, v'))
    (hu : ∀ n, callFn cx (ownSlots q) n i args (callState v) ≠ .undef) :
    v'.globals.length = globalCount q ∧ r ≠ .error .bad_get_global ∧ r ≠ .error .bad_set_global := by
  have hs := slot_count hq
  obtain ⟨n, h⟩ := C27_complete hc hi hq R hf hF v args ha ho hr
  have hk' := Sem.callFn_kept (cx := cx) (by rw [hs]; exact hk) (ownSlots q) n i args (callState v)
    (by rw [hs]; exact hg)
  rcases h with ⟨a, w, t, h1, rfl, rfl⟩ | ⟨x, w, t, h1, rfl, h2⟩ | h1
  · rw [h1, hs] at hk'
    exact ⟨hk', by simp, by simp⟩
  · rw [h1, hs] at hk'
    refine ⟨hk'.1, ?_⟩
    have hm := hk'.2
    rcases h2 with rfl | ⟨_, a, rfl⟩
    · constructor
      · rintro ⟨⟩; cases hm
      · rintro ⟨⟩; cases hm
    · simp
  · exact absurd h1 (hu n)

theorem literal_eval {callF : Sem.CallF} {ρ : Sem.Vars} {x : Expr Ref} {a : Val}
    (h : Sem.literal x = some a) (w : State) : Sem.evalE cx callF ρ x w = .ok a w := by
  cases x <;> first | (cases h; rfl) | cases h

theorem plainInit_literal {t : Token} {x : Expr Ref} {a : Val} (h : Sem.literal x = some a) :
    plainInit (.var t false (some x)) = some a := by
  cases x <;> first | (cases h; rfl) | cases h

theorem initVars_plain (callF : Sem.CallF) : ∀ (post pre : List (Item Ref)) (w : State),
    cx.prog = pre ++ post → PlainInits post →
    w.globals = pre.filterMap plainInit ++ List.replicate (globalCount post) .none →
    (pre.filterMap plainInit).length = globalCount pre →
    Sem.initVars cx callF pre.length post w =
      .ok () { w with globals := (pre ++ post).filterMap plainInit } := by
  intro post
  induction post with
  | nil =>
    intro pre w _ _ hw _
    simp only [Sem.initVars, List.append_nil]
    simp only [globalCount, List.filter_nil, List.length_nil, List.replicate_zero, List.append_nil] at hw
    rw [← hw]
  | cons x post ih =>
    intro pre w hp hl hw hn
    have hl' : PlainInits post := fun t x hx => hl t x (List.mem_cons_of_mem _ hx)
    have step := fun w => ih (pre ++ [x]) w (by rw [hp]; simp) hl'
    rw [List.length_append, List.append_assoc] at step
    simp only [List.length_cons, List.length_nil, Nat.zero_add, List.singleton_append,
      List.filterMap_append, List.length_append] at step
    have hcnt : ∀ x : Item Ref, globalCount (pre ++ [x]) = globalCount pre + globalCount [x] := by
      intro x; simp [globalCount, List.filter_append]
    have hcns : ∀ x : Item Ref, globalCount (x :: post) = globalCount [x] + globalCount post := by
      intro x
      rw [← List.singleton_append]
      simp only [globalCount, List.filter_append, List.length_append]
    rw [hcnt] at step
    rw [hcns] at hw
    simp only [List.filterMap_append]
    have skip : plainInit x = none → globalCount [x] = 0 →
        Sem.initVars cx callF (pre.length + 1) post w = .ok () { w with
          globals := pre.filterMap plainInit ++ (x :: post).filterMap plainInit } := by
      intro h1 h2
      refine step w ?_ ?_
      · simpa [h1, h2] using hw
      · simpa [h1, h2] using hn
    cases x with
    | func f => exact skip rfl rfl
    | syscall n k => exact skip rfl rfl
    | var t c init =>
      cases c with
      | true => exact skip rfl rfl
      | false =>
        have h1 : globalCount [(.var t false init : Item Ref)] = 1 := rfl
        rw [h1, Nat.add_comm, List.replicate_succ] at hw
        cases init with
        | none =>
          exact step w (by simpa [plainInit] using hw) (by simp [plainInit, hn, h1])
        | some y =>
          obtain ⟨a, hy⟩ := hl t y List.mem_cons_self
          have hslot : cx.slot pre.length = globalCount pre := by
            unfold Sem.Ctx.slot globalCount
            rw [hp, List.take_left]
            congr 2
          simp only [Sem.initVars, literal_eval hy, Sem.Res.bind, Sem.Ctx.set]
          have hat : cx.prog[pre.length]? = some (.var t false (some y)) := by
            rw [hp, List.getElem?_append_right (Nat.le_refl _)]
            simp
          rw [hat]
          dsimp only
          rw [if_pos (by rw [hslot, hw, ← hn]; simp)]
          dsimp only
          have hset : w.globals.set (cx.slot pre.length) a =
              List.filterMap plainInit pre ++ a :: List.replicate (globalCount post) .none := by
            rw [hslot, ← hn, hw, List.set_append_right _ _ (Nat.le_refl _)]
            simp
          rw [hset]
          have := step { w with
            globals := List.filterMap plainInit pre ++ a :: List.replicate (globalCount post) .none }
            (by simp [plainInit_literal hy]) (by simp [plainInit_literal hy, hn, h1])
          exact this

/-- C49: when all initialisers are literals, starting gives exactly these values in the order of the
declarations, and `none` for the variables without initialiser. -/
theorem C49_literals (hq : cx.prog = q) (hl : PlainInits q) (zi : Nat → Ref → Bool) (n : Nat) (w : State)
    (hg : 0 < globalCount q ∨ w.globals = []) :
    startUp cx zi n w = .ok () { w with globals := q.filterMap plainInit } := by
  have hs := slot_count hq
  unfold startUp
  rw [hs]
  have h0 : globalCount q = 0 → ∀ x ∈ q, plainInit x = none := by
    intro h x hx
    unfold globalCount at h
    have := List.eq_nil_of_length_eq_zero h
    rw [List.filter_eq_nil_iff] at this
    have := this x hx
    cases x with
    | var t c i => cases c <;> first | rfl | simp at this
    | _ => rfl
  have key := initVars_plain (cx := cx) (callFn cx zi n) q [] (if globalCount q = 0 then w else
    { w with globals := List.replicate (globalCount q) .none }) (by simp [hq]) hl (by
      split
      · rename_i h
        rcases hg with hg | hg
        · omega
        · simp [hg, h]
      · simp) rfl
  simp only [List.length_nil, List.nil_append] at key
  rw [hq, key]
  split <;> rfl

end

/-! ### Examples

    var a = 7
    var b
    var c = twice(a)
    function twice(x)
      a = a + 1
      return x + x
    end

and a program whose initialiser does not end. -/

/-- The first program. -/
def startTree : Prog Unit :=
  [.var (nm "a") false (some (lit 7)), .var (nm "b") false none,
   .var (nm "c") false (some (.call (nm "twice") (ix "twice") [ix "a"])),
   .func { name := nm "twice", args := [nm "x"], stop := tk .END "end", body := [
     .assign (nm "a") () (.bin (tk .ADD "+") (ix "a") (lit 1)),
     .ret (tk .RETURN "return") (some (.bin (tk .ADD "+") (ix "x") (ix "x")))] }]

/-- The second program. -/
def slowTree : Prog Unit :=
  [.var (nm "a") false (some (.call (nm "spin") (ix "spin") [lit 1])), .func spinDecl]

theorem startTree_ok : compilesB startTree = true := by decide +kernel
theorem slowTree_ok : compilesB slowTree = true := by decide +kernel

/-- A new machine. -/
def blankVm : VmState Val Store := ⟨[], [], [], Io.fresh⟩

theorem okU_of_check {r : Res Unit} {P : State → Bool}
    (h : (match r with | .ok _ w => P w | _ => false) = true) : ∃ w, r = .ok () w ∧ P w = true := by
  split at h
  · exact ⟨_, rfl, h⟩
  · cases h

example : ∃ w t, blankVm.callInit (envOf startTree) = .ok (true, leftBy w t) ∧
    t.finished = true ∧ w.globals = [.int 8, .none, .int 14] := by
  obtain ⟨h1, h2, h3⟩ := compiled startTree_ok
  obtain ⟨w, hw, hg⟩ := okU_of_check (r := startUp (ctxOf startTree) (ownSlots (treeOf startTree)) 10
    (callState blankVm)) (P := fun w => w.globals == [.int 8, .none, .int 14]) (by decide +kernel)
  obtain ⟨w', t, g1, g2, g3, g4⟩ := C49_value h1 h2 rfl h3 (C39_builtins_isolated _ _ _) blankVm rfl hw
  have hf : ∀ r, blankVm.callInit (envOf startTree) = .ok r → (r.2.threads.getLast?.map (·.finished)) = some true := by
    have : (match blankVm.callInit (envOf startTree) with
      | .ok r => decide ((r.2.threads.getLast?.map (·.finished)) = some true) | .error _ => true) = true := by
      decide +kernel
    intro r hr
    rw [hr] at this
    simpa using this
  have hf := hf _ g1
  simp only [leftBy, g2, List.getLast?_append, List.getLast?_singleton, Option.some_or, Option.map_some,
    Option.some.injEq] at hf
  refine ⟨w', t, g1, hf, ?_⟩
  rw [g4 hf]
  simpa using hg

theorem slow_shape : ∃ t t1 t2 f u u' l1 l2, treeOf slowTree =
    [.var t false (some (.call t1 (.ident t2 (.item 1)) [.int 1 l1 l2])), .func f] ∧
    f.args.length = 1 ∧ f.body = [.whileS u (.ident u' (.arg 0)) []] := by
  have h : (match treeOf slowTree with
      | [.var _ false (some (.call _ (.ident _ (.item 1)) [.int 1 _ _])), .func f] =>
        f.args.length == 1 && (match f.body with
          | [.whileS _ (.ident _ (.arg 0)) []] => true
          | _ => false)
      | _ => false) = true := by decide +kernel
  split at h
  · rename_i f h1
    rw [Bool.and_eq_true] at h
    obtain ⟨h2, h3⟩ := h
    split at h3
    · rename_i h4
      exact ⟨_, _, _, f, _, _, _, _, h1, by simpa using h2, h4⟩
    · cases h3
  · cases h

theorem slow_any {cx : Sem.Ctx} {t t1 t2 u u' : Token} {f : FuncDecl Ref} {l1 : Option Token} {l2 : Option Nat}
    (hp : cx.prog = [.var t false (some (.call t1 (.ident t2 (.item 1)) [.int 1 l1 l2])), .func f])
    (h2 : f.args.length = 1) (h3 : f.body = [.whileS u (.ident u' (.arg 0)) []]) (zi : Nat → Ref → Bool)
    (n : Nat) (w : State) : startUp cx zi (n + 1) w = .timeout := by
  have h0 : cx.prog[1]? = some (.func f) := by rw [hp]; rfl
  have hl : (Sem.Vars.leave (Sem.params [Val.int 1]) (Sem.params [Val.int 1])) = Sem.params [.int 1] := by
    funext r
    unfold Sem.Vars.leave
    cases r with
    | arg i => cases i <;> rfl
    | _ => rfl
  have hcall : ∀ w, callFn cx zi (n + 1) 1 [.int 1] w = .timeout := by
    intro w
    simp only [callFn, h0, h2, List.length_singleton, if_true, h3, Sem.evalB, Sem.evalS]
    rw [loop_spin]
    · rfl
    · simp [Sem.evalE, Sem.Ctx.ident, Sem.params, Sem.Res.bind, Sem.look, Val.view, Sem.truth]
    · simp only [Sem.Res.bind, Sem.Flow.leave, hl]
  have hat : cx.funAt (cx.funAddr 1) = some 1 := by
    unfold Sem.Ctx.funAt
    simp [hp, List.range_succ]
  have key : ∀ w1, Sem.initVars cx (callFn cx zi (n + 1)) 0 cx.prog w1 = .timeout := by
    intro w1
    rw [hp]
    simp only [Sem.initVars, Sem.evalE, Sem.evalEs, Sem.Res.bind, Sem.Ctx.ident, h0, apply_func hat h0,
      h2, List.length_singleton, if_true, hcall]
  exact key _

theorem slow_timeout (w : State) : startUp (ctxOf slowTree) (ownSlots (treeOf slowTree)) 8192 w = .timeout := by
  obtain ⟨t, t1, t2, f, u, u', l1, l2, h1, h2, h3⟩ := slow_shape
  exact slow_any (cx := ctxOf slowTree) h1 h2 h3 _ 8191 w

/-- The initialiser is still running when `call_init` returns true. -/
example : ∃ w t, blankVm.callInit (envOf slowTree) = .ok (true, leftBy w t) ∧ w.after = [] ∧
    t.error = .success ∧ t.finished = false := by
  obtain ⟨h1, h2, h3⟩ := compiled slowTree_ok
  exact C49_long h1 h2 rfl h3 (C39_builtins_isolated _ _ _) blankVm rfl (slow_timeout _)

example : startUp sampleCtx (ownSlots sampleQ) 3 (callState blankVm) =
    .ok () { callState blankVm with globals := [.int 5] } := by
  have hl : PlainInits sampleQ := by
    intro t x hx
    have h : ∀ y ∈ sampleQ, (match y with
        | .var _ false (some x) => (Sem.literal x).isSome | _ => true) = true := by decide +kernel
    have := h _ hx
    exact Option.isSome_iff_exists.1 this
  have h2 : sampleQ.filterMap plainInit = [.int 5] := by decide +kernel
  have := C49_literals (cx := sampleCtx) (q := sampleQ) rfl hl (ownSlots sampleQ) 3 (callState blankVm) (.inr rfl)
  rw [h2] at this
  exact this

example : Sem.HostKept sampleCtx (globalCount sampleQ) := Sem.builtins_kept rfl _

end Ccml.Props
