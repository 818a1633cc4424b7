import Verif.SrcFits
import Verif.Props.Startup
import Verif.Props.Refine
/-!
C57: compiled programs do what their source says.
-/
namespace Ccml.Props
open Sem (State Res handOver)

/-! ### Specification

What the source says is `Src.call` and `Src.startUp` (Verif/Src.lean): an evaluator on the tree of the
parser that looks names up in the blocks around their use. -/

/-- The surroundings in which the source is read: function values are addresses in the code, host
functions are the built-in ones and those a driver binds to `names`. -/
def srcCtx (p : Prog Unit) (prog : Program) (fl : FloatOps) (names : List (Str × HostFn) := driverMap) : Src.Ctx where
  prog := p
  fl := fl
  funAddr i :=
    match p[i]? with
    | some x => ((prog.findByName x.declName).map (·.codeStart)).getD 0
    | none => 0
  table := (resolveWith names prog).syscalls
  host := Sem.builtins fl (resolveWith names prog)

/-- The programs the theorems are about. -/
structure Ordinary (opt : Bool) (p : Prog Unit) : Prop where
  /-- no `else` branch mentions a name its `then` branch declares (see `C18_violated`) -/
  apart : ElseApart p
  /-- with the optimiser: no `if` tests just a constant (see `C23_violated`) -/
  ifs : opt = true → Src.PlainIfs p
  /-- `@init` is not a name scripts can write -/
  names : ∀ x ∈ p, x.declName ≠ initName
  /-- fewer than 2^31 declarations, and fewer than 2^31 arguments and variables in each function -/
  small : Src.Small p

/-! ### Proofs -/

theorem compile_ok {L : Layout} {opt : Bool} {p : Prog Unit} {prog : Program} :
    compile L opt p = .ok prog ↔ ∃ q, Compiles L opt p q prog := by
  unfold compile Compiles
  constructor
  · intro h
    split at h
    · cases h
    · rename_i q0 h0
      split at h
      · cases h
      · rename_i q h1
        refine ⟨q, q0, h0, h1, ?_⟩
        unfold liftC at h
        split at h
        · rename_i h2; cases h; exact h2
        · cases h
  · rintro ⟨q, q0, h0, h1, h2⟩
    simp only [h0, h1, h2, liftC]

section
variable {L : Layout} {opt : Bool} {p : Prog Unit} {q : Prog Ref} {prog : Program} {names : List (Str × HostFn)}

theorem src_running (hp : Ordinary opt p) (hc : Compiles L opt p q prog) (fl : FloatOps) :
    Running (Env.std (resolveWith names prog) fl Mem.abs) ((srcCtx p prog fl names).on q) prog := by
  have R := std_running (names := names) fl (hp.small.fits hp.apart hc hp.names)
  refine ⟨R.program, R.names, R.mem, R.fl, R.handlers, R.host, ?_, R.tableSmall, R.slots, R.locals⟩
  intro i f F hf hF
  have hn := hc.names.1
  have hf' : q[i]? = some (.func f) := hf
  have h1 : (q.map Item.declName)[i]? = some f.name.str := by rw [List.getElem?_map, hf']; rfl
  rw [hn, List.getElem?_map, Option.map_eq_some_iff] at h1
  obtain ⟨x, hx, hxn⟩ := h1
  show (match p[i]? with
    | some x => ((prog.findByName x.declName).map (·.codeStart)).getD 0
    | none => 0) = F.codeStart
  rw [hx]
  dsimp only
  rw [hxn, hF]
  rfl

theorem follows_eq {α : Type} {r s : Res α} (h : Src.Follows Eq r s) (hr : r ≠ .undef) : s = r := by
  cases r <;> cases s <;> simp_all [Src.Follows]

/-- A call by name that the source gives a meaning, in the tree code is made from. -/
theorem call_compiled_in {cx : Src.Ctx} (hcx : cx.prog = p) (hp : Ordinary opt p) (hc : Compiles L opt p q prog) {n : Nat} (hn : 0 < n)
    {name : Str} {args : List Val} {w : State} (hr : Src.call cx n name args w ≠ .undef) :
    ∃ i f F, q[i]? = some (.func f) ∧ f.name.str = name ∧ args.length = f.args.length ∧
      prog.findByName f.name.str = some F ∧
      Sem.callFn (cx.on q) (ownSlots q) n i args w = Src.call cx n name args w := by
  subst hcx
  have hc' := hc
  obtain ⟨q0, h1, h2, h3⟩ := hc
  unfold Src.call at hr ⊢
  cases hg : cx.global name with
  | none => rw [hg] at hr; exact absurd rfl hr
  | some i =>
    rw [hg] at hr
    dsimp only at hr ⊢
    have hf := (Src.source_follows (cx := cx) h1 hp.apart h2 hp.ifs (ownSlots q) n).1 i args w
    have he := follows_eq hf hr
    obtain ⟨n, rfl⟩ : ∃ m, n = m + 1 := ⟨n - 1, by omega⟩
    have hne : Sem.callFn (cx.on q) (ownSlots q) (n + 1) i args w ≠ .undef := by rw [he]; exact hr
    rw [Sem.callFn] at hne
    split at hne
    · rename_i f hqf
      split at hne
      · rename_i ha
        have hqf' : q[i]? = some (.func f) := hqf
        have hname : f.name.str = name := by
          have hg' : cx.prog.findIdx? (fun x => x.declName == name) = some i := hg
          obtain ⟨g1, g2, _⟩ := List.findIdx?_eq_some_iff_getElem.1 hg'
          have h1 : (q.map Item.declName)[i]? = some f.name.str := by rw [List.getElem?_map, hqf']; rfl
          rw [hc'.names.1, List.getElem?_map, List.getElem?_eq_getElem g1] at h1
          have h4 := Option.some.inj h1
          rw [← h4]
          simpa using g2
        obtain ⟨F, k1, _⟩ := hc'.entry hp.names hqf'
        exact ⟨i, f, F, hqf', hname, ha, k1, he⟩
      · exact absurd rfl hne
    · exact absurd rfl hne

theorem call_compiled (hp : Ordinary opt p) (hc : Compiles L opt p q prog) (fl : FloatOps) {n : Nat} (hn : 0 < n)
    {name : Str} {args : List Val} {w : State} (hr : Src.call (srcCtx p prog fl names) n name args w ≠ .undef) :
    ∃ i f F, q[i]? = some (.func f) ∧ f.name.str = name ∧ args.length = f.args.length ∧
      prog.findByName f.name.str = some F ∧
      Sem.callFn ((srcCtx p prog fl names).on q) (ownSlots q) n i args w = Src.call (srcCtx p prog fl names) n name args w :=
  call_compiled_in rfl hp hc hn hr

theorem src_start (hp : Ordinary opt p) (hc : Compiles L opt p q prog) (fl : FloatOps) (n : Nat) {w : State}
    (hr : Src.startUp (srcCtx p prog fl names) n w ≠ .undef) :
    Sem.startUp ((srcCtx p prog fl names).on q) (ownSlots q) n w = Src.startUp (srcCtx p prog fl names) n w := by
  obtain ⟨q0, h1, h2, h3⟩ := hc
  exact follows_eq ((Src.source_follows (cx := srcCtx p prog fl names) h1 hp.apart h2 hp.ifs (ownSlots q) n).2 w) hr

/-! ### C57 -/

/-- C57: the source says that calling `name` returns `r` and leaves the state `w`.  Then the compiled
program has this function, and `call_once` on it returns `r` and leaves `w`. -/
theorem C57_value_partial (hc : compile L opt p = .ok prog) (hp : Ordinary opt p) (fl : FloatOps)
    (v : VmState Val Store) {name : Str} {args : List Val} (ho : handOver v.mem args = none) {n : Nat} {r : Val}
    {w : State} (hr : Src.call (srcCtx p prog fl names) n name args (callState v) = .ok r w) :
    ∃ F, prog.findByName name = some F ∧ ∃ m t, t.finished = true ∧ ∀ fuel, m ≤ fuel →
      v.callOnce (Env.std (resolveWith names prog) fl Mem.abs) fuel F args = .ok (.value r, leftBy w t) := by
  obtain ⟨q, hc⟩ := compile_ok.1 hc
  cases n with
  | zero => unfold Src.call Src.callFn at hr; split at hr <;> cases hr
  | succ n =>
    obtain ⟨i, f, F, k1, rfl, k3, k4, k5⟩ := call_compiled hp hc fl (n := n + 1) (by omega) (by rw [hr]; nofun)
    exact ⟨F, k4, C27_value hc hp.names rfl (src_running hp hc fl) k1 k4 v args k3 ho (k5.trans hr)⟩

/-- C57: likewise for a call that ends with an error. -/
theorem C57_error_partial (hc : compile L opt p = .ok prog) (hp : Ordinary opt p) (fl : FloatOps)
    (v : VmState Val Store) {name : Str} {args : List Val} (ho : handOver v.mem args = none) {n : Nat} {x : TErr}
    {w : State} (hx : x ≠ .success)
    (hr : Src.call (srcCtx p prog fl names) n name args (callState v) = .err x w) :
    ∃ F, prog.findByName name = some F ∧ ∃ m t, t.error = x ∧ ∀ fuel, m ≤ fuel →
      v.callOnce (Env.std (resolveWith names prog) fl Mem.abs) fuel F args = .ok (.error x, leftBy w t) := by
  obtain ⟨q, hc⟩ := compile_ok.1 hc
  cases n with
  | zero => unfold Src.call Src.callFn at hr; split at hr <;> cases hr
  | succ n =>
    obtain ⟨i, f, F, k1, rfl, k3, k4, k5⟩ := call_compiled hp hc fl (n := n + 1) (by omega) (by rw [hr]; nofun)
    exact ⟨F, k4, C27_error hc hp.names rfl (src_running hp hc fl) k1 k4 v args k3 ho hx (k5.trans hr)⟩

/-- C57: what stops the evaluation of the source (a failed assertion, undefined behaviour of the C++
operators) stops the machine in the same way. -/
theorem C57_fault_partial (hc : compile L opt p = .ok prog) (hp : Ordinary opt p) (fl : FloatOps)
    (v : VmState Val Store) {name : Str} {args : List Val} (ho : handOver v.mem args = none) {n : Nat} {x : Fault}
    (hr : Src.call (srcCtx p prog fl names) n name args (callState v) = .fault x) :
    ∃ F, prog.findByName name = some F ∧ ∃ m, ∀ fuel, m ≤ fuel →
      v.callOnce (Env.std (resolveWith names prog) fl Mem.abs) fuel F args = .error x := by
  obtain ⟨q, hc⟩ := compile_ok.1 hc
  cases n with
  | zero => unfold Src.call Src.callFn at hr; split at hr <;> cases hr
  | succ n =>
    obtain ⟨i, f, F, k1, rfl, k3, k4, k5⟩ := call_compiled hp hc fl (n := n + 1) (by omega) (by rw [hr]; nofun)
    exact ⟨F, k4, C27_fault hc hp.names rfl (src_running hp hc fl) k1 k4 v args k3 ho (k5.trans hr)⟩

/-- C57: a call whose evaluation needs more than `n` rounds of a loop or nested calls does not come
back within as many instructions. -/
theorem C57_long_partial (hc : compile L opt p = .ok prog) (hp : Ordinary opt p) (fl : FloatOps)
    (v : VmState Val Store) {name : Str} {args : List Val} (ho : handOver v.mem args = none) {n : Nat}
    (hr : Src.call (srcCtx p prog fl names) n name args (callState v) = .timeout) (fuel : Nat)
    (hn : 131072 * fuel < n) :
    ∃ F, prog.findByName name = some F ∧
      v.callOnce (Env.std (resolveWith names prog) fl Mem.abs) fuel F args = .error .diverge := by
  obtain ⟨q, hc⟩ := compile_ok.1 hc
  obtain ⟨i, f, F, k1, rfl, k3, k4, k5⟩ := call_compiled hp hc fl (n := n) (by omega) (by rw [hr]; nofun)
  exact ⟨F, k4, C27_long hc hp.names rfl (src_running hp hc fl) k1 k4 v args k3 ho (k5.trans hr) fuel hn⟩

/-- C57: a call that the source says goes on for ever does. -/
theorem C57_diverges_partial (hc : compile L opt p = .ok prog) (hp : Ordinary opt p) (fl : FloatOps)
    (v : VmState Val Store) {name : Str} {args : List Val} (ho : handOver v.mem args = none)
    (hr : ∀ n, Src.call (srcCtx p prog fl names) n name args (callState v) = .timeout) :
    ∃ F, prog.findByName name = some F ∧ ∀ fuel,
      v.callOnce (Env.std (resolveWith names prog) fl Mem.abs) fuel F args = .error .diverge := by
  obtain ⟨F, hF, _⟩ := C57_long_partial hc hp fl v ho (hr 1) 0 (by omega)
  refine ⟨F, hF, fun fuel => ?_⟩
  obtain ⟨F', hF', h⟩ := C57_long_partial hc hp fl v ho (hr (131072 * fuel + 1)) fuel (by omega)
  rw [hF] at hF'
  cases hF'
  exact h

/-- C57, the other direction: whatever `call_once` gives back for a function of the program is what the
source says, unless the source makes no claim about this call. -/
theorem C57_complete_partial (hc : compile L opt p = .ok prog) (hp : Ordinary opt p) (fl : FloatOps)
    (v : VmState Val Store) {name : Str} {args : List Val} (ho : handOver v.mem args = none) {F : Function}
    (hF : prog.findByName name = some F) {fuel : Nat} {r : CallResult Val} {v' : VmState Val Store}
    (hr : v.callOnce (Env.std (resolveWith names prog) fl Mem.abs) fuel F args = .ok (r, v')) :
    ∃ n, (∃ a w t, Src.call (srcCtx p prog fl names) n name args (callState v) = .ok a w ∧ r = .value a ∧
        v' = leftBy w t) ∨
      (∃ x w t, Src.call (srcCtx p prog fl names) n name args (callState v) = .err x w ∧ v' = leftBy w t ∧
        (r = .error x ∨ (x = .success ∧ ∃ a, r = .value a))) ∨
      Src.call (srcCtx p prog fl names) n name args (callState v) = .undef := by
  obtain ⟨q, hc⟩ := compile_ok.1 hc
  by_cases hu : ∃ n, Src.call (srcCtx p prog fl names) n name args (callState v) = .undef
  · obtain ⟨n, hu⟩ := hu
    exact ⟨n, .inr (.inr hu)⟩
  · have hu : ∀ n, Src.call (srcCtx p prog fl names) n name args (callState v) ≠ .undef := fun n h => hu ⟨n, h⟩
    obtain ⟨i, f, F', k1, k2, k3, k4, k5⟩ := call_compiled hp hc fl (n := 1) (by omega) (hu 1)
    have hF' : prog.findByName f.name.str = some F := by rw [k2]; exact hF
    obtain ⟨n, h⟩ := C27_complete hc hp.names rfl (src_running hp hc fl) k1 hF' v args k3 ho hr
    refine ⟨n, ?_⟩
    cases n with
    | zero =>
      rcases h with ⟨a, w, t, h, _⟩ | ⟨a, w, t, h, _⟩ | h <;> (rw [Sem.callFn] at h; cases h)
    | succ n =>
      obtain ⟨j, g, F2, m1, m2, m3, m4, m5⟩ := call_compiled hp hc fl (n := n + 1) (by omega) (hu _)
      have hij : j = i := by
        have hn := hc.names.2.1
        have a1 : (q.map Item.declName)[i]? = some name := by rw [List.getElem?_map, k1]; exact congrArg some k2
        have a2 : (q.map Item.declName)[j]? = some name := by rw [List.getElem?_map, m1]; exact congrArg some m2
        exact (List.getElem?_inj (List.getElem?_eq_some_iff.1 a2).1 hn).1 (a2.trans a1.symm)
      subst hij
      rw [m5] at h
      exact h

/-- C57: the source says that the initialisers of the global variables leave the state `w`.  Then
`call_init` on a machine without threads returns true, and if its thread has run to its end the state is
`w`.  (`call_init` runs at most 8192 instructions and stops at a `wait`; then the thread is left to go on
later.) -/
theorem C57_start_partial (hc : compile L opt p = .ok prog) (hp : Ordinary opt p) (fl : FloatOps)
    (v : VmState Val Store) (hv : v.threads = []) {n : Nat} {w : State}
    (hr : Src.startUp (srcCtx p prog fl names) n (callState v) = .ok () w) :
    ∃ w' t, v.callInit (Env.std (resolveWith names prog) fl Mem.abs) = .ok (true, leftBy w' t) ∧
      w'.after = [] ∧ t.error = .success ∧ (t.finished = true → w' = w) := by
  obtain ⟨q, hc⟩ := compile_ok.1 hc
  refine C49_value hc hp.names rfl (src_running hp hc fl) (C39_builtins_isolated _ _ _) v hv (n := n) ?_
  rw [src_start hp hc fl n (by rw [hr]; nofun), hr]

/-- C57: an initialiser that the source says ends with an error. -/
theorem C57_start_error_partial (hc : compile L opt p = .ok prog) (hp : Ordinary opt p) (fl : FloatOps)
    (v : VmState Val Store) (hv : v.threads = []) {n : Nat} {x : TErr} {w : State} (hx : x ≠ .success)
    (hr : Src.startUp (srcCtx p prog fl names) n (callState v) = .err x w) :
    ∃ b w' t, v.callInit (Env.std (resolveWith names prog) fl Mem.abs) = .ok (b, leftBy w' t) ∧ w'.after = [] ∧
      (if t.finished then b = false ∧ t.error = x ∧ w' = w else b = true) := by
  obtain ⟨q, hc⟩ := compile_ok.1 hc
  refine C49_error hc hp.names rfl (src_running hp hc fl) (C39_builtins_isolated _ _ _) v hv (n := n) hx ?_
  rw [src_start hp hc fl n (by rw [hr]; nofun), hr]

/-! ### On the collected heap -/

/-- The value the host makes for an argument; arrays cannot be made by the host. -/
def hostVal : View → Option Val
  | .none => some .none
  | .int v => some (.int v)
  | .float v => some (.float v)
  | .str s => some (.str s)
  | .func v => some (.func v)
  | .syscall v => some (.syscall v)
  | .arr _ => none

/-- The values the host makes for the arguments of a call. -/
def hostVals : List View → Option (List Val)
  | [] => some []
  | x :: xs =>
    match hostVal x, hostVals xs with
    | some v, some vs => some (v :: vs)
    | _, _ => none

theorem hostVals_made {prog : Program} {fl : FloatOps} (m : Store) : ∀ {xs : List View} {vs : List Val},
    hostVals xs = some vs → hostValues (Env.std prog fl Mem.abs) m xs = .ok (vs, m) ∧ handOver m vs = none
  | [], vs, h => by cases h; exact ⟨rfl, rfl⟩
  | x :: xs, vs, h => by
    rw [hostVals] at h
    split at h
    · rename_i v vs' h1 h2
      cases h
      obtain ⟨g1, g2⟩ := hostVals_made (prog := prog) (fl := fl) m h2
      have g3 : hostValue (Env.std prog fl Mem.abs) m x = .ok (v, m) := by
        cases x <;> cases h1 <;> rfl
      refine ⟨?_, ?_⟩
      · rw [hostValues, g3]
        dsimp only
        rw [g1]
      · cases x <;> cases h1 <;> simp only [handOver, Val.view, g2]
    · cases h

theorem session_append {P M : Type} (e : Env P M) : ∀ (ops ops' : List HostOp) (v : VmState P M) {os v1},
    session e v ops = (os, .ok v1) →
    session e v (ops ++ ops') = (os ++ (session e v1 ops').1, (session e v1 ops').2)
  | [], ops', v, os, v1, h => by cases h; rfl
  | op :: ops, ops', v, os, v1, h => by
    rw [session] at h
    rw [List.cons_append, session]
    split at h
    · cases h
    · rename_i o v2 h2
      dsimp only at h ⊢
      cases hs : session e v2 ops with
      | mk os2 r =>
        rw [hs] at h
        cases h
        rw [session_append e ops ops' v2 hs]
        rfl

/-- C57 on the collected heap: after any calls of the host, `name` is called with values the host
makes.  `v` is the state the reference machine (which never collects) has got to, and the source says
that the call returns `r` and leaves `w`.  Then on the machine with the collector, whenever that runs,
the call returns the same and leaves the same global variables and threads, looked at through any path of array
elements, unless memory or native stack run out. -/
theorem C57_machine_partial (hc : compile L opt p = .ok prog) (hp : Ordinary opt p) (fl : FloatOps) (depth : Nat)
    (should : Heap → Bool) (hs : CleanProgram prog) {io : Io} {ops : List HostOp} (hops : ∀ op ∈ ops, CleanCall op)
    {os : List HostOut} {v : VmState Val Store}
    (hv : session (Env.std (resolveWith names prog) fl Mem.abs) (newVm io) ops = (os, .ok v)) {name : Str}
    {args : List View} {vals : List Val} (ha : hostVals args = some vals)
    (hz : ∀ x ∈ args, ∀ s, x = .str s → ∀ b ∈ s, b ≠ 0) {n : Nat} {r : Val} {w : State}
    (hr : Src.call (srcCtx p prog fl names) n name vals (callState v) = .ok r w) :
    ∃ F, prog.findByName name = some F ∧ ∃ m, ∀ fuel, m ≤ fuel → ∀ os' out,
      session (Env.std (resolveWith names prog) fl (Mem.gc depth should)) (newHeapVm io) (ops ++ [.call F args fuel]) =
        (os', out) →
      match out with
      | .ok v' => os' = os ++ [.returned (.value (Ccml.peek Mem.abs w.mem r))] ∧
          ∃ t, t.finished = true ∧ v'.seen (Mem.gc depth should) = (leftBy w t).seen Mem.abs
      | .error f => f = .oom ∨ f = .diverge := by
  obtain ⟨g1, g2⟩ := hostVals_made (prog := resolveWith names prog) (fl := fl) v.mem ha
  obtain ⟨F, hF, m, t, ht, h⟩ := C57_value_partial hc hp fl v g2 hr
  refine ⟨F, hF, m, fun fuel hfu os' out hx => ?_⟩
  have hideal : session (Env.std (resolveWith names prog) fl Mem.abs) (newVm io) (ops ++ [.call F args fuel]) =
      (os ++ [.returned (.value (Ccml.peek Mem.abs w.mem r))], .ok (leftBy w t)) := by
    rw [session_append _ _ _ _ hv]
    have : hostStep (Env.std (resolveWith names prog) fl Mem.abs) v (.call F args fuel) =
        .ok (.returned (.value (Ccml.peek Mem.abs w.mem r)), leftBy w t) := by
      unfold hostStep
      dsimp only
      rw [g1]
      show (VmState.callOnce _ fuel v F vals >>= _) = _
      rw [h fuel hfu]
      rfl
    rw [session, this]
    rfl
  have refl : ∀ l : List HostOp, SameCalls l l := fun l => by
    induction l with
    | nil => exact .nil
    | cons a l ih => exact .same a ih
  have key := C45_collections_unobservable (io := io) (resolveWith names prog) fl depth should
    (fun s hs' => hs s hs') (ops ++ [.call F args fuel]) _ (refl _) (by
      intro op hop
      rcases List.mem_append.1 hop with hop | hop
      · exact hops op hop
      · cases List.mem_singleton.1 hop
        exact hz)
  dsimp only at key
  rw [hx, hideal] at key
  cases out with
  | ok v' =>
    obtain ⟨k1, u, k2, k3⟩ := key
    cases k2
    exact ⟨k1, t, ht, k3⟩
  | error f =>
    rcases key with ⟨_, k⟩ | ⟨k, _⟩
    · cases k
    · exact k

end

/-! ### A program the theorems are about

    const base = 2 + 3
    var total = base * 2
    function twice(n)
      return n + n
    end
    function main(k)
      if (k > 2)
        var x = twice(k)
        total = total + x
      else
        var y = 1
        total = total - y
      end
      var g = twice
      return g(total) - base
    end
-/

def srcTree : Prog Unit :=
  [.var (nm "base") true (some (.bin (tk .ADD "+") (lit 2) (lit 3))),
   .var (nm "total") false (some (.bin (tk .MUL "*") (ix "base") (lit 2))),
   .func { name := nm "twice", args := [nm "n"], stop := tk .END "end", body := [
     .ret (tk .RETURN "return") (some (.bin (tk .ADD "+") (ix "n") (ix "n")))] },
   .func { name := nm "main", args := [nm "k"], stop := tk .END "end", body := [
     .ifS (tk .IF "if") (.bin (tk .GT ">") (ix "k") (lit 2))
       [.var (nm "x") () (some (.call (nm "twice") (ix "twice") [ix "k"])),
        .assign (nm "total") () (.bin (tk .ADD "+") (ix "total") (ix "x"))] true
       [.var (nm "y") () (some (lit 1)),
        .assign (nm "total") () (.bin (tk .SUB "-") (ix "total") (ix "y"))],
     .var (nm "g") () (some (ix "twice")),
     .ret (tk .RETURN "return") (some (.bin (tk .SUB "-") (.call (nm "g") (ix "g") [ix "total"]) (ix "base")))] }]

/-- Its code. -/
def srcProg : Program := outOf Program.empty (compile sampleLayout true srcTree)

theorem srcTree_compiles : compile sampleLayout true srcTree = .ok srcProg := outOf_ok (by decide +kernel)

theorem srcTree_ordinary : Ordinary true srcTree := by
  refine ⟨?_, ?_, by decide +kernel, ?_⟩
  · intro f hf
    simp only [srcTree, List.mem_cons, List.not_mem_nil, or_false, reduceCtorEq, false_or] at hf
    rcases hf with hf | hf <;> cases hf <;>
      simp only [ApartB, ApartS, Free, mentionE, mentionEs, mentionO, declared] <;> decide +kernel
  · intro _ f hf
    simp only [srcTree, List.mem_cons, List.not_mem_nil, or_false, reduceCtorEq, false_or] at hf
    rcases hf with hf | hf <;> cases hf <;> decide +kernel
  · refine ⟨by decide +kernel, ?_⟩
    intro f hf
    simp only [srcTree, List.mem_cons, List.not_mem_nil, or_false, reduceCtorEq, false_or] at hf
    rcases hf with hf | hf <;> cases hf <;> decide +kernel

/-- Starting it sets the global variable. -/
example : ∃ w' t, (newVm Io.fresh).callInit (Env.std (driverResolve srcProg) toyFl Mem.abs) = .ok (true, leftBy w' t) ∧
    (t.finished = true → w'.globals = [.int 10]) := by
  have h : (match Src.startUp (srcCtx srcTree srcProg toyFl) 5 (callState (newVm Io.fresh)) with
    | .ok () w => w.globals == [.int 10] | _ => false) = true := by decide +kernel
  split at h
  · rename_i w hw
    obtain ⟨w', t, h1, _, _, h2⟩ := C57_start_partial srcTree_compiles srcTree_ordinary toyFl (newVm Io.fresh) rfl hw
    exact ⟨w', t, h1, fun ht => by rw [h2 ht]; simpa using h⟩
  · cases h

/-- Calling it. -/
example : ∃ F, srcProg.findByName (str "main") = some F ∧ ∃ m w t, w.globals = [.int 18] ∧ ∀ fuel, m ≤ fuel →
    (⟨[], [.int 10], [], Io.fresh⟩ : VmState Val Store).callOnce (Env.std (driverResolve srcProg) toyFl Mem.abs) fuel F
      [.int 4] = .ok (.value (.int 31), leftBy w t) := by
  obtain ⟨w, h, hw⟩ : ∃ w, Src.call (srcCtx srcTree srcProg toyFl) 5 (str "main") [.int 4]
      (callState ⟨[], [.int 10], [], Io.fresh⟩) = .ok (.int 31) w ∧ (w.globals == [.int 18]) = true :=
    ok_of_check (by decide +kernel)
  obtain ⟨F, hF, m, t, _, hm⟩ := C57_value_partial srcTree_compiles srcTree_ordinary toyFl _ (by decide +kernel) h
  exact ⟨F, hF, m, w, t, by simpa using hw, hm⟩

/-- A call that fails: `main(none)`. -/
example : ∃ F, srcProg.findByName (str "main") = some F ∧ ∃ m w t, ∀ fuel, m ≤ fuel →
    (⟨[], [.int 10], [], Io.fresh⟩ : VmState Val Store).callOnce (Env.std (driverResolve srcProg) toyFl Mem.abs) fuel F
      [.none] = .ok (.error .bad_type_operation, leftBy w t) := by
  obtain ⟨w, h⟩ := err_of_check (x := .bad_type_operation) (r := Src.call (srcCtx srcTree srcProg toyFl) 5
    (str "main") [.none] (callState ⟨[], [.int 10], [], Io.fresh⟩)) (by decide +kernel)
  obtain ⟨F, hF, m, t, _, hm⟩ := C57_error_partial srcTree_compiles srcTree_ordinary toyFl _ (by decide +kernel) (by decide) h
  exact ⟨F, hF, m, w, t, hm⟩

/-- A call that overflows. -/
example : ∃ F, srcProg.findByName (str "main") = some F ∧ ∃ m, ∀ fuel, m ≤ fuel →
    (⟨[], [.int 2147483647], [], Io.fresh⟩ : VmState Val Store).callOnce (Env.std (driverResolve srcProg) toyFl Mem.abs)
      fuel F [.int 4] = .error .ub :=
  C57_fault_partial srcTree_compiles srcTree_ordinary toyFl _ (by decide +kernel)
    (fault_of_check (r := Src.call (srcCtx srcTree srcProg toyFl) 5 (str "main") [.int 4]
      (callState ⟨[], [.int 2147483647], [], Io.fresh⟩)) (by decide +kernel))

/-- The reference machine after starting the program. -/
def srcStarted : VmState Val Store :=
  outOf (newVm Io.fresh) (session (Env.std (driverResolve srcProg) toyFl Mem.abs) (newVm Io.fresh) [.init]).2

theorem pair_ok {α β : Type} {ε : Type} {d : β} {x : α × Except ε β} (h : isOk x.2 = true) :
    x = (x.1, .ok (outOf d x.2)) := by
  obtain ⟨a, b⟩ := x
  exact congrArg (Prod.mk a) (outOf_ok h)

/-- Starting and calling it on the collected heap, with collections whenever `should` says so. -/
example (depth : Nat) (should : Heap → Bool) : ∃ os F w, srcProg.findByName (str "main") = some F ∧
    w.globals = [.int 18] ∧ ∃ m, ∀ fuel, m ≤ fuel → ∀ os' out,
      session (Env.std (driverResolve srcProg) toyFl (Mem.gc depth should)) (newHeapVm Io.fresh)
        [.init, .call F [.int 4] fuel] = (os', out) →
      match out with
      | .ok v' => os' = os ++ [.returned (.value (Ccml.peek Mem.abs w.mem (.int 31)))] ∧
          ∃ t, t.finished = true ∧ v'.seen (Mem.gc depth should) = (leftBy w t).seen Mem.abs
      | .error f => f = .oom ∨ f = .diverge := by
  have hv : session (Env.std (driverResolve srcProg) toyFl Mem.abs) (newVm Io.fresh) [.init] =
      ((session (Env.std (driverResolve srcProg) toyFl Mem.abs) (newVm Io.fresh) [.init]).1, .ok srcStarted) :=
    pair_ok (by decide +kernel)
  obtain ⟨w, h, hw⟩ : ∃ w, Src.call (srcCtx srcTree srcProg toyFl) 5 (str "main") [.int 4]
      (callState srcStarted) = .ok (.int 31) w ∧ (w.globals == [.int 18]) = true :=
    ok_of_check (by decide +kernel)
  obtain ⟨F, hF, m, hm⟩ := C57_machine_partial srcTree_compiles srcTree_ordinary toyFl depth should
    (by unfold CleanProgram; decide +kernel) (by simp [CleanCall]) hv (args := [.int 4]) rfl (by simp) h
  exact ⟨_, F, w, hF, by simpa using hw, m, hm⟩

end Ccml.Props
