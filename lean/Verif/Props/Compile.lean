import Verif.SampleProg
import Verif.Props.Refine
/-!
C27: running a compiled program does what the evaluator (Verif/Sem.lean) says.
-/
set_option linter.unusedSimpArgs false
namespace Ccml.Props
open Sem (State Res callFn handOver)

variable {L : Layout} {opt : Bool} {p : Prog Unit} {q : Prog Ref} {prog : Program}
  {e : Env Val Store} {cx : Sem.Ctx}

theorem returned_value {s : St Val Store} {fr : Frame} {v : Val} {w : State}
    (h : Returned fr [] [] v w s) : s.th.finished = true ∧ s.th.hasError = false ∧
      s.th.returnValue e = .ok v ∧ stOf s = w := by
  have hf : s.th.finished = true := by rw [h.finished]; simp
  refine ⟨hf, by simp [Thread.hasError, h.error], ?_, h.state⟩
  unfold Thread.returnValue
  rw [if_pos hf, h.stack]

/-- C27: the host calls a function of a compiled program (`call_once`).  If the evaluation of the
call gives a value, then after enough rounds the machine returns this value, and it leaves the
arrays, the global variables and the other threads as the evaluation does. -/
theorem C27_value (hc : Compiles L opt p q prog) (hi : ∀ x ∈ p, x.declName ≠ initName)
    (hq : cx.prog = q) (R : Running e cx prog) {i : Nat} {f : FuncDecl Ref} {F : Function}
    (hf : q[i]? = some (.func f)) (hF : prog.findByName f.name.str = some F) (v : VmState Val Store)
    (args : List Val) (ha : args.length = f.args.length) (ho : handOver v.mem args = none)
    {n : Nat} {r : Val} {w : State} (hr : callFn cx (ownSlots q) n i args (callState v) = .ok r w) :
    ∃ m t, t.finished = true ∧
      ∀ fuel, m ≤ fuel → v.callOnce e fuel F args = .ok (.value r, leftBy w t) := by
  have h := call_follows hc hi hq R hf hF v args ha n
  rw [hr] at h
  obtain ⟨k, s, h1, h2⟩ := h
  obtain ⟨a, b, c, d⟩ := returned_value (e := e) h2
  obtain ⟨F', g1, _, _, g4, _⟩ := hc.entry hi hf
  rw [hF] at g1
  cases g1
  refine ⟨k + 1, s.th, a, fun fuel hfu => ?_⟩
  rw [callOnce_eq R.mem (by rw [g4, ha]) ho,
    callLoop_done R.mem R.handlers a k _ h1 fuel (by omega)]
  simp only [b, c, d]
  rfl

/-- C27: if the evaluation ends with an error, so does the call, with the same error. -/
theorem C27_error (hc : Compiles L opt p q prog) (hi : ∀ x ∈ p, x.declName ≠ initName)
    (hq : cx.prog = q) (R : Running e cx prog) {i : Nat} {f : FuncDecl Ref} {F : Function}
    (hf : q[i]? = some (.func f)) (hF : prog.findByName f.name.str = some F) (v : VmState Val Store)
    (args : List Val) (ha : args.length = f.args.length) (ho : handOver v.mem args = none)
    {n : Nat} {x : TErr} {w : State} (hx : x ≠ .success)
    (hr : callFn cx (ownSlots q) n i args (callState v) = .err x w) :
    ∃ m t, t.error = x ∧
      ∀ fuel, m ≤ fuel → v.callOnce e fuel F args = .ok (.error x, leftBy w t) := by
  have h := call_follows hc hi hq R hf hF v args ha n
  rw [hr] at h
  obtain ⟨k, s, h1, h2⟩ := h
  obtain ⟨F', g1, _, _, g4, _⟩ := hc.entry hi hf
  rw [hF] at g1
  cases g1
  refine ⟨k + 1, s.th, h2.error, fun fuel hfu => ?_⟩
  rw [callOnce_eq R.mem (by rw [g4, ha]) ho,
    callLoop_done R.mem R.handlers h2.finished k _ h1 fuel (by omega)]
  have : s.th.hasError = true := by simpa [Thread.hasError, h2.error] using hx
  simp only [this, if_true, h2.error, h2.state]

/-- C27: undefined behaviour and failed assertions are those of the evaluation. -/
theorem C27_fault (hc : Compiles L opt p q prog) (hi : ∀ x ∈ p, x.declName ≠ initName)
    (hq : cx.prog = q) (R : Running e cx prog) {i : Nat} {f : FuncDecl Ref} {F : Function}
    (hf : q[i]? = some (.func f)) (hF : prog.findByName f.name.str = some F) (v : VmState Val Store)
    (args : List Val) (ha : args.length = f.args.length) (ho : handOver v.mem args = none)
    {n : Nat} {x : Fault} (hr : callFn cx (ownSlots q) n i args (callState v) = .fault x) :
    ∃ m, ∀ fuel, m ≤ fuel → v.callOnce e fuel F args = .error x := by
  have h := call_follows hc hi hq R hf hF v args ha n
  rw [hr] at h
  obtain ⟨k, s, h1, h2, h3⟩ := h
  obtain ⟨F', g1, _, _, g4, _⟩ := hc.entry hi hf
  rw [hF] at g1
  cases g1
  refine ⟨k + 1, fun fuel hfu => ?_⟩
  rw [callOnce_eq R.mem (by rw [g4, ha]) ho,
    callLoop_fault R.mem R.handlers h2 h3 k _ h1 fuel (by omega)]

/-- C27: an evaluation that needs more than `n` loop rounds or nested calls keeps the machine busy
for more than `n` instructions. -/
theorem C27_long (hc : Compiles L opt p q prog) (hi : ∀ x ∈ p, x.declName ≠ initName)
    (hq : cx.prog = q) (R : Running e cx prog) {i : Nat} {f : FuncDecl Ref} {F : Function}
    (hf : q[i]? = some (.func f)) (hF : prog.findByName f.name.str = some F) (v : VmState Val Store)
    (args : List Val) (ha : args.length = f.args.length) (ho : handOver v.mem args = none)
    {n : Nat} (hr : callFn cx (ownSlots q) n i args (callState v) = .timeout) (fuel : Nat)
    (hn : 131072 * fuel < n) : v.callOnce e fuel F args = .error .diverge := by
  have h := call_follows hc hi hq R hf hF v args ha n
  rw [hr] at h
  obtain ⟨s, h1⟩ := h
  obtain ⟨F', g1, _, _, g4, _⟩ := hc.entry hi hf
  rw [hF] at g1
  cases g1
  rw [callOnce_eq R.mem (by rw [g4, ha]) ho, callLoop_long R.mem R.handlers fuel n _ h1 hn]

/-- C27: a call whose evaluation does not end does not end on the machine. -/
theorem C27_diverges (hc : Compiles L opt p q prog) (hi : ∀ x ∈ p, x.declName ≠ initName)
    (hq : cx.prog = q) (R : Running e cx prog) {i : Nat} {f : FuncDecl Ref} {F : Function}
    (hf : q[i]? = some (.func f)) (hF : prog.findByName f.name.str = some F) (v : VmState Val Store)
    (args : List Val) (ha : args.length = f.args.length) (ho : handOver v.mem args = none)
    (hr : ∀ n, callFn cx (ownSlots q) n i args (callState v) = .timeout) (fuel : Nat) :
    v.callOnce e fuel F args = .error .diverge :=
  C27_long hc hi hq R hf hF v args ha ho (hr (131072 * fuel + 1)) fuel (by omega)

theorem callLoop_more {e : Env Val Store} : ∀ {n m : Nat} {s s' : St Val Store}, n ≤ m →
    callLoop e n s = .ok ((), s') → callLoop e m s = .ok ((), s')
  | 0, _, _, _, _, h => by cases h
  | n + 1, m, s, s', hm, h => by
    obtain ⟨m, rfl⟩ : ∃ k, m = k + 1 := ⟨m - 1, by omega⟩
    by_cases hg : Going s
    · rw [callLoop_going hg] at h ⊢
      cases hx : resumeLoop e 131072 (awake s) with
      | error f => rw [hx] at h; cases h
      | ok r =>
        rw [hx] at h
        obtain ⟨b, s1⟩ := r
        dsimp only at h ⊢
        split
        · rename_i he
          rw [if_pos he] at h
          exact h
        · rename_i he
          rw [if_neg he] at h
          exact callLoop_more (by omega) h
    · rw [callLoop_ends hg] at h ⊢
      exact h

/-- C27, the other direction: whatever a call on the machine returns is what the evaluation gives,
unless the evaluation makes no claim. -/
theorem C27_complete (hc : Compiles L opt p q prog) (hi : ∀ x ∈ p, x.declName ≠ initName)
    (hq : cx.prog = q) (R : Running e cx prog) {i : Nat} {f : FuncDecl Ref} {F : Function}
    (hf : q[i]? = some (.func f)) (hF : prog.findByName f.name.str = some F) (v : VmState Val Store)
    (args : List Val) (ha : args.length = f.args.length) (ho : handOver v.mem args = none)
    {fuel : Nat} {r : CallResult Val} {v' : VmState Val Store}
    (hr : v.callOnce e fuel F args = .ok (r, v')) :
    ∃ n, (∃ a w t, callFn cx (ownSlots q) n i args (callState v) = .ok a w ∧ r = .value a ∧
        v' = leftBy w t) ∨
      (∃ x w t, callFn cx (ownSlots q) n i args (callState v) = .err x w ∧ v' = leftBy w t ∧
        (r = .error x ∨ (x = .success ∧ ∃ a, r = .value a))) ∨
      callFn cx (ownSlots q) n i args (callState v) = .undef := by
  have hF' := hF
  obtain ⟨F', g1, _, _, g4, _⟩ := hc.entry hi hf
  rw [hF] at g1
  cases g1
  have hl : ∃ s, callLoop e fuel (startSt v F.codeStart.toInt args) = .ok ((), s) := by
    rw [callOnce_eq R.mem (by rw [g4, ha]) ho] at hr
    cases hx : callLoop e fuel (startSt v F.codeStart.toInt args) with
    | error x => rw [hx] at hr; cases hr
    | ok y => exact ⟨y.2, rfl⟩
  obtain ⟨s, hl⟩ := hl
  have more : ∀ m, fuel ≤ m → v.callOnce e m F args = .ok (r, v') := by
    intro m hm
    rw [callOnce_eq R.mem (by rw [g4, ha]) ho, hl] at hr
    rw [callOnce_eq R.mem (by rw [g4, ha]) ho, callLoop_more hm hl]
    exact hr
  refine ⟨131072 * fuel + 1, ?_⟩
  cases hx : callFn cx (ownSlots q) (131072 * fuel + 1) i args (callState v) with
  | ok a w =>
    obtain ⟨m, t, _, h⟩ := C27_value hc hi hq R hf hF v args ha ho hx
    have := more (max m fuel) (by omega)
    rw [h (max m fuel) (by omega)] at this
    cases this
    exact .inl ⟨a, w, t, rfl, rfl, rfl⟩
  | err x w =>
    right; left
    have h := call_follows hc hi hq R hf hF v args ha (131072 * fuel + 1)
    rw [hx] at h
    obtain ⟨k, s', h1, h2⟩ := h
    have h3 := callLoop_done R.mem R.handlers h2.finished k _ h1 (max (k + 1) fuel) (by omega)
    rw [callLoop_more (by omega) hl] at h3
    cases h3
    rw [callOnce_eq R.mem (by rw [g4, ha]) ho, hl] at hr
    dsimp only at hr
    by_cases hxs : x = .success
    · refine ⟨x, w, s.th, rfl, ?_⟩
      have hne : s.th.hasError = false := by simp [Thread.hasError, h2.error, hxs]
      rw [if_neg (by simp [hne])] at hr
      split at hr
      · cases hr
      · cases hr
        exact ⟨by rw [h2.state], .inr ⟨hxs, _, rfl⟩⟩
    · have hne : s.th.hasError = true := by simpa [Thread.hasError, h2.error] using hxs
      rw [if_pos hne] at hr
      cases hr
      exact ⟨x, w, s.th, rfl, by rw [h2.state], .inl (by rw [h2.error])⟩
  | fault x =>
    obtain ⟨m, h⟩ := C27_fault hc hi hq R hf hF v args ha ho hx
    have := more (max m fuel) (by omega)
    rw [h (max m fuel) (by omega)] at this
    cases this
  | timeout =>
    have := C27_long hc hi hq R hf hF v args ha ho hx fuel (by omega)
    rw [hr] at this
    cases this
  | undef => exact .inr (.inr rfl)

/-! The sample program of Verif/SampleProg.lean: `main(4)` gives 20 and sets `g`, `main(none)` is a type
error, with a large `g` the multiplication overflows, `spin(4)` does not end. -/

theorem ok_of_check {r : Res Val} {v : Val} {P : State → Bool}
    (h : (match r with | .ok x w => x == v && P w | _ => false) = true) :
    ∃ w, r = .ok v w ∧ P w = true := by
  split at h
  · rename_i x w
    simp only [Bool.and_eq_true, beq_iff_eq] at h
    exact ⟨w, by rw [h.1], h.2⟩
  · cases h

theorem err_of_check {r : Res Val} {x : TErr}
    (h : (match r with | .err y _ => decide (y = x) | _ => false) = true) : ∃ w, r = .err x w := by
  split at h
  · rename_i y w
    exact ⟨w, by rw [of_decide_eq_true h]⟩
  · cases h

theorem fault_of_check {r : Res Val} {x : Fault}
    (h : (match r with | .fault y => decide (y = x) | _ => false) = true) : r = .fault x := by
  split at h
  · rw [of_decide_eq_true h]
  · cases h

example : ∃ m w t, w.globals = [.int 20] ∧ ∀ fuel, m ≤ fuel →
    sampleVm.callOnce sampleEnv fuel (sampleEntry 3) [.int 4] = .ok (.value (.int 20), leftBy w t) := by
  obtain ⟨w, h, hw⟩ : ∃ w, callFn sampleCtx (ownSlots sampleQ) 10 3 [.int 4] (callState sampleVm) =
      .ok (.int 20) w ∧ (w.globals == [.int 20]) = true := ok_of_check (by decide +kernel)
  obtain ⟨m, t, _, hm⟩ := C27_value sample_compiles sample_names rfl sample_running
    (sample_fn (by decide +kernel)) (sample_entry (by decide +kernel)) sampleVm [.int 4]
    (by decide +kernel) (by decide +kernel) h
  exact ⟨m, w, t, by simpa using hw, hm⟩

example : ∃ m w t, ∀ fuel, m ≤ fuel → sampleVm.callOnce sampleEnv fuel (sampleEntry 3) [.none] =
    .ok (.error .bad_type_operation, leftBy w t) := by
  obtain ⟨w, h⟩ := err_of_check (x := .bad_type_operation)
    (r := callFn sampleCtx (ownSlots sampleQ) 10 3 [.none] (callState sampleVm)) (by decide +kernel)
  obtain ⟨m, t, _, hm⟩ := C27_error sample_compiles sample_names rfl sample_running
    (sample_fn (by decide +kernel)) (sample_entry (by decide +kernel)) sampleVm [.none]
    (by decide +kernel) (by decide +kernel) (by decide) h
  exact ⟨m, w, t, hm⟩

example : ∃ m, ∀ fuel, m ≤ fuel →
    (⟨[], [.int 2147483647], [], Io.fresh⟩ : VmState Val Store).callOnce sampleEnv fuel (sampleEntry 3) [.int 4] =
      .error .ub :=
  C27_fault sample_compiles sample_names rfl sample_running (sample_fn (by decide +kernel))
    (sample_entry (by decide +kernel)) _ [.int 4] (by decide +kernel) (by decide +kernel)
    (fault_of_check (r := callFn sampleCtx (ownSlots sampleQ) 10 3 [.int 4]
      (callState ⟨[], [.int 2147483647], [], Io.fresh⟩)) (by decide +kernel))

theorem loop_spin {test : Sem.Vars → State → Res Bool} {body : Sem.Vars → State → Res Sem.Flow}
    {ρ : Sem.Vars} {w : State} (ht : test ρ w = .ok true w) (hb : body ρ w = .ok (.next ρ) w) :
    ∀ k, Sem.loop test body k ρ w = .timeout
  | 0 => rfl
  | k + 1 => by
    simp only [Sem.loop, ht, Sem.Res.bind, if_true, hb, Sem.Flow.andThen]
    exact loop_spin ht hb k

/-- `spin(4)` has no value. -/
theorem spin_timeout (n : Nat) :
    callFn sampleCtx (ownSlots sampleQ) n 4 [.int 4] (callState sampleVm) = .timeout := by
  cases n with
  | zero => rfl
  | succ n =>
    have hf : sampleCtx.prog[4]? = some (.func (sampleFn 4)) := sample_fn (by decide +kernel)
    have ha : [Val.int 4].length = (sampleFn 4).args.length := by decide +kernel
    have hb : ∃ t t', (sampleFn 4).body = [.whileS t (.ident t' (.arg 0)) []] := by
      have h : (match (sampleFn 4).body with
        | [.whileS _ (.ident _ (.arg 0)) []] => true | _ => false) = true := by decide +kernel
      split at h
      · rename_i t t' hb; exact ⟨t, t', hb⟩
      · cases h
    obtain ⟨t, t', hb⟩ := hb
    have hl : (Sem.Vars.leave (Sem.params [Val.int 4]) (Sem.params [Val.int 4])) = Sem.params [.int 4] := by
      funext r
      unfold Sem.Vars.leave
      cases r with
      | arg i => cases i <;> rfl
      | _ => rfl
    simp only [callFn, hf, ha, if_true, hb, Sem.evalB, Sem.evalS]
    rw [loop_spin]
    · rfl
    · simp [Sem.evalE, Sem.Ctx.ident, Sem.params, Sem.Res.bind, Sem.look, Val.view, Sem.truth]
    · simp only [Sem.Res.bind, Sem.Flow.leave, hl]

example (fuel : Nat) : sampleVm.callOnce sampleEnv fuel (sampleEntry 4) [.int 4] = .error .diverge :=
  C27_diverges sample_compiles sample_names rfl sample_running (sample_fn (by decide +kernel))
    (sample_entry (by decide +kernel)) sampleVm [.int 4] (by decide +kernel) (by decide +kernel)
    spin_timeout fuel

end Ccml.Props
