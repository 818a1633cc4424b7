import Verif.SimRun
import Verif.Host
/-!
A session of the host sees the same on the collected heap as on the mathematical store.
-/
set_option linter.unusedSectionVars false
namespace Ccml
open World

variable {e : Env Val Store} {e' : Env (Option Ptr) Heap}

/-- Whole machines agree. -/
structure VSame (w : World) (v : VmState Val Store) (v' : VmState (Option Ptr) Heap) : Prop where
  m : v.mem = w.m
  h : v'.mem = w.h
  globals : All2 w.Rel v.globals v'.globals
  threads : All2 (Th w) v.threads v'.threads
  io : v'.io = v.io

/-- Outcomes of machine operations agree. -/
def AgreeV {α β : Type} (Q : World → α → β → Prop) (r : Out (α × VmState Val Store))
    (r' : Out (β × VmState (Option Ptr) Heap)) : Prop :=
  match r' with
  | .error f => Limit f ∨ r = .error f
  | .ok (b, v') => ∃ a v w, r = .ok (a, v) ∧ VSame w v v' ∧ Q w a b

theorem VSame.mono {w w' : World} {v v'} (h : VSame w v v') (hle : Le w w') :
    VSame w' { v with mem := w'.m } { v' with mem := w'.h } :=
  ⟨rfl, rfl, h.globals.mono fun _ _ r => r.mono hle, h.threads.mono fun _ _ r => r.mono hle, h.io⟩

theorem Same.whole {w : World} {s s'} (h : Same w s s') :
    VSame w ⟨s.mem, s.globals, s.before ++ s.th :: s.after, s.io⟩
      ⟨s'.mem, s'.globals, s'.before ++ s'.th :: s'.after, s'.io⟩ :=
  ⟨h.m, h.h, h.globals, h.before.append (.cons h.th h.after), h.io⟩

namespace EnvSim
variable (E : EnvSim e e')
include E

theorem newThread {w : World} {v v'} (hv : VSame w v v') (f : Function) {args args'}
    (h : All2 w.Rel args args') :
    AgreeV QEq (v.newThread e f args) (v'.newThread e' f args') := by
  have hp := E.prepareSim f h
  unfold VmState.newThread
  rw [hv.m, hv.h]
  cases hx : prepare e' w.h f args' with
  | error x =>
    rw [hx] at hp
    rcases hp with hp | hp
    · exact .inl hp
    · rw [hp]; exact .inr rfl
  | ok x =>
    rw [hx] at hp
    cases x with
    | none =>
      dsimp only at hp
      rw [hp]
      exact ⟨_, v, w, rfl, hv, rfl⟩
    | some x =>
      obtain ⟨t', h'⟩ := x
      obtain ⟨t, w2, h2, h3, h4, h5⟩ := hp
      rw [h2]
      exact ⟨_, _, w2, rfl, ⟨rfl, h4.symm, hv.globals.mono fun _ _ r => r.mono h3,
        .cons h5 (hv.threads.mono fun _ _ r => r.mono h3), hv.io⟩, rfl⟩

theorem pass (cycles : I32) (n : Nat) : ∀ {w : World} {g g' io b b' a a'}, All2 w.Rel g g' →
    All2 (Th w) b b' → All2 (Th w) a a' →
    AgreeV QEq (passLoop e cycles n w.m g io b a) (passLoop e' cycles n w.h g' io b' a') := by
  induction n with
  | zero =>
    intro w g g' io b b' a a' hg hb ha
    cases ha with
    | nil => unfold passLoop; exact ⟨_, _, w, rfl, ⟨rfl, rfl, hg, hb, rfl⟩, rfl⟩
    | cons _ _ => unfold passLoop; exact .inr rfl
  | succ n ih =>
    intro w g g' io b b' a a' hg hb ha
    cases ha with
    | nil => unfold passLoop; exact ⟨_, _, w, rfl, ⟨rfl, rfl, hg, hb, rfl⟩, rfl⟩
    | cons ht hr =>
      rename_i t t' as as'
      unfold passLoop
      rw [ht.waits, ht.finished, ht.hasError]
      by_cases hw : t.waits ≠ 0
      · rw [if_pos hw, if_pos hw]
        cases ret32 (t.waits.toInt - 1) with
        | error f => exact .inr rfl
        | ok x =>
          refine ih hg (hb.append (.cons ?_ .nil)) hr
          exact ⟨rfl, ht.2, ht.3, ht.4, rfl, ht.6, ht.7, ht.8, ht.9, ht.10⟩
      · rw [if_neg hw, if_neg hw]
        by_cases hf : t.finished = true ∨ t.hasError = true
        · rw [if_pos hf, if_pos hf]
          exact ih hg hb hr
        · rw [if_neg hf, if_neg hf]
          have hs := (E.resumeSim cycles).run w ⟨t, w.m, g, b, as, io⟩ ⟨t', w.h, g', b', as', io⟩
            ⟨rfl, rfl, hg, ht, hb, hr, rfl⟩
          unfold Agree at hs
          cases hx : resume e' cycles ⟨t', w.h, g', b', as', io⟩ with
          | error f =>
            rw [hx] at hs
            rcases hs with h | h
            · exact .inl h
            · rw [h]; exact .inr rfl
          | ok x =>
            obtain ⟨ok, s'⟩ := x
            rw [hx] at hs
            obtain ⟨ok', s, w2, h1, _, h3, h4⟩ := hs
            unfold QEq at h4; subst h4
            rw [h1]
            dsimp only
            rw [h3.th.hasError, h3.m, h3.h, h3.io]
            by_cases ho : ok = true
            · rw [if_pos ho, if_pos ho]
              exact ih h3.globals (h3.before.append (.cons h3.th .nil)) h3.after
            · rw [if_neg ho, if_neg ho]
              by_cases he : s.th.hasError = true
              · rw [if_pos he, if_pos he]
                exact ⟨_, _, w2, rfl, ⟨rfl, rfl, h3.globals, h3.before.append (.cons h3.th h3.after), rfl⟩,
                  rfl⟩
              · rw [if_neg he, if_neg he]
                exact .inr rfl

theorem vmResume {w : World} {v v'} (hv : VSame w v v') (n : I32) :
    AgreeV QEq (v.resume e n) (v'.resume e' n) := by
  unfold VmState.resume
  rw [hv.m, hv.h, hv.io, ← hv.threads.length]
  exact E.pass n _ hv.globals .nil hv.threads

theorem init {w : World} {v v'} (hv : VSame w v v') :
    AgreeV QEq (v.callInit e) (v'.callInit e') := by
  unfold VmState.callInit
  rw [E.prog]
  cases e.prog.findByName (str "@init") with
  | none => exact ⟨_, _, w, rfl, hv, rfl⟩
  | some f =>
    dsimp only
    have hn := E.newThread hv f (.nil : All2 w.Rel [] [])
    unfold AgreeV at hn
    cases hx : v'.newThread e' f [] with
    | error x =>
      rw [hx] at hn
      rcases hn with h | h
      · exact .inl h
      · rw [h]; exact .inr rfl
    | ok x =>
      obtain ⟨b, v2'⟩ := x
      rw [hx] at hn
      obtain ⟨b', v2, w2, h1, h2, h3⟩ := hn
      unfold QEq at h3; subst h3
      rw [h1]
      cases b with
      | false => exact ⟨_, _, w2, rfl, h2, rfl⟩
      | true => exact E.vmResume h2 _

/-- Results of `call_once` correspond. -/
def _root_.Ccml.QCall (w : World) : CallResult Val → CallResult (Option Ptr) → Prop
  | .value v, .value p => w.Rel v p
  | .error x, .error y => y = x
  | _, _ => False

theorem callOnceSim {w : World} {v v'} (hv : VSame w v v') (fuel : Nat) (f : Function) {args args'}
    (h : All2 w.Rel args args') :
    AgreeV QCall (v.callOnce e fuel f args) (v'.callOnce e' fuel f args') := by
  unfold VmState.callOnce
  have hn := E.newThread hv f h
  unfold AgreeV at hn
  cases hx : v'.newThread e' f args' with
  | error x =>
    rw [hx] at hn
    rcases hn with h | h
    · exact .inl h
    · rw [h]; exact .inr rfl
  | ok x =>
    obtain ⟨b, v2'⟩ := x
    rw [hx] at hn
    obtain ⟨b', v2, w2, h1, h2, h3⟩ := hn
    unfold QEq at h3; subst h3
    rw [h1]
    cases b with
    | false => exact .inr rfl
    | true =>
      dsimp only
      have hth := h2.threads
      cases hq : v2'.threads with
      | nil =>
        rw [hq] at hth
        generalize hz : v2.threads = z at hth
        cases hth
        exact .inr rfl
      | cons t' rest' =>
        rw [hq] at hth
        generalize hz : v2.threads = z at hth
        cases hth with
        | cons ht hr =>
          rename_i t rest
          dsimp only
          have hs := (SimTop.bindEq E.collect fun _ => E.callLoopSim fuel).run w2
            ⟨t, v2.mem, v2.globals, [], rest, v2.io⟩ ⟨t', v2'.mem, v2'.globals, [], rest', v2'.io⟩
            ⟨h2.m, h2.h, h2.globals, ht, .nil, hr, h2.io⟩
          unfold Agree at hs
          cases hy : (gcCollect e' >>= fun _ => callLoop e' fuel)
              ⟨t', v2'.mem, v2'.globals, [], rest', v2'.io⟩ with
          | error f =>
            rw [hy] at hs
            rcases hs with h | h
            · exact .inl h
            · rw [h]; exact .inr rfl
          | ok y =>
            obtain ⟨u, s'⟩ := y
            rw [hy] at hs
            obtain ⟨u', s, w3, h4, _, h5, h6⟩ := hs
            rw [h4]
            dsimp only
            rw [h5.th.hasError, h5.th.error]
            by_cases he : s.th.hasError = true
            · rw [if_pos he, if_pos he]
              exact ⟨_, _, w3, rfl, Same.whole h5, rfl⟩
            · rw [if_neg he, if_neg he]
              unfold Thread.returnValue
              rw [h5.th.finished, E.nil.1, E.nil.2]
              by_cases hf : s.th.finished = true
              · rw [if_pos hf, if_pos hf]
                have hst := h5.th.stack
                cases hq : s'.th.stack with
                | nil =>
                  rw [hq] at hst
                  generalize hz : s.th.stack = z at hst
                  cases hst
                  exact .inr rfl
                | cons p ps =>
                  rw [hq] at hst
                  generalize hz : s.th.stack = z at hst
                  cases hst with
                  | cons hp _ => exact ⟨_, _, w3, rfl, Same.whole h5, hp⟩
              · rw [if_neg hf, if_neg hf]
                exact ⟨_, _, w3, rfl, Same.whole h5, rel_nil w3⟩

theorem hostValueSim {w : World} {x : View} (hx : x.Ok) :
    AgreeNew w (hostValue e w.m x) (hostValue e' w.h x) := by
  cases x with
  | none =>
    unfold hostValue
    rw [E.nil.1, E.nil.2]
    exact ⟨.none, w.m, w, rfl, .refl _, rfl, rfl, rel_nil w⟩
  | arr n => exact .inr rfl
  | int v => exact E.newInt w v
  | float v => exact E.newFloat w v
  | func v => exact E.newFunc w v
  | syscall v => exact E.newSyscall w v
  | str s => exact E.newStr w s (hx s rfl)

theorem hostValuesSim {xs : List View} : ∀ {w : World}, (∀ x ∈ xs, View.Ok x) →
    match hostValues e' w.h xs with
    | .error f => Limit f ∨ hostValues e w.m xs = .error f
    | .ok (ps, h') => ∃ vs w', hostValues e w.m xs = .ok (vs, w'.m) ∧ Le w w' ∧ w'.h = h' ∧
        All2 w'.Rel vs ps := by
  induction xs with
  | nil => intro w _; exact ⟨[], w, rfl, .refl _, rfl, .nil⟩
  | cons x xs ih =>
    intro w hok
    have hc := E.hostValueSim (w := w) (hok x (List.mem_cons_self ..))
    unfold hostValues
    unfold AgreeNew at hc
    split at hc
    · rename_i f hf
      rw [hf]
      dsimp only
      rcases hc with h | h
      · exact .inl h
      · rw [h]; exact .inr rfl
    · rename_i b h' hq
      obtain ⟨u, m, w2, h6, h7, h8, h9, h10⟩ := hc
      subst h8; subst h9
      rw [hq, h6]
      dsimp only
      have := ih (w := w2) fun y hy => hok y (List.mem_cons_of_mem _ hy)
      cases hy : hostValues e' w2.h xs with
      | error f =>
        rw [hy] at this
        rcases this with h | h
        · exact .inl h
        · rw [h]; exact .inr rfl
      | ok y =>
        obtain ⟨ps, h3⟩ := y
        rw [hy] at this
        obtain ⟨vs, w3, h11, h12, h13, h14⟩ := this
        rw [h11]
        exact ⟨u :: vs, w3, rfl, h7.trans h12, h13, .cons (h10.mono h12) h14⟩

theorem onThreadSim {α β : Type} {Q : World → α → β → Prop} {w : World} {v v'}
    (hv : VSame w v v') (k : Nat) {x y} (h : SimTop Q x y) :
    AgreeV Q (onThread v k x) (onThread v' k y) := by
  unfold onThread
  have hd := Sim.drop2 hv.threads k
  cases hq : v'.threads.drop k with
  | nil =>
    rw [hq] at hd
    generalize hz : v.threads.drop k = z at hd
    cases hd
    exact .inr rfl
  | cons t' after' =>
    rw [hq] at hd
    generalize hz : v.threads.drop k = z at hd
    cases hd with
    | cons ht hr =>
      rename_i t after
      dsimp only
      have hs := h.run w ⟨t, v.mem, v.globals, v.threads.take k, after, v.io⟩
        ⟨t', v'.mem, v'.globals, v'.threads.take k, after', v'.io⟩
        ⟨hv.m, hv.h, hv.globals, ht, Sim.take2 hv.threads k, hr, hv.io⟩
      unfold Agree at hs
      cases hy : y ⟨t', v'.mem, v'.globals, v'.threads.take k, after', v'.io⟩ with
      | error f =>
        rw [hy] at hs
        rcases hs with h | h
        · exact .inl h
        · rw [h]; exact .inr rfl
      | ok r =>
        obtain ⟨b, s'⟩ := r
        rw [hy] at hs
        obtain ⟨a, s, w2, h1, _, h3, h4⟩ := hs
        rw [h1]
        exact ⟨a, _, w2, rfl, Same.whole h3, h4⟩

/-- Collections do not matter on the store, so the two schedules need not be the same. -/
theorem schedSim : ∀ (cs ds : List Bool), cs.length = ds.length →
    SimTop QEq (runSched e ds) (runSched e' cs) := by
  intro cs
  induction cs with
  | nil => intro ds h; cases ds with
    | nil => exact SimTop.pureEq _
    | cons _ _ => cases h
  | cons c cs ih =>
    intro ds h
    cases ds with
    | nil => cases h
    | cons d ds =>
      have habs : (if d then gcCollect e else Pure.pure () : VM Val Store Unit) = Pure.pure () := by
        funext s
        split
        · exact E.collect_abs s
        · rfl
      have hc : SimTop QEq (if d then gcCollect e else Pure.pure () : VM Val Store Unit)
          (if c then gcCollect e' else Pure.pure ()) := by
        rw [habs]
        split
        · refine ⟨fun w s s' hs => ?_⟩
          have := E.collect.run w s s' hs
          rw [E.collect_abs] at this
          exact this
        · exact SimTop.pureEq _
      have hk : SimTop QEq (do stepImp e; let t ← getTh
                               if t.finished then Pure.pure () else runSched e ds)
          (do stepImp e'; let t ← getTh
              if t.finished then Pure.pure () else runSched e' cs) := by
        refine SimTop.bindEq (SimTop.of fun _ => E.step) fun _ => ?_
        refine SimTop.bindTh fun w t t' ht s s' hs => ?_
        rw [ht.finished]
        exact (SimTop.ite (fun _ => SimTop.pureEq _) fun _ => ih ds (by simpa using h)).run w s s' hs
      have := SimTop.bindEq hc fun _ => hk
      have ha : runSched e (d :: ds) = (do (if d then gcCollect e else Pure.pure ()); stepImp e
                                           let t ← getTh
                                           if t.finished then Pure.pure () else runSched e ds) := by
        rw [runSched]; cases d <;> rfl
      have hb : runSched e' (c :: cs) = (do (if c then gcCollect e' else Pure.pure ()); stepImp e'
                                            let t ← getTh
                                            if t.finished then Pure.pure () else runSched e' cs) := by
        rw [runSched]; cases c <;> rfl
      rw [ha, hb]
      exact this

theorem peekSim {w : World} {v : Val} {p : Option Ptr} (h : w.Rel v p) (path : List Nat) :
    peek e'.mem w.h p path = peek e.mem w.m v path := by
  obtain ⟨d, sh, hm⟩ := E.mem'
  rw [E.mem, hm]
  induction path generalizing v p with
  | nil => exact (rel_view h).1
  | cons i path ih =>
    unfold peek
    rw [show (Mem.gc d sh).arrGet w.h p i = gcArrGet w.h p i from rfl,
      show Mem.abs.arrGet w.m v i = v.arrGet w.m i from rfl]
    rcases rel_arrGet h i with ⟨f, h1, h2⟩ | ⟨x, y, h1, h2, h3⟩
    · rw [h1, h2]
    · rw [h1, h2]; exact ih h3

theorem seen {w : World} {v v'} (h : VSame w v v') : v'.seen e'.mem = v.seen e.mem := by
  have hp : ∀ x y, w.Rel x y → peek e'.mem w.h y = peek e.mem w.m x :=
    fun x y hr => funext (E.peekSim hr)
  have hl : ∀ {xs ys}, All2 w.Rel xs ys →
      ys.map (peek e'.mem w.h) = xs.map (peek e.mem w.m) := by
    intro xs ys hr
    induction hr with
    | nil => rfl
    | cons h _ ih => simp only [List.map_cons, ih, hp _ _ h]
  unfold VmState.seen
  rw [h.m, h.h, hl h.globals, h.io]
  congr 2
  have ht := h.threads
  generalize v.threads = ts at ht
  generalize v'.threads = ts' at ht
  induction ht with
  | nil => rfl
  | cons h1 _ ih =>
    simp only [List.map_cons, ih]
    congr 1
    unfold Thread.seen
    rw [h1.waits, h1.lastLine, h1.error, h1.cycles, h1.finished, h1.halted, h1.pc, h1.frames,
      h1.breakpoints, hl h1.stack]

end EnvSim

/-- The same call with another schedule of collections. -/
def HostOp.Alike : HostOp → HostOp → Prop
  | .steps k cs, .steps k' ds => k = k' ∧ cs.length = ds.length
  | a, b => a = b

/-- The host hands over no strings with NUL. -/
def HostOp.Ok : HostOp → Prop
  | .spawn _ args => ∀ x ∈ args, View.Ok x
  | .call _ args _ => ∀ x ∈ args, View.Ok x
  | _ => True

namespace EnvSim
variable (E : EnvSim e e')
include E

/-- Post-processing of a result that agrees. -/
theorem mapOut {α β γ : Type} {Q : World → α → β → Prop} {r r'} (h : AgreeV Q r r')
    {f : α × VmState Val Store → γ × VmState Val Store}
    {g : β × VmState (Option Ptr) Heap → γ × VmState (Option Ptr) Heap}
    (hf : ∀ w a b v v', VSame w v v' → Q w a b → (f (a, v)).2 = v ∧ (g (b, v')).2 = v' ∧
      (g (b, v')).1 = (f (a, v)).1) :
    AgreeV QEq (r >>= fun x => Pure.pure (f x)) (r' >>= fun x => Pure.pure (g x)) := by
  unfold AgreeV at h
  cases r' with
  | error x =>
    rcases h with h | h
    · exact .inl h
    · rw [h]; exact .inr rfl
  | ok x =>
    obtain ⟨b, v'⟩ := x
    obtain ⟨a, v, w, rfl, h2, h3⟩ := h
    obtain ⟨h4, h5, h6⟩ := hf w a b v v' h2 h3
    show AgreeV QEq (.ok (f (a, v))) (.ok (g (b, v')))
    refine ⟨(f (a, v)).1, (f (a, v)).2, w, rfl, ?_, ?_⟩
    · rw [h4, h5]; exact h2
    · exact h6

theorem withArgs {γ : Type} {w : World} {v v'} (hv : VSame w v v') {args : List View}
    (ha : ∀ x ∈ args, View.Ok x)
    {k : List Val × Store → Out (γ × VmState Val Store)}
    {k' : List (Option Ptr) × Heap → Out (γ × VmState (Option Ptr) Heap)}
    (hk : ∀ w2 vs ps, Le w w2 → All2 w2.Rel vs ps → AgreeV QEq (k (vs, w2.m)) (k' (ps, w2.h))) :
    AgreeV QEq (hostValues e v.mem args >>= k) (hostValues e' v'.mem args >>= k') := by
  rw [hv.m, hv.h]
  have := E.hostValuesSim (w := w) ha
  cases hx : hostValues e' w.h args with
  | error f =>
    rw [hx] at this
    rcases this with h | h
    · exact .inl h
    · rw [h]; exact .inr rfl
  | ok x =>
    obtain ⟨ps, h'⟩ := x
    rw [hx] at this
    obtain ⟨vs, w2, h1, h2, h3, h4⟩ := this
    subst h3
    rw [h1]
    exact hk w2 vs ps h2 h4

theorem hostStepSim {w : World} {v v'} (hv : VSame w v v') {op op' : HostOp} (ha : op.Alike op')
    (hok : op.Ok) : AgreeV QEq (hostStep e v op') (hostStep e' v' op) := by
  have flag : ∀ {r r'}, AgreeV QEq r r' → AgreeV QEq
      (r >>= fun x => Pure.pure (HostOut.flag x.1, x.2))
      (r' >>= fun x => Pure.pure (HostOut.flag x.1, x.2)) := fun h =>
    E.mapOut h fun _ _ _ _ _ _ hq => ⟨rfl, rfl, by unfold QEq at hq; subst hq; rfl⟩
  have done : ∀ {r r'}, AgreeV (α := Unit) (β := Unit) QEq r r' → AgreeV QEq
      (r >>= fun x => Pure.pure (HostOut.done, x.2))
      (r' >>= fun x => Pure.pure (HostOut.done, x.2)) := fun h =>
    E.mapOut h fun _ _ _ _ _ _ hq => ⟨rfl, rfl, rfl⟩
  cases op with
  | steps k cs =>
    cases op' with
    | steps k' ds =>
      obtain ⟨rfl, h⟩ := ha
      exact done (E.onThreadSim hv k (E.schedSim cs ds h))
    | _ => cases ha
  | init => cases ha; exact flag (E.init hv)
  | spawn f args =>
    cases ha
    refine E.withArgs hv hok fun w2 vs ps hle hr => ?_
    exact flag (E.newThread (hv.mono hle) f hr)
  | resume n => cases ha; exact flag (E.vmResume hv n)
  | call f args fuel =>
    cases ha
    refine E.withArgs hv hok fun w2 vs ps hle hr => ?_
    refine E.mapOut (E.callOnceSim (hv.mono hle) fuel f hr) fun w3 a b v2 v2' h2 hq =>
      ⟨rfl, rfl, ?_⟩
    unfold QCall at hq
    split at hq
    · rename_i x y
      show HostOut.returned (.value (peek e'.mem v2'.mem y)) = .returned (.value (peek e.mem v2.mem x))
      rw [h2.m, h2.h, funext (E.peekSim hq)]
    · subst hq; rfl
    · cases hq
  | stepInst k => cases ha; exact flag (E.onThreadSim hv k E.stepInstSim)
  | stepLine k n => cases ha; exact flag (E.onThreadSim hv k (E.stepLineSim n))
  | breakAdd k l =>
    cases ha
    refine done (E.onThreadSim hv k (SimTop.of fun _ => Sim.modTh fun _ _ _ _ h => ?_))
    unfold Thread.breakAdd
    exact ⟨h.1, h.2, h.3, h.4, h.5, h.6, h.7, h.8, by dsimp only; rw [h.9], h.10⟩
  | breakRemove k l =>
    cases ha
    refine done (E.onThreadSim hv k (SimTop.of fun _ => Sim.modTh fun _ _ _ _ h => ?_))
    unfold Thread.breakRemove
    exact ⟨h.1, h.2, h.3, h.4, h.5, h.6, h.7, h.8, by dsimp only; rw [h.9], h.10⟩

/-- A whole session. -/
theorem sessionSim {ops ops' : List HostOp} (ha : All2 HostOp.Alike ops ops')
    (hok : ∀ o ∈ ops, o.Ok) : ∀ {w : World} {v v'}, VSame w v v' →
    match session e' v' ops with
    | (os', .error f) =>
      (Limit f ∧ os' <+: (session e v ops').1) ∨ session e v ops' = (os', .error f)
    | (os', .ok u') => ∃ u w', session e v ops' = (os', .ok u) ∧ VSame w' u u' := by
  induction ha with
  | nil => intro w v v' hv; exact ⟨v, w, rfl, hv⟩
  | cons h1 _ ih =>
    rename_i op op' ops ops' _
    intro w v v' hv
    have hs := E.hostStepSim hv h1 (hok op (List.mem_cons_self ..))
    unfold AgreeV at hs
    unfold session
    cases hx : hostStep e' v' op with
    | error f =>
      rw [hx] at hs
      dsimp only
      rcases hs with h | h
      · exact .inl ⟨h, List.nil_prefix⟩
      · rw [h]; exact .inr rfl
    | ok x =>
      obtain ⟨o, v2'⟩ := x
      rw [hx] at hs
      obtain ⟨o', v2, w2, h2, h3, h4⟩ := hs
      unfold QEq at h4; subst h4
      rw [h2]
      dsimp only
      have := ih (fun y hy => hok y (List.mem_cons_of_mem _ hy)) h3
      rcases hq : session e' v2' ops with ⟨os', r⟩
      rw [hq] at this
      rcases hq' : session e v2 ops' with ⟨os, r2⟩
      rw [hq'] at this
      cases r with
      | error f =>
        rcases this with ⟨h5, h6⟩ | h5
        · exact .inl ⟨h5, List.prefix_cons_inj _ |>.2 h6⟩
        · cases h5; exact .inr rfl
      | ok u' =>
        obtain ⟨u, w', h5, h6⟩ := this
        cases h5
        exact ⟨u, w', rfl, h6⟩

end EnvSim
end Ccml
