import Verif.Wf
import Verif.SimHost
/-!
The invariant of Verif/Wf.lean for built-ins, scheduling and host calls.
-/
set_option linter.unusedSectionVars false
namespace Ccml

variable {e : Env Val Store} {n : Nat}

theorem Keep.popArgs (k : Nat) {acc : List Val} (h : WfL n acc) :
    Keep n WfL (popArgs k acc : VM Val Store _) := by
  induction k generalizing n acc with
  | zero => exact Keep.pure fun _ hk => h.mono hk
  | succ k ih => exact Keep.bind Keep.pop fun j hj v hv => ih (.cons hv (h.mono hj))

namespace EnvKeep
variable (E : EnvKeep e)
include E

theorem copyArgsOk {m : Store} {args : List Val} {acc : List Val} {k : Nat} (h : WfL k args)
    (ha : ∀ j, WfL j acc) {x : List Val × Store} (hx : copyArgs e m acc args = .ok x) :
    x.2 = m ∧ ∀ j, WfL j x.1 := by
  induction args generalizing acc m with
  | nil => cases hx; exact ⟨rfl, ha⟩
  | cons a as ih =>
    unfold copyArgs at hx
    cases hq : copyVal e m a with
    | error f => rw [hq] at hx; cases hx
    | ok y =>
      rw [hq] at hx
      obtain ⟨h1, h2⟩ := E.copyOk h.head hq
      obtain ⟨p, m1⟩ := y
      dsimp only at h1 hx
      subst h1
      exact ih h.tail (fun j => .cons (h2 j) (ha j)) hx

theorem prepareOk {m : Store} {f : Function} {args : List Val} {k : Nat} (h : WfL k args) {t m'}
    (hx : prepare e m f args = .ok (some (t, m'))) : m' = m ∧ ∀ j, WfL j t.stack := by
  unfold prepare at hx
  split at hx
  · cases hx
  · cases hq : copyArgs e m [] args with
    | error x => rw [hq] at hx; cases hx
    | ok y =>
      rw [hq] at hx
      obtain ⟨h1, h2⟩ := E.copyArgsOk h (fun _ => .nil) hq
      cases hx
      exact ⟨h1, h2⟩

theorem spawnKeep (f : Function) {args : List Val} (h : WfL n args) :
    Keep n QAny (spawn e f args) := by
  refine ⟨fun s hs hn b s' hx => ?_⟩
  unfold spawn at hx
  split at hx
  · cases hx
  · cases hx; exact ⟨hs, Nat.le_refl _, trivial⟩
  · rename_i t m hq
    obtain ⟨h1, h2⟩ := E.prepareOk h hq
    subst h1
    cases hx
    refine ⟨⟨hs.mem, hs.globals, hs.th, fun u hu => ?_, hs.after⟩, Nat.le_refl _, trivial⟩
    rcases List.mem_cons.1 hu with rfl | hu
    · exact h2 _
    · exact hs.before u hu

theorem mathKeep (f : F32 → F32) : Keep n QAny (builtinMath e f) := by
  refine E.unary (f := fun _ lv => match lv.num? e.fl with
    | some x => Ccml.pushFloat e (f x) | none => Ccml.raise .bad_argument) fun k hk l lv hl hlv => ?_
  cases lv <;> simp only [View.num?] <;> first
    | exact Keep.raise _
    | exact E.pushFloat _

theorem two {f : View → View → VM Val Store Unit}
    (h : ∀ k av bv, Keep k QAny (f av bv)) :
    Keep n QAny (do let a ← pop; let b ← pop; let av ← Ccml.view e a; let bv ← Ccml.view e b
                    f av bv) := by
  refine Keep.bind Keep.pop fun k1 h1 a ha => Keep.bind Keep.pop fun k2 h2 b hb => ?_
  refine Keep.bind (E.view (ha.mono h2)) fun k3 h3 av _ => ?_
  exact Keep.bind (E.view (hb.mono h3)) fun k4 h4 bv _ => h k4 av bv

theorem pickKeep (f : F32 → F32 → Bool) : Keep n QAny (builtinPick e f) := by
  refine E.two (f := fun av bv => match av.num? e.fl, bv.num? e.fl with
    | some af, some bf => Ccml.pushFloat e (if f af bf then af else bf)
    | _, _ => Ccml.raise .bad_argument) fun k av bv => ?_
  cases av.num? e.fl <;> cases bv.num? e.fl <;> first
    | exact Keep.raise _
    | exact E.pushFloat _

theorem builtin (b : Builtin) (x : I32) : Keep n QAny (b.run e x) := by
  cases b <;> simp only [Builtin.run]
  case abs =>
    refine E.unary fun k hk l lv hl hlv => ?_
    cases lv <;> first
      | exact Keep.raise _
      | exact E.pushFloat _
      | exact E.liftThen fun _ _ _ _ => E.pushInt _
  case bitand =>
    refine E.two fun k av bv => ?_
    cases av <;> cases bv <;> first
      | exact Keep.raise _
      | exact E.pushInt _
  case len =>
    refine E.unary fun k hk l lv hl hlv => ?_
    cases lv <;> first
      | exact Keep.raise _
      | exact E.pushInt _
  case chr =>
    refine E.unary fun k hk l lv hl hlv => ?_
    cases lv <;> first
      | exact Keep.raise _
      | exact E.pushStr _ (noNul_cstr _)
  case new_thread =>
    unfold builtinNewThread
    refine Keep.ite (fun _ => Keep.raise _) fun _ => ?_
    refine Keep.bind (Keep.popArgs _ .nil) fun k1 h1 args hargs => ?_
    refine E.unary fun k2 h2 l lv hl hlv => ?_
    cases lv <;> first
      | exact Keep.raise _
      | skip
    dsimp only
    split
    · exact Keep.raise _
    · exact Keep.ite (fun _ => Keep.raise _) fun _ =>
        Keep.bind (E.spawnKeep _ (hargs.mono h2)) fun _ _ _ _ => E.pushInt _
  case wait =>
    unfold builtinWait
    refine Keep.bind Keep.pop fun k1 h1 a ha => Keep.bind (E.view ha) fun k2 h2 lv _ => ?_
    split
    · refine E.liftThen fun _ _ w _ => Keep.bind (Keep.modTh fun _ _ _ h => h) fun _ _ _ _ => ?_
      refine Keep.bind (E.pushInt _) fun _ _ _ _ => ?_
      exact Keep.ite (fun _ => Keep.modTh fun _ _ _ h => h) fun _ => Keep.pureAny _
    · exact Keep.raise _
  case new_array =>
    unfold builtinNewArray
    refine Keep.bind Keep.pop fun k1 h1 a ha => Keep.bind (E.view ha) fun k2 h2 lv _ => ?_
    split
    · exact E.liftThen fun _ _ w _ => Keep.ite (fun _ => Keep.raise _) fun _ => E.pushArr _
    · exact Keep.raise _
  case min => exact E.pickKeep _
  case max => exact E.pickKeep _
  all_goals exact E.mathKeep _

theorem collect : Keep n QAny (gcCollect e) := by
  refine ⟨fun s hs hn b s' hx => ?_⟩
  have : gcCollect e s = .ok ((), s) := by
    unfold gcCollect
    rw [E.mem]
    dsimp only [Mem.abs]
    rw [splitLike_flatten]
    dsimp only
    rw [withStacks_self, List.drop_left, List.take_left]
  rw [this] at hx
  cases hx
  exact ⟨hs, Nat.le_refl _, trivial⟩

theorem tick : Keep n QAny (tickGc e) := by
  refine ⟨fun s hs hn b s' hx => ?_⟩
  unfold tickGc at hx
  split at hx
  · exact E.collect.run s hs hn b s' hx
  · cases hx; exact ⟨hs, Nat.le_refl _, trivial⟩

theorem finish : Keep n QAny (finishHandlers e) := by
  have hr : ∀ {k o}, (∀ h, o = some h → ∀ n, Keep n QAny h) → Keep k QAny (runHandler o) := by
    intro k o ho
    cases o with
    | none => exact Keep.pureAny _
    | some h => exact Keep.bind (ho h rfl k) fun _ _ _ _ => Keep.pureAny _
  refine Keep.bind (Q := QAny) (Keep.bind Keep.getTh fun _ _ _ _ => ?_) fun _ _ _ _ => hr E.host.threadFinish
  exact Keep.ite (fun _ => hr E.host.threadError) fun _ => Keep.pureAny _

theorem loop (k : Nat) : Keep n QAny (resumeLoop e k) := by
  induction k generalizing n with
  | zero => exact Keep.pureAny _
  | succ k ih =>
    unfold resumeLoop
    refine Keep.bind E.tick fun _ _ _ _ => Keep.bind E.step fun _ _ _ _ => ?_
    refine Keep.bind Keep.getTh fun _ _ t _ => Keep.ite (fun _ => ?_) fun _ => ?_
    · exact Keep.bind E.finish fun _ _ _ _ => Keep.pureAny _
    · exact Keep.ite (fun _ => Keep.pureAny _) fun _ => ih

theorem resumeKeep (c : I32) : Keep n QAny (resume e c) := by
  unfold resume
  refine Keep.bind Keep.getTh fun _ _ t _ => Keep.ite (fun _ => Keep.pureAny _) fun _ => ?_
  refine Keep.bind (Keep.modTh fun _ _ _ h => h) fun _ _ _ _ => ?_
  refine Keep.bind (Q := QAny) ?_ fun _ _ _ _ => Keep.bind Keep.getTh fun _ _ _ _ => Keep.pureAny _
  unfold runQuantum
  refine Keep.ite (fun _ => Keep.bind (E.loop _) fun _ _ _ _ => Keep.pureAny _) fun _ => ?_
  refine Keep.bind (E.loop _) fun _ _ b _ => ?_
  exact Keep.ite (fun _ => Keep.pureAny _) fun _ => Keep.fault _

theorem stepInstKeep : Keep n QAny (stepInst e) := by
  unfold stepInst
  refine Keep.bind Keep.getTh fun _ _ t _ => Keep.ite (fun _ => Keep.pureAny _) fun _ => ?_
  refine Keep.bind E.collect fun _ _ _ _ => Keep.bind E.step fun _ _ _ _ => ?_
  exact Keep.bind Keep.getTh fun _ _ _ _ => Keep.pureAny _

theorem stepLineKeep (fuel : Nat) : Keep n QAny (stepLine e fuel) := by
  have hl : ∀ {k} l, Keep k QAny (stepLineLoop e l fuel) := by
    intro k l
    induction fuel generalizing k with
    | zero => exact Keep.fault _
    | succ f ih =>
      unfold stepLineLoop
      refine Keep.bind E.step fun _ _ _ _ => Keep.bind Keep.getTh fun _ _ t _ => ?_
      refine Keep.ite (fun _ => Keep.pureAny _) fun _ => ?_
      have ha : ∀ {k} b, Keep k QAny (assertThat b : VM Val Store Unit) := by
        intro k b; unfold assertThat; exact Keep.ite (fun _ => Keep.pureAny _) fun _ => Keep.fault _
      refine Keep.bind (ha _) fun _ _ _ _ => Keep.bind (ha _) fun _ _ _ _ => ?_
      exact Keep.ite (fun _ => ih) fun _ => Keep.pureAny _
  unfold stepLine
  refine Keep.bind Keep.getTh fun _ _ t _ => Keep.ite (fun _ => Keep.pureAny _) fun _ => ?_
  exact Keep.bind (hl _) fun _ _ _ _ => Keep.bind Keep.getTh fun _ _ _ _ => Keep.pureAny _

theorem schedKeep (cs : List Bool) : Keep n QAny (runSched e cs) := by
  induction cs generalizing n with
  | nil => exact Keep.pureAny _
  | cons c cs ih =>
    have hb : runSched e (c :: cs) = (do (if c then gcCollect e else Pure.pure ()); stepImp e
                                         let t ← getTh
                                         if t.finished then Pure.pure () else runSched e cs) := by
      rw [runSched]; cases c <;> rfl
    rw [hb]
    refine Keep.bind (Q := QAny) (Keep.ite (fun _ => E.collect) fun _ => Keep.pureAny _) fun _ _ _ _ => ?_
    refine Keep.bind E.step fun _ _ _ _ => Keep.bind Keep.getTh fun _ _ t _ => ?_
    exact Keep.ite (fun _ => Keep.pureAny _) fun _ => ih

theorem callLoopKeep (fuel : Nat) : Keep n QAny (callLoop e fuel) := by
  induction fuel generalizing n with
  | zero => exact Keep.fault _
  | succ f ih =>
    unfold callLoop
    refine Keep.bind Keep.getTh fun _ _ t _ => Keep.ite (fun _ => Keep.pureAny _) fun _ => ?_
    exact Keep.bind (E.resumeKeep _) fun _ _ b _ => Keep.ite (fun _ => ih) fun _ => Keep.pureAny _

end EnvKeep

/-- The whole machine is fine. -/
structure WfVm (v : VmState Val Store) : Prop where
  mem : WfM v.mem
  globals : WfL v.mem.length v.globals
  threads : WfT v.mem.length v.threads

theorem Wf.whole {s : St Val Store} (h : Wf s) :
    WfVm ⟨s.mem, s.globals, s.before ++ s.th :: s.after, s.io⟩ :=
  ⟨h.mem, h.globals, fun t ht => by
    rcases List.mem_append.1 ht with ht | ht
    · exact h.before t ht
    · rcases List.mem_cons.1 ht with rfl | ht
      · exact h.th
      · exact h.after t ht⟩

namespace EnvKeep
variable (E : EnvKeep e)
include E

theorem newThreadOk {v v' : VmState Val Store} {f args b} (hv : WfVm v) (ha : WfL v.mem.length args)
    (h : v.newThread e f args = .ok (b, v')) : WfVm v' := by
  unfold VmState.newThread at h
  split at h
  · cases h
  · cases h; exact hv
  · rename_i t m hq
    obtain ⟨h1, h2⟩ := E.prepareOk ha hq
    subst h1
    cases h
    refine ⟨hv.mem, hv.globals, fun u hu => ?_⟩
    rcases List.mem_cons.1 hu with rfl | hu
    · exact h2 _
    · exact hv.threads u hu

theorem passOk {c : I32} {k : Nat} : ∀ {m : Store} {g io b a r v'}, WfM m → WfL m.length g →
    WfT m.length b → WfT m.length a → passLoop e c k m g io b a = .ok (r, v') → WfVm v' := by
  induction k with
  | zero =>
    intro m g io b a r v' hm hg hb ha h
    cases a with
    | nil => unfold passLoop at h; cases h; exact ⟨hm, hg, hb⟩
    | cons _ _ => unfold passLoop at h; cases h
  | succ k ih =>
    intro m g io b a r v' hm hg hb ha h
    cases a with
    | nil => unfold passLoop at h; cases h; exact ⟨hm, hg, hb⟩
    | cons t a =>
      have ht := ha t (List.mem_cons_self ..)
      have ha' : WfT m.length a := fun u hu => ha u (List.mem_cons_of_mem _ hu)
      have hsnoc : ∀ {j b} {t : Thread Val}, WfT j b → WfL j t.stack → WfT j (b ++ [t]) := by
        intro j b t hb ht u hu
        rcases List.mem_append.1 hu with hu | hu
        · exact hb u hu
        · simp only [List.mem_singleton] at hu; subst hu; exact ht
      unfold passLoop at h
      split at h
      · split at h
        · cases h
        · rename_i w _; exact ih hm hg (hsnoc (t := { t with waits := w }) hb ht) ha' h
      · split at h
        · exact ih hm hg hb ha' h
        · split at h
          · cases h
          · rename_i ok s hq
            have hs := ((E.resumeKeep c).run ⟨t, m, g, b, a, io⟩ ⟨hm, hg, ht, hb, ha'⟩ (Nat.le_refl _)
              _ _ hq).1
            split at h
            · exact ih hs.mem hs.globals (hsnoc hs.before hs.th) hs.after h
            · split at h
              · cases h; exact Wf.whole hs
              · cases h

theorem resumeOk {v v' : VmState Val Store} {c b} (hv : WfVm v) (h : v.resume e c = .ok (b, v')) :
    WfVm v' :=
  E.passOk hv.mem hv.globals (fun _ h => by cases h) hv.threads h

theorem initOk {v v' : VmState Val Store} {b} (hv : WfVm v) (h : v.callInit e = .ok (b, v')) :
    WfVm v' := by
  unfold VmState.callInit at h
  split at h
  · cases h; exact hv
  · split at h
    · cases h
    · rename_i hq; cases h; exact E.newThreadOk hv .nil hq
    · rename_i hq; exact E.resumeOk (E.newThreadOk hv .nil hq) h

theorem callOk {v v' : VmState Val Store} {fuel f args r} (hv : WfVm v)
    (ha : WfL v.mem.length args) (h : v.callOnce e fuel f args = .ok (r, v')) : WfVm v' := by
  unfold VmState.callOnce at h
  split at h
  · cases h
  · cases h
  · rename_i v2 hq
    have h2 := E.newThreadOk hv ha hq
    split at h
    · cases h
    · rename_i t rest ht
      split at h
      · cases h
      · rename_i u s hx
        have hth := h2.threads
        rw [ht] at hth
        have hs := ((Keep.bind E.collect fun _ _ _ _ => E.callLoopKeep fuel).run
          ⟨t, v2.mem, v2.globals, [], rest, v2.io⟩ ⟨h2.mem, h2.globals, hth t (List.mem_cons_self ..),
            (fun _ h => by cases h), fun u hu => hth u (List.mem_cons_of_mem _ hu)⟩ (Nat.zero_le _)
          _ _ hx).1
        dsimp only at h
        split at h
        · cases h; exact Wf.whole hs
        · split at h <;> cases h
          exact Wf.whole hs

theorem onThreadOk {α : Type} {v v' : VmState Val Store} {k : Nat} {x : VM Val Store α} {a}
    (hv : WfVm v) (hk : Keep 0 QAny x) (h : onThread v k x = .ok (a, v')) : WfVm v' := by
  unfold onThread at h
  split at h
  · cases h
  · rename_i t after ht
    split at h
    · cases h
    · rename_i b s hx
      cases h
      have hm : ∀ u, u ∈ t :: after → u ∈ v.threads := fun u hu => by
        rw [← ht] at hu; exact List.mem_of_mem_drop hu
      exact Wf.whole (hk.run ⟨t, v.mem, v.globals, v.threads.take k, after, v.io⟩ ⟨hv.mem, hv.globals,
        hv.threads t (hm t (List.mem_cons_self ..)),
        fun u hu => hv.threads u (List.mem_of_mem_take hu),
        fun u hu => hv.threads u (hm u (List.mem_cons_of_mem _ hu))⟩ (Nat.zero_le _) _ _ hx).1

theorem hostValuesOk {xs : List View} : ∀ {m : Store} {r}, (∀ x ∈ xs, View.Ok x) →
    hostValues e m xs = .ok r → r.2 = m ∧ ∀ j, WfL j r.1 := by
  induction xs with
  | nil => intro m r _ h; cases h; exact ⟨rfl, fun _ => .nil⟩
  | cons x xs ih =>
    intro m r hx h
    unfold hostValues at h
    have h1 : ∀ p, hostValue e m x = .ok p → p.2 = m ∧ ∀ j, WfV j p.1 := by
      intro p hp
      unfold hostValue at hp
      rw [E.mem] at hp
      have := hx x (List.mem_cons_self ..)
      cases x <;> cases hp
      case str s => exact ⟨rfl, fun _ => this s rfl⟩
      all_goals exact ⟨rfl, fun _ => trivial⟩
    split at h
    · cases h
    · rename_i p m1 hp
      obtain ⟨h2, h3⟩ := h1 _ hp
      dsimp only at h2 h3
      subst h2
      split at h
      · cases h
      · rename_i ps m2 hps
        obtain ⟨h4, h5⟩ := ih (fun y hy => hx y (List.mem_cons_of_mem _ hy)) hps
        cases h
        exact ⟨h4, fun j => .cons (h3 j) (h5 j)⟩

theorem getIo : Keep n QAny (Ccml.getIo : VM Val Store Io) := by
  refine ⟨fun s hs _ a s' h => ?_⟩
  cases h
  exact ⟨hs, Nat.le_refl _, trivial⟩

theorem modIo (f : Io → Io) : Keep n QAny (Ccml.modIo f : VM Val Store Unit) := by
  refine ⟨fun s hs _ a s' h => ?_⟩
  cases h
  exact ⟨⟨hs.mem, hs.globals, hs.th, hs.before, hs.after⟩, Nat.le_refl _, trivial⟩

theorem popViews (k : Nat) (acc : List View) : Keep n QAny (Ccml.popViews e k acc) := by
  induction k generalizing n acc with
  | zero => exact Keep.pureAny _
  | succ k ih => exact Keep.bind Keep.pop fun _ _ a ha => Keep.bind (E.view ha) fun _ _ _ _ => ih _

theorem hostFn (b : HostFn) : Keep n QAny (b.run e) := by
  cases b <;> simp only [HostFn.run]
  case sdl fn =>
    unfold hostSdl
    refine Keep.bind (E.popViews _ _) fun _ _ xs _ => Keep.bind E.getIo fun _ _ io _ => ?_
    refine Keep.bind (Keep.lift _) fun _ _ x _ => ?_
    obtain ⟨d, r⟩ := x
    refine Keep.bind (E.modIo _) fun _ _ _ _ => Keep.bind (Keep.ite (fun _ => Keep.modTh fun _ _ _ h => h) fun _ => Keep.pureAny _) fun _ _ _ _ => ?_
    cases r with
    | none =>
      rw [show e.mem.nil = Val.none by rw [E.mem]; rfl]
      exact Keep.push trivial
    | int v => exact E.pushInt _
  case putc =>
    refine Keep.bind Keep.pop fun k1 h1 a ha => Keep.bind (E.view ha) fun k2 h2 lv _ => ?_
    cases lv <;> first
      | exact Keep.fault _
      | exact Keep.bind (E.modIo _) fun _ _ _ _ => E.pushInt _
      | exact Keep.bind (Keep.raise _) fun _ _ _ _ => E.pushInt _
  case puts =>
    refine Keep.bind Keep.pop fun k1 h1 a ha => Keep.bind (E.view ha) fun k2 h2 lv _ => ?_
    cases lv <;> first
      | exact Keep.fault _
      | exact Keep.bind (E.modIo _) fun _ _ _ _ => E.pushInt _
      | exact Keep.bind (Keep.raise _) fun _ _ _ _ => E.pushInt _
  case getc =>
    refine Keep.bind E.getIo fun k1 h1 io _ => ?_
    cases io.input with
    | nil => exact E.pushInt _
    | cons c cs => exact Keep.bind (E.modIo _) fun _ _ _ _ => E.pushInt _
  case gets =>
    refine Keep.bind E.getIo fun k1 h1 io _ => ?_
    cases io.input with
    | nil => exact Keep.fault _
    | cons c cs => exact Keep.bind (E.modIo _) fun _ _ _ _ => E.pushStr _ (noNul_cstr _)
  case rand =>
    exact Keep.bind E.getIo fun _ _ _ _ => Keep.bind (E.modIo _) fun _ _ _ _ => E.pushInt _

end EnvKeep

/-- The standard machine on the store. -/
theorem std_keep (prog : Program) (fl : FloatOps) (hs : ∀ s ∈ prog.strings, cstr s = s) :
    EnvKeep (Env.std prog fl Mem.abs) := by
  have host : ∀ nat, (∀ n f k, Keep n QAny (nat f k)) →
      HostKeep (⟨prog, fl, Mem.abs, {}, nat⟩ : Env Val Store) := fun nat hn =>
    ⟨hn, nofun, nofun, nofun, (fun h hh => by rcases hh with h | h | h | h | h | h <;> cases h),
      nofun, nofun⟩
  have base : EnvKeep ⟨prog, fl, Mem.abs, {}, fun _ _ => fault .ub⟩ :=
    ⟨rfl, hs, host _ fun _ _ _ => Keep.fault _⟩
  refine ⟨rfl, hs, host _ fun n f k => ?_⟩
  unfold nativeBuiltins
  cases Builtin.ofPtr f with
  | none =>
    dsimp only
    cases HostFn.ofPtr f with
    | none => exact Keep.fault _
    | some b => exact base.hostFn b
  | some b => exact base.builtin b k

namespace EnvKeep
variable (E : EnvKeep e)
include E

theorem hostStepOk {v v' : VmState Val Store} {op : HostOp} {o} (hok : op.Ok) (hv : WfVm v)
    (h : hostStep e v op = .ok (o, v')) : WfVm v' := by
  have fin : ∀ {α : Type} {r : Out (α × VmState Val Store)}
      {f : α × VmState Val Store → HostOut}, (r >>= fun x => Pure.pure (f x, x.2)) = .ok (o, v') →
      ∃ a, r = .ok (a, v') := by
    intro α r f h
    cases r with
    | error _ => cases h
    | ok x => cases h; exact ⟨x.1, rfl⟩
  have args : ∀ {xs : List View} {k : List Val × Store → Out (HostOut × VmState Val Store)},
      (∀ x ∈ xs, View.Ok x) → (hostValues e v.mem xs >>= k) = .ok (o, v') →
      ∃ ps, WfL v.mem.length ps ∧ k (ps, v.mem) = .ok (o, v') := by
    intro xs k hx h
    cases hq : hostValues e v.mem xs with
    | error _ => rw [hq] at h; cases h
    | ok r =>
      obtain ⟨h1, h2⟩ := E.hostValuesOk hx hq
      obtain ⟨ps, m⟩ := r
      dsimp only at h1
      subst h1
      rw [hq] at h
      exact ⟨ps, h2 _, h⟩
  cases op with
  | init => obtain ⟨a, h⟩ := fin h; exact E.initOk hv h
  | spawn f xs =>
    obtain ⟨ps, h1, h2⟩ := args hok h
    obtain ⟨a, h3⟩ := fin h2
    exact E.newThreadOk (v := { v with mem := v.mem }) hv h1 h3
  | resume c => obtain ⟨a, h⟩ := fin h; exact E.resumeOk hv h
  | call f xs fuel =>
    obtain ⟨ps, h1, h2⟩ := args hok h
    obtain ⟨a, h3⟩ := fin h2
    exact E.callOk (v := { v with mem := v.mem }) hv h1 h3
  | stepInst k => obtain ⟨a, h⟩ := fin h; exact E.onThreadOk hv E.stepInstKeep h
  | stepLine k fuel => obtain ⟨a, h⟩ := fin h; exact E.onThreadOk hv (E.stepLineKeep fuel) h
  | steps k cs => obtain ⟨a, h⟩ := fin h; exact E.onThreadOk hv (E.schedKeep cs) h
  | breakAdd k l =>
    obtain ⟨a, h⟩ := fin h
    exact E.onThreadOk hv (Keep.modTh (f := fun t => t.breakAdd l) fun _ _ _ h => h) h
  | breakRemove k l =>
    obtain ⟨a, h⟩ := fin h
    exact E.onThreadOk hv (Keep.modTh (f := fun t => t.breakRemove l) fun _ _ _ h => h) h

theorem sessionOk {ops : List HostOp} (hok : ∀ o ∈ ops, o.Ok) : ∀ {v v' : VmState Val Store} {os},
    WfVm v → session e v ops = (os, .ok v') → WfVm v' := by
  induction ops with
  | nil => intro v v' os hv h; cases h; exact hv
  | cons op ops ih =>
    intro v v' os hv h
    unfold session at h
    cases hq : hostStep e v op with
    | error f => rw [hq] at h; cases h
    | ok x =>
      obtain ⟨o, v2⟩ := x
      rw [hq] at h
      have h2 := E.hostStepOk (hok op (List.mem_cons_self ..)) hv hq
      dsimp only at h
      rcases hs : session e v2 ops with ⟨os2, r⟩
      rw [hs] at h
      cases h
      exact ih (fun y hy => hok y (List.mem_cons_of_mem _ hy)) h2 hs

end EnvKeep
end Ccml
