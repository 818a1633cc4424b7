import Verif.Frame
/-!
Lemmas about the collection hook `gcCollect` and about running a thread, for relations that ignore
the executing thread.
-/
namespace Ccml
variable {P M : Type}

theorem splitLike_flatten {α : Type} (l : List (List α)) : splitLike l l.flatten = l := by
  induction l with
  | nil => rfl
  | cons x xs ih => simp [splitLike, ih]

theorem splitLike_lengths {α : Type} (shape : List (List α)) (l : List α)
    (h : l.length = shape.flatten.length) :
    (splitLike shape l).map List.length = shape.map List.length := by
  induction shape generalizing l with
  | nil => rfl
  | cons x xs ih =>
    simp only [List.flatten_cons, List.length_append] at h
    simp only [splitLike, List.map_cons]
    rw [ih (l.drop x.length) (by rw [List.length_drop]; omega)]
    simp only [List.length_take]
    congr 1
    omega

theorem withStacks_self (ts : List (Thread P)) :
    withStacks ts (ts.map fun t => t.stack.reverse) = ts := by
  induction ts with
  | nil => rfl
  | cons t ts ih => simp [withStacks, ih]

/-- A thread with the stack contents forgotten but their number kept. -/
def Thread.shape (t : Thread P) : Thread P × Nat := ({ t with stack := [] }, t.stack.length)

theorem withStacks_shape (ts : List (Thread P)) (ss : List (List P))
    (h : ss.map List.length = ts.map fun t => t.stack.length) :
    (withStacks ts ss).map Thread.shape = ts.map Thread.shape := by
  induction ts generalizing ss with
  | nil => cases ss <;> rfl
  | cons t ts ih =>
    cases ss with
    | nil => simp at h
    | cons s ss =>
      simp only [List.map_cons, List.cons.injEq] at h
      simp only [withStacks, List.map_cons, ih ss h.2]
      congr 1
      simp [Thread.shape, h.1]

/-- The memory keeps the number of roots. -/
def KeepsRootCount (mem : MemOps P M) : Prop :=
  ∀ m r r' m', mem.collect m r = .ok (r', m') → r'.length = r.length

/-- The memory moves nothing. -/
def KeepsRoots (mem : MemOps P M) : Prop :=
  ∀ m r r' m', mem.collect m r = .ok (r', m') → r' = r

theorem gcCollect_keeps {e : Env P M} (hk : KeepsRoots e.mem) {s : St P M} {u : Unit}
    {s' : St P M} (h : gcCollect e s = .ok (u, s')) : s' = { s with mem := s'.mem } := by
  unfold gcCollect at h
  dsimp only at h
  split at h
  · cases h
  · rename_i roots m hc
    have := hk _ _ _ _ hc
    subst this
    rw [splitLike_flatten] at h
    dsimp only at h
    rw [withStacks_self] at h
    rw [List.drop_left, List.take_left] at h
    cases h
    rfl

theorem gcCollect_shape {e : Env P M} (hk : KeepsRootCount e.mem) {s : St P M} {u : Unit}
    {s' : St P M} (h : gcCollect e s = .ok (u, s')) :
    s'.globals.length = s.globals.length ∧ s'.th.shape = s.th.shape ∧
    s'.before.map Thread.shape = s.before.map Thread.shape ∧
    s'.after.map Thread.shape = s.after.map Thread.shape := by
  unfold gcCollect at h
  dsimp only at h
  split at h
  · cases h
  · rename_i roots m hc
    have hl := splitLike_lengths _ _ (hk _ _ _ _ hc)
    split at h
    · cases h
    · rename_i g ss hsp
      rw [hsp] at hl
      simp only [List.map_cons, List.cons.injEq, List.map_map, Function.comp_def,
        List.length_reverse] at hl
      have hw := withStacks_shape (s.before ++ s.th :: s.after) ss hl.2
      split at h
      · cases h
      · rename_i th after hd
        cases h
        refine ⟨hl.1, ?_⟩
        have h1 := congrArg (List.drop s.before.length) hw
        have h2 := congrArg (List.take s.before.length) hw
        rw [← List.map_drop, hd, ← List.map_drop, List.drop_left] at h1
        rw [← List.map_take, ← List.map_take, List.take_left] at h2
        simp only [List.map_cons, List.cons.injEq] at h1
        exact ⟨h1.1, h2, h1.2⟩

/-- Relations that ignore the executing thread, the memory, the globals, and input and output as host
functions change them. -/
structure Coarse (R : St P M → St P M → Prop) : Prop where
  any : ∀ (s : St P M) (t : Thread P) (m : M) (g : List P) (io : Io), IoNext s.io io →
    R s { s with th := t, mem := m, globals := g, io := io }
  trans : ∀ a b c, R a b → R b c → R a c

theorem Coarse.pre {R : St P M → St P M → Prop} (h : Coarse R) : Preorderish R := by
  refine ⟨fun s s' hc => ?_, h.trans⟩
  have := h.any s s'.th s'.mem s'.globals s'.io hc.io
  rw [show s' = { s with th := s'.th, mem := s'.mem, globals := s'.globals, io := s'.io } by
    rw [← hc.before, ← hc.after]]
  exact this

theorem Coarse.modTh {R : St P M → St P M → Prop} (h : Coarse R) (f : Thread P → Thread P) :
    Pres R (Ccml.modTh f : VM P M Unit) := by
  refine ⟨fun s a s' hx => ?_⟩
  cases hx
  exact h.any s _ _ _ _ (.refl _)

theorem Coarse.ret {R : St P M → St P M → Prop} (h : Coarse R) (e : Env P M) :
    Pres R (doRET e) :=
  doRET_pres h.pre e (leave_pres fun s _ _ _ => h.any s _ _ _ _ (.refl _))

theorem Coarse.wait {R : St P M → St P M → Prop} (h : Coarse R) (e : Env P M) :
    Pres R (builtinWait e) := by
  unfold builtinWait
  simp only [pushInt]
  pres h.pre
  all_goals exact h.modTh _

theorem stepImp_pres {R : St P M → St P M → Prop} (h : Coarse R) (e : Env P M)
    (hh : HostPres R e) : Pres R (stepImp e) := by
  unfold stepImp
  refine Pres.bind h.pre (Pres.readOpcode h.pre _) fun b => ?_
  refine Pres.bind h.pre (exec_pres h.pre e hh _ fun _ => h.ret e) fun _ => ?_
  exact Pres.bind h.pre (h.modTh _) fun _ => h.modTh _

/-- Also the end-of-thread handlers preserve `R`. -/
structure FinishPres (R : St P M → St P M → Prop) (e : Env P M) : Prop where
  error : ∀ h, e.handlers.onThreadError = some h → Pres R h
  finish : ∀ h, e.handlers.onThreadFinish = some h → Pres R h

theorem runHandler_pres {R : St P M → St P M → Prop} (hR : Preorderish R)
    {o : Option (VM P M Bool)} (ho : ∀ h, o = some h → Pres R h) : Pres R (runHandler o) := by
  cases o with
  | none => exact Pres.pure hR _
  | some h => exact Pres.bind hR (ho h rfl) fun _ => Pres.pure hR _

theorem finishHandlers_pres {R : St P M → St P M → Prop} (hR : Preorderish R) (e : Env P M)
    (hf : FinishPres R e) : Pres R (finishHandlers e) := by
  unfold finishHandlers errorHandler
  refine Pres.bind hR (Pres.bind hR (Pres.getTh hR) fun t => ?_) fun _ =>
    runHandler_pres hR hf.finish
  split
  · exact runHandler_pres hR hf.error
  · exact Pres.pure hR _

theorem resumeLoop_pres {R : St P M → St P M → Prop} (h : Coarse R) (e : Env P M)
    (hh : HostPres R e) (hf : FinishPres R e) (hg : Pres R (tickGc e)) (n : Nat) :
    Pres R (resumeLoop e n) := by
  induction n with
  | zero => exact Pres.pure h.pre _
  | succ n ih =>
    unfold resumeLoop
    refine Pres.bind h.pre hg fun _ => Pres.bind h.pre (stepImp_pres h e hh) fun _ => ?_
    refine Pres.bind h.pre (Pres.getTh h.pre) fun t => ?_
    split
    · exact Pres.bind h.pre (finishHandlers_pres h.pre e hf) fun _ => Pres.pure h.pre _
    · split
      · exact Pres.pure h.pre _
      · exact ih

theorem resume_pres {R : St P M → St P M → Prop} (h : Coarse R) (e : Env P M)
    (hh : HostPres R e) (hf : FinishPres R e) (hg : Pres R (tickGc e)) (n : I32) :
    Pres R (resume e n) := by
  have hl := resumeLoop_pres h e hh hf hg
  unfold resume runQuantum
  refine Pres.bind h.pre (Pres.getTh h.pre) fun t => ?_
  split
  · exact Pres.pure h.pre _
  · refine Pres.bind h.pre (h.modTh _) fun _ => ?_
    refine Pres.bind h.pre ?_ fun _ => Pres.bind h.pre (Pres.getTh h.pre) fun _ => Pres.pure h.pre _
    split
    · exact Pres.bind h.pre (hl _) fun _ => Pres.pure h.pre _
    · refine Pres.bind h.pre (hl _) fun b => ?_
      split
      · exact Pres.pure h.pre _
      · exact Pres.fault h.pre _

end Ccml
