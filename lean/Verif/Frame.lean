import Verif.MachineLemmas
/-!
What an instruction can change.  `exec_pres` reduces "every instruction preserves R" to: local
changes preserve R, and host functions and handlers preserve R.
-/
set_option linter.unusedSectionVars false
namespace Ccml
variable {P M : Type} {α β : Type}

/-- What host functions can do to input and output: take characters from the front of the input, write
characters behind the output, draw random numbers, and call the functions of the graphical driver: without such a call
its picture, clock mark and generator stay as they are. -/
structure IoNext (a b : Io) : Prop where
  output : a.output <+: b.output
  input : b.input <:+ a.input
  seed : ∃ k, b.seed = Nat.repeat xorshift32 k a.seed
  asked : a.asked ≤ b.asked
  sdl : b.asked = a.asked → b.sdl = a.sdl

theorem IoNext.refl (a : Io) : IoNext a a := ⟨List.prefix_rfl, List.suffix_rfl, ⟨0, rfl⟩, Nat.le_refl _, fun _ => rfl⟩

theorem repeat_add {γ : Type} (f : γ → γ) (x : γ) (m : Nat) : ∀ n, Nat.repeat f (n + m) x = Nat.repeat f n (Nat.repeat f m x)
  | 0 => by rw [Nat.zero_add]; rfl
  | n + 1 => by
    rw [Nat.succ_add]
    show f (Nat.repeat f (n + m) x) = f (Nat.repeat f n (Nat.repeat f m x))
    rw [repeat_add f x m n]

theorem IoNext.trans {a b c : Io} (h : IoNext a b) (k : IoNext b c) : IoNext a c := by
  refine ⟨h.1.trans k.1, k.2.trans h.2, ?_, Nat.le_trans h.asked k.asked, fun hs => ?_⟩
  · obtain ⟨m, hm⟩ := h.3
    obtain ⟨n, hn⟩ := k.3
    exact ⟨n + m, by rw [hn, hm, repeat_add]⟩
  · have := h.asked
    have := k.asked
    rw [k.sdl (by omega), h.sdl (by omega)]

/-- The bookkeeping fields of a thread that no instruction touches by itself. -/
structure SameMeta (t t' : Thread P) : Prop where
  waits : t'.waits = t.waits
  lastLine : t'.lastLine = t.lastLine
  cycles : t'.cycles = t.cycles
  halted : t'.halted = t.halted
  breakpoints : t'.breakpoints = t.breakpoints

theorem SameMeta.refl (t : Thread P) : SameMeta t t := ⟨rfl, rfl, rfl, rfl, rfl⟩

theorem SameMeta.trans {a b c : Thread P} (h : SameMeta a b) (k : SameMeta b c) : SameMeta a c :=
  ⟨k.1.trans h.1, k.2.trans h.2, k.3.trans h.3, k.4.trans h.4, k.5.trans h.5⟩

/-- A change of the executing thread, the memory, the globals, and input and output as host functions
change them. -/
structure LocalChange (s s' : St P M) : Prop where
  th : SameMeta s.th s'.th
  before : s'.before = s.before
  after : s'.after = s.after
  status : s'.th.finished = true ∨ s'.th.error = s.th.error ∧ s'.th.finished = s.th.finished
  io : IoNext s.io s'.io

theorem LocalChange.refl (s : St P M) : LocalChange s s := ⟨.refl _, rfl, rfl, .inr ⟨rfl, rfl⟩, .refl _⟩

theorem LocalChange.trans {a b c : St P M} (h : LocalChange a b) (k : LocalChange b c) :
    LocalChange a c := by
  refine ⟨h.1.trans k.1, k.2.trans h.2, k.3.trans h.3, ?_, h.io.trans k.io⟩
  rcases k.4 with k4 | ⟨k4, k5⟩
  · exact .inl k4
  · rcases h.4 with h4 | ⟨h4, h5⟩
    · exact .inl (k5.trans h4)
    · exact .inr ⟨k4.trans h4, k5.trans h5⟩

/-- `x` relates every start state to its end state by `R`. -/
structure Pres (R : St P M → St P M → Prop) (x : VM P M α) : Prop where
  run : ∀ s a s', x s = .ok (a, s') → R s s'

/-- A transitive relation containing local changes. -/
structure Preorderish (R : St P M → St P M → Prop) : Prop where
  loc : ∀ s s', LocalChange s s' → R s s'
  trans : ∀ a b c, R a b → R b c → R a c

theorem localPre : Preorderish (LocalChange (P := P) (M := M)) :=
  ⟨fun _ _ h => h, fun _ _ _ => LocalChange.trans⟩

section
variable {R : St P M → St P M → Prop} (hR : Preorderish R)
include hR

theorem Pres.pure (a : α) : Pres R (Pure.pure a : VM P M α) := by
  refine ⟨fun s b s' h => ?_⟩
  cases h
  exact hR.loc _ _ (.refl _)

theorem Pres.bind {x : VM P M α} {f : α → VM P M β} (hx : Pres R x) (hf : ∀ a, Pres R (f a)) :
    Pres R (x >>= f) := by
  refine ⟨fun s b s' h => ?_⟩
  rw [vm_bind] at h
  split at h
  · rename_i a s1 h1
    exact hR.trans _ _ _ (hx.run _ _ _ h1) ((hf a).run _ _ _ h)
  · cases h

theorem Pres.fault (f : Fault) : Pres R (fault f : VM P M α) := by
  refine ⟨fun s a s' h => ?_⟩; cases h

theorem Pres.lift (o : Out α) : Pres R (lift o : VM P M α) := by
  refine ⟨fun s a s' h => ?_⟩
  unfold Ccml.lift at h
  split at h <;> cases h
  exact hR.loc _ _ (.refl _)

theorem Pres.modTh {f : Thread P → Thread P} (hf : ∀ t, SameMeta t (f t) ∧
    ((f t).finished = true ∨ (f t).error = t.error ∧ (f t).finished = t.finished)) :
    Pres R (modTh f : VM P M Unit) := by
  refine ⟨fun s a s' h => ?_⟩
  cases h
  exact hR.loc _ _ ⟨(hf _).1, rfl, rfl, (hf _).2, .refl _⟩

theorem Pres.getTh : Pres R (getTh : VM P M (Thread P)) := by
  refine ⟨fun s a s' h => ?_⟩; cases h; exact hR.loc _ _ (.refl _)

theorem Pres.get : Pres R (MonadState.get : VM P M (St P M)) := by
  refine ⟨fun s a s' h => ?_⟩; cases h; exact hR.loc _ _ (.refl _)

theorem Pres.raise (x : TErr) : Pres R (raise x : VM P M Unit) :=
  Pres.modTh hR fun _ => ⟨⟨rfl, rfl, rfl, rfl, rfl⟩, .inl rfl⟩

theorem Pres.push (v : P) : Pres R (push v : VM P M Unit) :=
  Pres.modTh hR fun _ => ⟨⟨rfl, rfl, rfl, rfl, rfl⟩, .inr ⟨rfl, rfl⟩⟩

theorem Pres.jump (x : Int) : Pres R (jump x : VM P M Unit) :=
  Pres.modTh hR fun _ => ⟨⟨rfl, rfl, rfl, rfl, rfl⟩, .inr ⟨rfl, rfl⟩⟩

theorem Pres.enter (a : Nat) (b c : Int) : Pres R (enter a b c : VM P M Unit) :=
  Pres.modTh hR fun _ => ⟨⟨rfl, rfl, rfl, rfl, rfl⟩, .inr ⟨rfl, rfl⟩⟩

theorem Pres.reserve (e : Env P M) (n : Nat) : Pres R (reserve e n) :=
  Pres.modTh hR fun _ => ⟨⟨rfl, rfl, rfl, rfl, rfl⟩, .inr ⟨rfl, rfl⟩⟩

theorem Pres.pop : Pres R (pop : VM P M P) := by
  refine ⟨fun s a s' h => ?_⟩
  unfold Ccml.pop at h
  split at h <;> cases h
  exact hR.loc _ _ ⟨⟨rfl, rfl, rfl, rfl, rfl⟩, rfl, rfl, .inr ⟨rfl, rfl⟩, .refl _⟩

theorem Pres.discard (n : Nat) : Pres R (discard n : VM P M Unit) := by
  refine ⟨fun s a s' h => ?_⟩
  unfold Ccml.discard at h
  split at h <;> cases h
  exact hR.loc _ _ ⟨⟨rfl, rfl, rfl, rfl, rfl⟩, rfl, rfl, .inr ⟨rfl, rfl⟩, .refl _⟩

theorem Pres.pushNew (f : M → Out (P × M)) : Pres R (pushNew f) := by
  refine ⟨fun s a s' h => ?_⟩
  unfold Ccml.pushNew at h
  split at h <;> cases h
  exact hR.loc _ _ ⟨⟨rfl, rfl, rfl, rfl, rfl⟩, rfl, rfl, .inr ⟨rfl, rfl⟩, .refl _⟩

theorem Pres.view (e : Env P M) (p : P) : Pres R (view e p) := by
  refine ⟨fun s a s' h => ?_⟩
  exact (Pres.lift hR _).run _ _ _ h

theorem Pres.readOpcode (e : Env P M) : Pres R (readOpcode e) := by
  refine ⟨fun s a s' h => ?_⟩
  unfold Ccml.readOpcode at h
  split at h
  · cases h
  · split at h
    · cases h
    · split at h <;> cases h
      exact hR.loc _ _ ⟨⟨rfl, rfl, rfl, rfl, rfl⟩, rfl, rfl, .inr ⟨rfl, rfl⟩, .refl _⟩

theorem Pres.readOperand (e : Env P M) : Pres R (readOperand e) := by
  refine ⟨fun s a s' h => ?_⟩
  unfold Ccml.readOperand at h
  split at h
  · cases h
  · split at h
    · cases h
    · split at h <;> cases h
      exact hR.loc _ _ ⟨⟨rfl, rfl, rfl, rfl, rfl⟩, rfl, rfl, .inr ⟨rfl, rfl⟩, .refl _⟩

theorem Pres.curFrame : Pres R (curFrame : VM P M Frame) := by
  refine ⟨fun s a s' h => ?_⟩
  unfold Ccml.curFrame at h
  split at h <;> cases h
  exact hR.loc _ _ (.refl _)

theorem Pres.stackGet (e : Env P M) (i : Int) : Pres R (stackGet e i) := by
  refine ⟨fun s a s' h => ?_⟩
  unfold Ccml.stackGet at h
  split at h
  · cases h; exact hR.loc _ _ (.refl _)
  · cases h
    exact hR.loc _ _ ⟨⟨rfl, rfl, rfl, rfl, rfl⟩, rfl, rfl, .inl rfl, .refl _⟩

theorem Pres.stackSet (i : Int) (v : P) : Pres R (stackSet i v : VM P M Unit) := by
  refine ⟨fun s a s' h => ?_⟩
  unfold Ccml.stackSet at h
  split at h
  · cases h; exact hR.loc _ _ ⟨⟨rfl, rfl, rfl, rfl, rfl⟩, rfl, rfl, .inr ⟨rfl, rfl⟩, .refl _⟩
  · exact (Pres.raise hR _).run _ _ _ h

theorem Pres.setMem (m : M) : Pres R (modify fun s => { s with mem := m } : VM P M Unit) := by
  refine ⟨fun s a s' h => ?_⟩
  cases h
  exact hR.loc _ _ ⟨.refl _, rfl, rfl, .inr ⟨rfl, rfl⟩, .refl _⟩

theorem Pres.setGlobal (i : Nat) (v : P) :
    Pres R (modify fun s => { s with globals := s.globals.set i v } : VM P M Unit) := by
  refine ⟨fun s a s' h => ?_⟩
  cases h
  exact hR.loc _ _ ⟨.refl _, rfl, rfl, .inr ⟨rfl, rfl⟩, .refl _⟩

theorem Pres.setGlobals (g : List P) :
    Pres R (fun s => .ok ((), { s with globals := g }) : VM P M Unit) := by
  refine ⟨fun s a s' h => ?_⟩
  cases h
  exact hR.loc _ _ ⟨.refl _, rfl, rfl, .inr ⟨rfl, rfl⟩, .refl _⟩

end

/-- Decompose a machine program into its primitives. -/
macro "pres" hR:term : tactic => `(tactic|
  repeat' (first
    | with_reducible exact Pres.pure $hR _
    | with_reducible exact Pres.fault $hR _
    | with_reducible exact Pres.lift $hR _
    | with_reducible exact Pres.raise $hR _
    | with_reducible exact Pres.push $hR _
    | with_reducible exact Pres.pop $hR
    | with_reducible exact Pres.jump $hR _
    | with_reducible exact Pres.enter $hR _ _ _
    | with_reducible exact Pres.reserve $hR _ _
    | with_reducible exact Pres.discard $hR _
    | with_reducible exact Pres.pushNew $hR _
    | with_reducible exact Pres.view $hR _ _
    | with_reducible exact Pres.readOperand $hR _
    | with_reducible exact Pres.readOpcode $hR _
    | with_reducible exact Pres.curFrame $hR
    | with_reducible exact Pres.stackGet $hR _ _
    | with_reducible exact Pres.stackSet $hR _ _
    | with_reducible exact Pres.setMem $hR _
    | with_reducible exact Pres.setGlobal $hR _ _
    | with_reducible exact Pres.setGlobals $hR _
    | with_reducible exact Pres.getTh $hR
    | with_reducible exact Pres.get $hR
    | with_reducible refine Pres.bind $hR ?_ ?_
    | intro _
    | split
    | dsimp only))

/-- Host functions and handlers preserve `R`. -/
structure HostPres (R : St P M → St P M → Prop) (e : Env P M) : Prop where
  native : ∀ f n, Pres R (e.native f n)
  memberGet : ∀ h, e.handlers.onMemberGet = some h → ∀ a b, Pres R (h a b)
  memberSet : ∀ h, e.handlers.onMemberSet = some h → ∀ a b c, Pres R (h a b c)
  arrayGet : ∀ h, e.handlers.onArrayGet = some h → ∀ a b, Pres R (h a b)
  arraySet : ∀ h, e.handlers.onArraySet = some h → ∀ a b c, Pres R (h a b c)
  equals : ∀ h, e.handlers.onEquals = some h → ∀ a b, Pres R (h a b)
  add : ∀ h, e.handlers.onAdd = some h → ∀ a b, Pres R (h a b)
  sub : ∀ h, e.handlers.onSub = some h → ∀ a b, Pres R (h a b)
  mul : ∀ h, e.handlers.onMul = some h → ∀ a b, Pres R (h a b)
  div : ∀ h, e.handlers.onDiv = some h → ∀ a b, Pres R (h a b)

theorem tryHandler_pres {R : St P M → St P M → Prop} (hR : Preorderish R)
    {o : Option (P → P → VM P M Bool)} (ho : ∀ h, o = some h → ∀ a b, Pres R (h a b)) (l r : P) :
    Pres R (tryHandler o l r) := by
  unfold tryHandler
  split
  · exact Pres.bind hR (ho _ rfl _ _) (fun b => by pres hR)
  · pres hR

theorem popN_pres {R : St P M → St P M → Prop} (hR : Preorderish R) (n : Nat) :
    Pres R (popN n : VM P M Unit) := by
  induction n with
  | zero => exact Pres.pure hR _
  | succ n ih => exact Pres.bind hR (Pres.pop hR) (fun _ => ih)

theorem fillArray_pres {R : St P M → St P M → Prop} (hR : Preorderish R) (e : Env P M) (a : P)
    (n : Nat) : Pres R (fillArray e a n) := by
  induction n with
  | zero => exact Pres.pure hR _
  | succ n ih =>
    unfold fillArray
    refine Pres.bind hR (Pres.pop hR) fun v => Pres.bind hR (Pres.get hR) fun s => ?_
    refine Pres.bind hR (Pres.lift hR _) fun m => Pres.bind hR (Pres.setMem hR _) fun _ => ih

/-- The state just before the frame is left, and the rest of a return. -/
theorem doRET_pres {R : St P M → St P M → Prop} (hR : Preorderish R) (e : Env P M)
    (hl : Pres R (leave : VM P M Int)) : Pres R (doRET e) := by
  unfold doRET
  pres hR
  exact hl

/-- For relations that do not look at the status of the thread. -/
theorem leave_pres {R : St P M → St P M → Prop}
    (h : ∀ (s : St P M) (fin : Bool) (err : TErr) (fs : List Frame),
      R s { s with th := { s.th with finished := fin, error := err, frames := fs } }) :
    Pres R (leave : VM P M Int) := by
  refine ⟨fun s a s' h' => ?_⟩
  unfold Ccml.leave at h'
  split at h'
  · rename_i hf
    cases h'
    have := h s true .stack_underflow s.th.frames
    exact this
  · dsimp only at h'
    split at h'
    · cases h'
    · cases h'
      have := h s
      rename_i f fs _ _
      exact h s (f.terminal || fs.isEmpty) s.th.error fs

set_option maxHeartbeats 1000000 in
theorem exec_pres {R : St P M → St P M → Prop} (hR : Preorderish R) (e : Env P M)
    (hh : HostPres R e) (op : Option Op)
    (hret : op = some .RET → Pres R (doRET e)) : Pres R (exec e op) := by
  have hsys : ∀ a b, Pres R (doSyscall e a b) := by
    intro a b; unfold doSyscall
    split
    · pres hR
    · split
      · pres hR
      · split
        · pres hR
        · exact hh.native _ _
  have hgetm : ∀ a b, Pres R (getmHandler e a b) := by
    intro a b; unfold getmHandler
    split
    · rename_i h hq
      exact Pres.bind hR (hh.memberGet h hq _ _) (fun b => by pres hR)
    · pres hR
  cases op with
  | none => exact Pres.raise hR _
  | some op =>
    cases op <;>
      simp only [exec, doADD, doSUB, doMUL, doDIV, doMOD, doAND, doOR, doNOT, doNEG, doLT, doGT,
        doLEQ, doGEQ, doCompare, doEQ, doJMP, doTJMP, doFJMP, doCALL, doSCALL, doICALL, doPOP,
        doNEW_INT, doNEW_STR, doNEW_ARY, doNEW_NONE, doNEW_FLT, doNEW_FUNC, doNEW_SCALL, doGLOBALS,
        doLOCALS, doGETV, doSETV, doGETG, doSETG, doDEREF, derefCore, doSETA, setaCore, memberName,
        doSETM, doGETM, doARY_INIT, pushInt, pushFloat, pushStr, pushFunc, pushSyscall, pushBool] <;>
      pres hR
    all_goals first
      | exact tryHandler_pres hR hh.add _ _
      | exact tryHandler_pres hR hh.sub _ _
      | exact tryHandler_pres hR hh.mul _ _
      | exact tryHandler_pres hR hh.div _ _
      | exact tryHandler_pres hR hh.equals _ _
      | exact hret rfl
      | exact hsys _ _
      | exact hgetm _ _
      | exact popN_pres hR _
      | exact fillArray_pres hR _ _ _
      | (rename_i h hq; exact hh.arrayGet h hq _ _)
      | (rename_i h hq; exact hh.arraySet h hq _ _ _)
      | (rename_i h hq; exact hh.memberSet h hq _ _ _)

theorem popArgs_pres {R : St P M → St P M → Prop} (hR : Preorderish R) (n : Nat) (acc : List P) :
    Pres R (popArgs n acc : VM P M (List P)) := by
  induction n generalizing acc with
  | zero => exact Pres.pure hR _
  | succ n ih => exact Pres.bind hR (Pres.pop hR) (fun v => ih _)

theorem builtin_pres {R : St P M → St P M → Prop} (hR : Preorderish R) (e : Env P M)
    (hs : ∀ f a, Pres R (spawn e f a)) (hw : Pres R (builtinWait e)) (b : Builtin) (n : I32) :
    Pres R (b.run e n) := by
  cases b <;>
    simp only [Builtin.run, builtinAbs, builtinPick, builtinBitand, builtinLen, builtinChr,
      builtinMath, builtinNewThread, builtinNewArray, pushInt, pushFloat, pushStr] <;>
    pres hR
  all_goals first
    | exact popArgs_pres hR _ _
    | exact hs _ _
    | exact hw

theorem Pres.modIo {R : St P M → St P M → Prop} (hR : Preorderish R) (f : Io → Io) (hf : ∀ io, IoNext io (f io)) :
    Pres R (modIo f : VM P M Unit) := by
  refine ⟨fun s a s' h => ?_⟩
  cases h
  exact hR.loc _ _ ⟨.refl _, rfl, rfl, .inr ⟨rfl, rfl⟩, hf _⟩

theorem Pres.getIo {R : St P M → St P M → Prop} (hR : Preorderish R) : Pres R (getIo : VM P M Io) := by
  refine ⟨fun s a s' h => ?_⟩; cases h; exact hR.loc _ _ (.refl _)

theorem fgets_suffix : ∀ (n : Nat) (s : Str), (fgets n s).2 <:+ s
  | 0, s => by unfold fgets; exact List.suffix_rfl
  | n + 1, [] => by unfold fgets; exact List.suffix_rfl
  | n + 1, c :: s => by
    unfold fgets
    split
    · exact List.suffix_cons _ _
    · exact (fgets_suffix n s).trans (List.suffix_cons _ _)

theorem popViews_pres {R : St P M → St P M → Prop} (hR : Preorderish R) (e : Env P M) : ∀ (n : Nat) (acc : List View),
    Pres R (popViews e n acc)
  | 0, _ => Pres.pure hR _
  | n + 1, _ => Pres.bind hR (Pres.pop hR) fun _ => Pres.bind hR (Pres.view hR _ _) fun _ => popViews_pres hR e n _

theorem draw_halted {d d' : Sdl.Driver} {r : Sdl.Ret} {f : Sdl.Video → Out Sdl.Video}
    (h : Sdl.draw d f = .ok (d', r)) : d'.halted = d.halted := by
  unfold Sdl.draw at h
  cases hv : f d.video with
  | error x => rw [hv] at h; cases h
  | ok g => rw [hv] at h; cases h; rfl

theorem nums_halted {d d' : Sdl.Driver} {r : Sdl.Ret} {o : Option (Out (List I32))}
    {k : List I32 → Out (Sdl.Driver × Sdl.Ret)} (hk : ∀ ys, k ys = .ok (d', r) → d'.halted = d.halted)
    (h : (match o with | some xs => xs >>= k | none => .ok (d, .none)) = .ok (d', r)) : d'.halted = d.halted := by
  cases o with
  | none => cases h; rfl
  | some x =>
    cases x with
    | error _ => cases h
    | ok ys => exact hk ys h

/-- Only `sleep` halts. -/
theorem call_halted {fl : FloatOps} {o : Sdl.Outside} {fn : Sdl.Fn} {xs : List View} {d d' : Sdl.Driver} {r : Sdl.Ret}
    (hfn : fn ≠ .sleep) (h : fn.call fl o xs d = .ok (d', r)) : d'.halted = d.halted := by
  cases fn with
  | cls =>
    rcases xs with _ | ⟨a, xs⟩
    · exact draw_halted h
    · cases h
  | rand =>
    rcases xs with _ | ⟨a, xs⟩
    · cases h; rfl
    · cases h
  | flip =>
    rcases xs with _ | ⟨a, xs⟩
    · exact draw_halted h
    · cases h
  | video =>
    rcases xs with _ | ⟨a, _ | ⟨b, _ | ⟨c, xs⟩⟩⟩
    · cases h
    · cases a <;> cases h
    · cases a <;> cases b <;> try (cases h; rfl)
      rename_i w hh
      change (Sdl.video (o.window (w * 3).toNat (hh * 3).toNat) w.toInt hh.toInt d.video >>= fun x => _) = _ at h
      cases hv : Sdl.video (o.window (w * 3).toNat (hh * 3).toNat) w.toInt hh.toInt d.video with
      | error x => rw [hv] at h; cases h
      | ok g => rw [hv] at h; cases h; rfl
    · cases a <;> cases b <;> cases h
  | plot =>
    rcases xs with _ | ⟨a, _ | ⟨b, _ | ⟨c, xs⟩⟩⟩
    · cases h
    · cases h
    · refine nums_halted (fun ys hy => ?_) h
      rcases ys with _ | ⟨x, _ | ⟨y, _ | ⟨z, ys⟩⟩⟩ <;> first | exact draw_halted hy | cases hy
    · cases h
  | setrgb =>
    rcases xs with _ | ⟨a, _ | ⟨b, _ | ⟨c, _ | ⟨e, xs⟩⟩⟩⟩
    · cases h
    · cases h
    · cases h
    · refine nums_halted (fun ys hy => ?_) h
      rcases ys with _ | ⟨x, _ | ⟨y, _ | ⟨z, _ | ⟨u, ys⟩⟩⟩⟩ <;> first | exact draw_halted hy | cases hy
    · cases h
  | circle =>
    rcases xs with _ | ⟨a, _ | ⟨b, _ | ⟨c, _ | ⟨e, xs⟩⟩⟩⟩
    · cases h
    · cases h
    · cases h
    · refine nums_halted (fun ys hy => ?_) h
      rcases ys with _ | ⟨x, _ | ⟨y, _ | ⟨z, _ | ⟨u, ys⟩⟩⟩⟩ <;> first | exact draw_halted hy | cases hy
    · cases h
  | line =>
    rcases xs with _ | ⟨a, _ | ⟨b, _ | ⟨c, _ | ⟨e, _ | ⟨g, xs⟩⟩⟩⟩⟩
    · cases h
    · cases a <;> cases h
    · cases a <;> cases b <;> cases h
    · cases a <;> cases b <;> cases c <;> cases h
    · cases a with
      | int x0 =>
        cases b with
        | int y0 =>
          cases c with
          | int x1 =>
            cases e with
            | int y1 =>
              exact draw_halted (f := Sdl.line x0.toInt y0.toInt x1.toInt y1.toInt) h
            | _ => cases h; rfl
          | _ => cases h; rfl
        | _ => cases h; rfl
      | _ => cases h; rfl
    · cases a with
      | int x0 =>
        cases b with
        | int y0 =>
          cases c with
          | int x1 => cases e <;> cases h
          | _ => cases h
        | _ => cases h
      | _ => cases h
  | sleep => exact absurd rfl hfn
  | keydown =>
    rcases xs with _ | ⟨a, _ | ⟨b, xs⟩⟩
    · cases h
    · cases a with
      | str s =>
        change (if s ∈ Sdl.keyNames then _ else _) = _ at h
        by_cases hk : s ∈ Sdl.keyNames
        · rw [if_pos hk] at h; cases h; rfl
        · rw [if_neg hk] at h; cases h; rfl
      | _ => cases h; rfl
    · cases a <;> cases h

theorem hostSdl_pres {R : St P M → St P M → Prop} (hR : Preorderish R) (e : Env P M) (fn : Sdl.Fn)
    (hh : fn = .sleep → Pres R (haltTh : VM P M Unit)) : Pres R (hostSdl e fn) := by
  unfold hostSdl
  refine Pres.bind hR (popViews_pres hR e _ _) fun xs => ⟨fun s a s' h => ?_⟩
  rw [vm_bind_ok (show Ccml.getIo s = .ok (s.io, s) from rfl)] at h
  cases hc : fn.call e.fl (s.io.outside s.io.asked) xs { s.io.sdl with halted := false } with
  | error f => rw [hc] at h; cases h
  | ok x =>
    obtain ⟨d, r⟩ := x
    rw [hc, vm_bind_ok (show Ccml.lift (.ok (d, r)) s = .ok ((d, r), s) from rfl)] at h
    dsimp only at h
    refine (Pres.bind hR (Pres.modIo hR (fun io => { io with sdl := { d with halted := false }, asked := io.asked + 1 })
        fun io => ⟨List.prefix_rfl, List.suffix_rfl, ⟨0, rfl⟩, Nat.le_succ _, fun h => absurd h (Nat.succ_ne_self _)⟩) fun _ => Pres.bind hR ?_ fun _ => ?_ : Pres R _).run _ _ _ h
    · by_cases hd : d.halted = true
      · rw [if_pos hd]
        refine hh ?_
        by_cases hfn : fn = .sleep
        · exact hfn
        · rw [call_halted hfn hc] at hd
          cases hd
      · rw [if_neg hd]
        exact Pres.pure hR _
    · cases r with
      | none => exact Pres.push hR _
      | int v => unfold pushInt; exact Pres.pushNew hR _

theorem hostFn_pres {R : St P M → St P M → Prop} (hR : Preorderish R) (e : Env P M) (b : HostFn)
    (hh : b = .sdl .sleep → Pres R (haltTh : VM P M Unit)) : Pres R (b.run e) := by
  cases b with
  | sdl fn => exact hostSdl_pres hR e fn fun h => hh (by rw [h])
  | putc =>
    simp only [HostFn.run, hostPutc, pushInt]
    pres hR
    exact Pres.modIo hR _ fun io => ⟨List.prefix_append _ _, List.suffix_rfl, ⟨0, rfl⟩, Nat.le_refl _, fun _ => rfl⟩
  | puts =>
    simp only [HostFn.run, hostPuts, pushInt]
    pres hR
    exact Pres.modIo hR _ fun io => ⟨List.prefix_append _ _, List.suffix_rfl, ⟨0, rfl⟩, Nat.le_refl _, fun _ => rfl⟩
  | rand =>
    simp only [HostFn.run, hostRand, pushInt]
    pres hR
    · exact Pres.getIo hR
    · exact Pres.modIo hR _ fun io => ⟨List.prefix_rfl, List.suffix_rfl, ⟨1, rfl⟩, Nat.le_refl _, fun _ => rfl⟩
  | getc =>
    refine ⟨fun s a s' h => ?_⟩
    simp only [HostFn.run, hostGetc] at h
    rw [vm_bind] at h
    simp only [Ccml.getIo] at h
    cases hi : s.io.input with
    | nil =>
      rw [hi] at h
      exact (show Pres R (pushInt e (-1)) by unfold pushInt; pres hR).run _ _ _ h
    | cons c cs =>
      rw [hi] at h
      dsimp only at h
      rw [vm_bind] at h
      simp only [Ccml.modIo] at h
      refine hR.trans _ _ _ (hR.loc _ _ ?_)
        ((show Pres R (pushInt e (c.setWidth 32)) by unfold pushInt; pres hR).run _ _ _ h)
      refine ⟨.refl _, rfl, rfl, .inr ⟨rfl, rfl⟩, ?_⟩
      exact ⟨List.prefix_rfl, by rw [hi]; exact List.suffix_cons _ _, ⟨0, rfl⟩, Nat.le_refl _, fun _ => rfl⟩
  | gets =>
    simp only [HostFn.run, hostGets, pushStr]
    pres hR
    · exact Pres.getIo hR
    · exact Pres.modIo hR _ fun io => ⟨List.prefix_rfl, fgets_suffix _ _, ⟨0, rfl⟩, Nat.le_refl _, fun _ => rfl⟩

/-- Machines with the usual host functions. -/
theorem std_host_pres {R : St P M → St P M → Prop} (hR : Preorderish R) (prog : Program)
    (fl : FloatOps) (mem : MemOps P M)
    (hs : ∀ e : Env P M, e.prog = prog → e.fl = fl → e.mem = mem → ∀ f a, Pres R (spawn e f a))
    (hw : ∀ e : Env P M, e.prog = prog → e.fl = fl → e.mem = mem → Pres R (builtinWait e))
    (hh : Pres R (haltTh : VM P M Unit)) :
    HostPres R (Env.std prog fl mem) := by
  refine ⟨?_, ?_, ?_, ?_, ?_, ?_, ?_, ?_, ?_, ?_⟩
  · intro f n
    simp only [Env.std, nativeBuiltins]
    split
    · exact builtin_pres hR _ (hs _ rfl rfl rfl) (hw _ rfl rfl rfl) _ _
    · split
      · exact hostFn_pres hR _ _ fun _ => hh
      · exact Pres.fault hR _
  all_goals (intro h hq; simp [Env.std] at hq)

end Ccml
