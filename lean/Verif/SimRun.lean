import Verif.SimExec
/-!
Built-in functions, collections, scheduling and host calls act the same on the collected heap as
on the mathematical store.
-/
set_option linter.unusedSectionVars false
namespace Ccml
open World

variable {e : Env Val Store} {e' : Env (Option Ptr) Heap} {w : World}

/-! ### Built-ins -/

theorem Sim.popArgs (n : Nat) {acc : List Val} {acc' : List (Option Ptr)}
    (h : All2 w.Rel acc acc') :
    Sim w (fun w1 => All2 w1.Rel) (popArgs n acc) (Ccml.popArgs n acc') := by
  induction n generalizing w acc acc' with
  | zero => exact Sim.pure fun w1 h1 => h.mono fun _ _ r => r.mono h1
  | succ n ih =>
    exact Sim.bindRel Sim.pop fun w1 h1 a p hr => ih (.cons hr (h.mono fun _ _ r => r.mono h1))

namespace EnvSim
variable (E : EnvSim e e')
include E

theorem copyList {args : List Val} {args' : List (Option Ptr)} {acc acc'}
    (ha : All2 w.Rel acc acc') (h : All2 w.Rel args args') :
    match copyArgs e' w.h acc' args' with
    | .error f => Limit f ∨ copyArgs e w.m acc args = .error f
    | .ok (ps, h') => ∃ vs w', copyArgs e w.m acc args = .ok (vs, w'.m) ∧ Le w w' ∧ w'.h = h' ∧
        All2 w'.Rel vs ps := by
  induction args' generalizing w acc acc' args with
  | nil => cases h; exact ⟨acc, w, rfl, .refl _, rfl, ha⟩
  | cons p ps ih =>
    cases h
    rename_i v vs hv hr
    have hc := E.copy hv
    unfold copyArgs
    unfold AgreeNew at hc
    split at hc
    · rename_i f hf
      rw [hf]
      dsimp only
      rcases hc with h | h
      · exact .inl h
      · rw [h]; exact .inr rfl
    · rename_i b h' hq
      obtain ⟨u, m, w2, h6, h7, h8, h9, h10⟩ := hc
      subst h8; subst h9
      rw [hq, h6]
      dsimp only
      have := ih (w := w2) (acc := u :: acc) (acc' := b :: acc')
        (.cons h10 (ha.mono fun _ _ r => r.mono h7)) (hr.mono fun _ _ r => r.mono h7)
      split
      · rename_i f hf; rw [hf] at this; exact this
      · rename_i x h' hf
        rw [hf] at this
        obtain ⟨vs', w3, h1, h2, h3, h4⟩ := this
        exact ⟨vs', w3, h1, h7.trans h2, h3, h4⟩

theorem prepareSim (f : Function) {args : List Val} {args' : List (Option Ptr)}
    (h : All2 w.Rel args args') :
    match prepare e' w.h f args' with
    | .error x => Limit x ∨ prepare e w.m f args = .error x
    | .ok none => prepare e w.m f args = .ok none
    | .ok (some (t', h')) => ∃ t w', prepare e w.m f args = .ok (some (t, w'.m)) ∧ Le w w' ∧
        w'.h = h' ∧ w'.Th t t' := by
  unfold prepare
  rw [h.length]
  by_cases hn : f.numArgs ≠ args'.length
  · rw [if_pos hn, if_pos hn]
  · rw [if_neg hn, if_neg hn]
    have hc := E.copyList .nil h
    cases hx : copyArgs e' w.h [] args' with
    | error x =>
      rw [hx] at hc
      rcases hc with hc | hc
      · exact .inl hc
      · rw [hc]; exact .inr rfl
    | ok x =>
      rw [hx] at hc
      obtain ⟨ps, h'⟩ := x
      obtain ⟨vs, w', h1, h2, h3, h4⟩ := hc
      rw [h1]
      exact ⟨_, w', rfl, h2, h3, ⟨rfl, rfl, rfl, rfl, rfl, rfl, rfl, by dsimp only; rw [h4.length],
        rfl, h4⟩⟩

theorem spawnSim (f : Function) {args : List Val} {args' : List (Option Ptr)}
    (h : All2 w.Rel args args') : Sim w QEq (spawn e f args) (spawn e' f args') := by
  refine ⟨fun w1 h1 s s' hs => ?_⟩
  have hp := E.prepareSim f (h.mono fun _ _ r => r.mono h1)
  unfold spawn
  rw [hs.m, hs.h]
  cases hx : prepare e' w1.h f args' with
  | error x =>
    rw [hx] at hp
    rcases hp with hp | hp
    · exact .inl hp
    · rw [hp]; exact .inr rfl
  | ok x =>
    rw [hx] at hp
    cases x with
    | none =>
      dsimp only at hp
      rw [hp]
      exact ⟨_, s, w1, rfl, .refl _, hs, rfl⟩
    | some x =>
      obtain ⟨t', h'⟩ := x
      obtain ⟨t, w2, h2, h3, h4, h5⟩ := hp
      rw [h2]
      exact ⟨_, _, w2, rfl, h3, ⟨rfl, h4.symm, hs.globals.mono fun _ _ r => r.mono h3,
        hs.th.mono h3, .cons h5 (hs.before.mono fun _ _ r => r.mono h3),
        hs.after.mono fun _ _ r => r.mono h3, hs.io⟩, rfl⟩

theorem mathSim (f : F32 → F32) : Sim w QEq (builtinMath e f) (builtinMath e' f) := by
  refine Sim.bindRel Sim.pop fun w1 h1 a p ha => Sim.bindView (E.view ha) fun w2 h2 v hv => ?_
  cases v <;> simp only [View.num?, E.fl] <;> first
    | exact Sim.raise _
    | exact E.pushFloat _

theorem builtin (b : Builtin) (n : I32) : Sim w QEq (b.run e n) (b.run e' n) := by
  cases b <;> simp only [Builtin.run, E.fl]
  case abs =>
    refine Sim.bindRel Sim.pop fun w1 h1 a p ha => Sim.bindView (E.view ha) fun w2 h2 v hv => ?_
    rw [E.fl]
    cases v <;> first
      | exact Sim.raise _
      | exact E.pushFloat _
      | exact Sim.bindLift fun _ _ => E.pushInt _
  case bitand =>
    refine Sim.bindRel Sim.pop fun w1 h1 a p ha => Sim.bindRel Sim.pop fun w2 h2 b q hb => ?_
    refine Sim.bindView (E.view (ha.mono h2)) fun w3 h3 av _ => ?_
    refine Sim.bindView (E.view (hb.mono h3)) fun w4 h4 bv _ => ?_
    cases av <;> cases bv <;> first
      | exact Sim.raise _
      | exact E.pushInt _
  case len =>
    refine Sim.bindRel Sim.pop fun w1 h1 a p ha => Sim.bindView (E.view ha) fun w2 h2 v hv => ?_
    cases v <;> first
      | exact Sim.raise _
      | exact E.pushInt _
  case chr =>
    refine Sim.bindRel Sim.pop fun w1 h1 a p ha => Sim.bindView (E.view ha) fun w2 h2 v hv => ?_
    cases v <;> first
      | exact Sim.raise _
      | exact E.pushStr _ (noNul_cstr _)
  case new_thread =>
    unfold builtinNewThread
    refine Sim.ite (fun _ => Sim.raise _) fun _ => ?_
    refine Sim.bind (Sim.popArgs _ .nil) fun w1 h1 args args' hargs => ?_
    refine Sim.bindRel Sim.pop fun w2 h2 a p ha => Sim.bindView (E.view ha) fun w3 h3 v hv => ?_
    cases v <;> first
      | exact Sim.raise _
      | skip
    rename_i addr
    dsimp only
    rw [E.prog]
    cases e.prog.findByPc addr with
    | none => exact Sim.raise _
    | some f =>
      refine Sim.ite (fun _ => Sim.raise _) fun _ => ?_
      exact Sim.bindEq (E.spawnSim f (hargs.mono fun _ _ r => r.mono (h2.trans h3)))
        fun _ _ _ => E.pushInt _
  case wait =>
    refine Sim.bindRel Sim.pop fun w1 h1 a p ha => Sim.bindView (E.view ha) fun w2 h2 v hv => ?_
    rw [E.fl]
    cases v.int? e.fl with
    | none => exact Sim.raise _
    | some o =>
      refine Sim.bindEq (Sim.lift o) fun _ _ x => ?_
      refine Sim.bindEq (Sim.modTh fun _ _ _ _ h => ⟨rfl, h.2, h.3, h.4, h.5, h.6, h.7, h.8, h.9,
        h.10⟩) fun _ _ _ => Sim.bindEq (E.pushInt _) fun _ _ _ => ?_
      exact Sim.ite (fun _ => Sim.modTh fun _ _ _ _ h => ⟨h.1, h.2, h.3, h.4, h.5, rfl, h.7, h.8,
        h.9, h.10⟩) fun _ => Sim.pureEq _
  case new_array =>
    refine Sim.bindRel Sim.pop fun w1 h1 a p ha => Sim.bindView (E.view ha) fun w2 h2 v hv => ?_
    rw [E.fl]
    cases v.int? e.fl with
    | none => exact Sim.raise _
    | some o =>
      refine Sim.bindEq (Sim.lift o) fun _ _ x => Sim.ite (fun _ => Sim.raise _) fun hx => ?_
      exact E.pushNew fun w1 _ => E.newArr w1 _ (E.nat_lt x hx)
  case min => 
    refine Sim.bindRel Sim.pop fun w1 h1 a p ha => Sim.bindRel Sim.pop fun w2 h2 b q hb => ?_
    refine Sim.bindView (E.view (ha.mono h2)) fun w3 h3 av _ => ?_
    refine Sim.bindView (E.view (hb.mono h3)) fun w4 h4 bv _ => ?_
    rw [E.fl]
    cases av.num? e.fl <;> cases bv.num? e.fl <;> first
      | exact Sim.raise _
      | exact E.pushFloat _
  case max =>
    refine Sim.bindRel Sim.pop fun w1 h1 a p ha => Sim.bindRel Sim.pop fun w2 h2 b q hb => ?_
    refine Sim.bindView (E.view (ha.mono h2)) fun w3 h3 av _ => ?_
    refine Sim.bindView (E.view (hb.mono h3)) fun w4 h4 bv _ => ?_
    rw [E.fl]
    cases av.num? e.fl <;> cases bv.num? e.fl <;> first
      | exact Sim.raise _
      | exact E.pushFloat _
  all_goals exact E.mathSim _

theorem getIo : Sim w QEq (Ccml.getIo : VM Val Store Io) Ccml.getIo :=
  ⟨fun w1 _ s s' hs => ⟨_, s, w1, rfl, .refl _, hs, hs.io⟩⟩

theorem modIo (f : Io → Io) : Sim w QEq (Ccml.modIo f : VM Val Store Unit) (Ccml.modIo f) :=
  ⟨fun w1 _ s s' hs => ⟨_, _, w1, rfl, .refl _,
    ⟨hs.m, hs.h, hs.globals, hs.th, hs.before, hs.after, congrArg f hs.io⟩, rfl⟩⟩

theorem popViews (n : Nat) (acc : List View) : Sim w QEq (Ccml.popViews e n acc) (Ccml.popViews e' n acc) := by
  induction n generalizing w acc with
  | zero => exact Sim.pureEq _
  | succ n ih =>
    exact Sim.bindRel Sim.pop fun w1 h1 a p ha => Sim.bindView (E.view ha) fun w2 h2 v hv => ih _

theorem hostFn (b : HostFn) : Sim w QEq (b.run e) (b.run e') := by
  cases b
  case sdl fn =>
    show Sim w QEq (hostSdl e fn) (hostSdl e' fn)
    unfold hostSdl
    refine Sim.bindEq (E.popViews _ _) fun _ _ xs => Sim.bindEq E.getIo fun _ _ io => ?_
    rw [E.fl]
    refine Sim.bindEq (Sim.lift _) fun _ _ x => ?_
    obtain ⟨d, r⟩ := x
    refine Sim.bindEq (E.modIo _) fun _ _ _ => Sim.bindEq (Sim.ite (fun _ => Sim.modTh fun _ _ _ _ h => ⟨h.1, h.2, h.3, h.4, h.5, rfl, h.7, h.8, h.9, h.10⟩) fun _ => Sim.pureEq _) fun _ _ _ => ?_
    cases r with
    | none =>
      rw [E.nil.1, E.nil.2]
      exact Sim.push (rel_nil _)
    | int v => exact E.pushInt _
  case putc =>
    refine Sim.bindRel Sim.pop fun w1 h1 a p ha => Sim.bindView (E.view ha) fun w2 h2 v hv => ?_
    cases v <;> first
      | exact Sim.fault _
      | exact Sim.bindEq (E.modIo _) fun _ _ _ => E.pushInt _
      | exact Sim.bindEq (Sim.raise _) fun _ _ _ => E.pushInt _
  case puts =>
    refine Sim.bindRel Sim.pop fun w1 h1 a p ha => Sim.bindView (E.view ha) fun w2 h2 v hv => ?_
    cases v <;> first
      | exact Sim.fault _
      | exact Sim.bindEq (E.modIo _) fun _ _ _ => E.pushInt _
      | exact Sim.bindEq (Sim.raise _) fun _ _ _ => E.pushInt _
  case getc =>
    refine Sim.bindEq E.getIo fun _ _ io => ?_
    cases io.input with
    | nil => exact E.pushInt _
    | cons c cs => exact Sim.bindEq (E.modIo _) fun _ _ _ => E.pushInt _
  case gets =>
    refine Sim.bindEq E.getIo fun _ _ io => ?_
    cases io.input with
    | nil => exact Sim.fault _
    | cons c cs => exact Sim.bindEq (E.modIo _) fun _ _ _ => E.pushStr _ (noNul_cstr _)
  case rand =>
    exact Sim.bindEq E.getIo fun _ _ io => Sim.bindEq (E.modIo _) fun _ _ _ => E.pushInt _

end EnvSim

theorem HookSim.none : HookSim Option.none Option.none := .inl ⟨rfl, rfl⟩

/-- The standard machine on the two memories. -/
theorem std_sim (prog : Program) (fl : FloatOps) (depth : Nat) (should : Heap → Bool)
    (hs : ∀ s ∈ prog.strings, cstr s = s) :
    EnvSim (Env.std prog fl Mem.abs) (Env.std prog fl (Mem.gc depth should)) := by
  have base : EnvSim ⟨prog, fl, Mem.abs, {}, fun _ _ => fault .ub⟩
      ⟨prog, fl, Mem.gc depth should, {}, fun _ _ => fault .ub⟩ :=
    ⟨rfl, rfl, rfl, ⟨depth, should, rfl⟩, hs, fun _ _ _ => Sim.fault _, .none, .none, .none, .none,
      .none, .none, .inl ⟨rfl, rfl⟩, .inl ⟨rfl, rfl⟩, .inl ⟨rfl, rfl⟩, .inl ⟨rfl, rfl⟩,
      .inl ⟨rfl, rfl⟩⟩
  refine ⟨rfl, rfl, rfl, ⟨depth, should, rfl⟩, hs, ?_, .none, .none, .none, .none,
      .none, .none, .inl ⟨rfl, rfl⟩, .inl ⟨rfl, rfl⟩, .inl ⟨rfl, rfl⟩, .inl ⟨rfl, rfl⟩,
      .inl ⟨rfl, rfl⟩⟩
  intro w f n
  show Sim w QEq (nativeBuiltins _ f n) (nativeBuiltins _ f n)
  unfold nativeBuiltins
  cases Builtin.ofPtr f with
  | none =>
    dsimp only
    cases HostFn.ofPtr f with
    | none => exact Sim.fault _
    | some b => exact base.hostFn b
  | some b => exact base.builtin b n

/-! ### Across collections -/

variable {α β γ δ : Type}

/-- `x` on the store and `y` on the heap do the same in every world; collections may happen. -/
structure SimTop (Q : World → α → β → Prop) (x : VM Val Store α)
    (y : VM (Option Ptr) Heap β) : Prop where
  run : ∀ w s s', Same w s s' → Agree (fun _ _ => True) Q w (x s) (y s')

namespace SimTop

theorem of {Q : World → α → β → Prop} {x y} (h : ∀ w, Sim w Q x y) : SimTop Q x y := by
  refine ⟨fun w s s' hs => ?_⟩
  have := (h w).run w (.refl _) s s' hs
  unfold Agree at this ⊢
  split
  · rename_i f hf; rw [hf] at this; exact this
  · rename_i b t' hf
    rw [hf] at this
    obtain ⟨a, t, w', h1, _, h3, h4⟩ := this
    exact ⟨a, t, w', h1, trivial, h3, h4⟩

theorem bind {Q : World → α → β → Prop} {Q' : World → γ → δ → Prop} {x : VM Val Store α}
    {y : VM (Option Ptr) Heap β} {f : α → VM Val Store γ} {g : β → VM (Option Ptr) Heap δ}
    (hx : SimTop Q x y)
    (hf : ∀ w a b, Q w a b → ∀ s s', Same w s s' →
      Agree (fun _ _ => True) Q' w (f a s) (g b s')) :
    SimTop Q' (x >>= f) (y >>= g) := by
  refine ⟨fun w1 s s' hs => ?_⟩
  have hx' := hx.run w1 s s' hs
  unfold Agree at hx'
  rw [vm_bind, vm_bind]
  cases hy : y s' with
  | error e =>
    rw [hy] at hx'
    rcases hx' with h | h
    · exact .inl h
    · rw [h]; exact .inr rfl
  | ok b =>
    obtain ⟨b, t'⟩ := b
    rw [hy] at hx'
    obtain ⟨a, t, w2, h2, h3, h4, h5⟩ := hx'
    rw [h2]
    dsimp only
    have := hf w2 a b h5 t t' h4
    unfold Agree at this ⊢
    split
    · rename_i e he
      rw [he] at this
      exact this
    · rename_i d u' he
      rw [he] at this
      obtain ⟨c, u, w3, h6, h7, h8, h9⟩ := this
      exact ⟨c, u, w3, h6, trivial, h8, h9⟩

theorem bindEq {Q' : World → γ → δ → Prop} {x : VM Val Store α}
    {y : VM (Option Ptr) Heap α} {f : α → VM Val Store γ} {g : α → VM (Option Ptr) Heap δ}
    (hx : SimTop QEq x y) (hf : ∀ a, SimTop Q' (f a) (g a)) :
    SimTop Q' (x >>= f) (y >>= g) :=
  hx.bind fun w a b h s s' hs => by unfold QEq at h; subst h; exact (hf _).run w s s' hs

theorem bindTh {Q' : World → γ → δ → Prop} {f : Thread Val → VM Val Store γ}
    {g : Thread (Option Ptr) → VM (Option Ptr) Heap δ}
    (hf : ∀ w t t', Th w t t' → ∀ s s', Same w s s' →
      Agree (fun _ _ => True) Q' w (f t s) (g t' s')) :
    SimTop Q' (getTh >>= f) (getTh >>= g) :=
  bind (of (Q := QTh) fun _ => Sim.getTh) fun w t t' ht s s' hs => hf w t t' ht s s' hs

theorem ite {Q : World → α → β → Prop} {c : Prop} [Decidable c] {x1 x2 y1 y2}
    (h1 : c → SimTop Q x1 y1) (h2 : ¬ c → SimTop Q x2 y2) :
    SimTop Q (if c then x1 else x2) (if c then y1 else y2) := by
  by_cases h : c
  · rw [if_pos h, if_pos h]; exact h1 h
  · rw [if_neg h, if_neg h]; exact h2 h

theorem pureEq (a : α) : SimTop QEq (Pure.pure a) (Pure.pure a) := of fun _ => Sim.pureEq a
theorem fault {Q : World → α → β → Prop} (f : Fault) : SimTop Q (fault f) (Ccml.fault f) :=
  of fun _ => Sim.fault f

end SimTop

theorem flatten2 {α β : Type} {R : α → β → Prop} {xs : List (List α)} {ys : List (List β)}
    (h : All2 (All2 R) xs ys) : All2 R xs.flatten ys.flatten := by
  induction h with
  | nil => exact .nil
  | cons h _ ih => simp only [List.flatten_cons]; exact h.append ih

theorem map2 {α β γ δ : Type} {R : α → β → Prop} {R' : γ → δ → Prop} {f : α → γ} {g : β → δ}
    {xs ys} (h : All2 R xs ys) (hf : ∀ a b, R a b → R' (f a) (g b)) :
    All2 R' (xs.map f) (ys.map g) := by
  induction h with
  | nil => exact .nil
  | cons h _ ih => exact .cons (hf _ _ h) ih

theorem split2 {α β : Type} {R R' : α → β → Prop} {xs : List (List α)} {ys : List (List β)}
    (h : All2 (All2 R) xs ys) : ∀ {bs : List β}, All2 R' xs.flatten bs →
    All2 (All2 R') xs (splitLike ys bs) := by
  induction h with
  | nil => intro bs _; exact .nil
  | cons h _ ih =>
    rename_i x y xs ys _
    intro bs hb
    simp only [List.flatten_cons] at hb
    have h1 := Sim.take2 hb x.length
    have h2 := Sim.drop2 hb x.length
    rw [List.take_left] at h1
    rw [List.drop_left] at h2
    unfold splitLike
    rw [← h.length]
    exact .cons h1 (ih h2)

theorem with2 {w : World} {R : Thread Val → Thread (Option Ptr) → Prop}
    (hR : ∀ t t' st, R t t' → All2 w.Rel t.stack.reverse st → Th w t { t' with stack := st.reverse })
    {ts ts'} (h : All2 R ts ts') : ∀ {ss}, All2 (All2 w.Rel) (ts.map fun t => t.stack.reverse) ss →
    All2 (Th w) ts (withStacks ts' ss) := by
  induction h with
  | nil => intro ss hs; exact .nil
  | cons h _ ih =>
    intro ss hs
    simp only [List.map_cons] at hs
    cases hs with
    | cons h1 h2 => exact .cons (hR _ _ _ h h1) (ih h2)

theorem append_inv {α β : Type} {R : α → β → Prop} {xs : List α} {x : α} {ys : List α}
    {bs : List β} (h : All2 R (xs ++ x :: ys) bs) :
    All2 R xs (bs.take xs.length) ∧ ∃ b bs', bs.drop xs.length = b :: bs' ∧ R x b ∧ All2 R ys bs' := by
  have h1 := Sim.take2 h xs.length
  have h2 := Sim.drop2 h xs.length
  rw [List.take_left] at h1
  rw [List.drop_left] at h2
  refine ⟨h1, ?_⟩
  generalize bs.drop xs.length = z at h2
  cases h2 with
  | cons h3 h4 => exact ⟨_, _, rfl, h3, h4⟩

namespace EnvSim
variable (E : EnvSim e e')
include E

theorem collect_abs (s : St Val Store) : gcCollect e s = .ok ((), s) := by
  have : (gcCollect e s) = (gcCollect e s) := rfl
  unfold gcCollect
  rw [E.mem]
  dsimp only [Mem.abs]
  rw [splitLike_flatten]
  dsimp only
  rw [withStacks_self, List.drop_left, List.take_left]

theorem collect : SimTop QEq (gcCollect e) (gcCollect e') := by
  refine ⟨fun w s s' hs => ?_⟩
  rw [E.collect_abs s]
  obtain ⟨d, sh, hm⟩ := E.mem'
  have hts : All2 (Th w) (s.before ++ s.th :: s.after) (s'.before ++ s'.th :: s'.after) :=
    hs.before.append (.cons hs.th hs.after)
  have hshape : All2 (All2 w.Rel)
      (s.globals :: (s.before ++ s.th :: s.after).map fun t => t.stack.reverse)
      (s'.globals :: (s'.before ++ s'.th :: s'.after).map fun t => t.stack.reverse) :=
    .cons hs.globals (map2 hts fun _ _ h => Sim.rev2 h.stack)
  have hrun := gcRun_spec (depth := d) w.ok (flatten2 hshape)
  unfold gcCollect
  rw [hm, hs.h]
  dsimp only [Mem.gc]
  cases hx : gcRun d w.h (s'.globals ::
      (s'.before ++ s'.th :: s'.after).map fun t => t.stack.reverse).flatten with
  | error f =>
    rw [hx] at hrun
    exact .inl hrun
  | ok x =>
    obtain ⟨roots, h'⟩ := x
    rw [hx] at hrun
    obtain ⟨L', hh, hr⟩ := hrun
    let w' : World := ⟨w.m, h', L', hh, gcRun_packed w.packed hx⟩
    have hsp := split2 hshape hr
    dsimp only
    generalize hz : splitLike _ roots = z at hsp
    cases hsp with
    | cons hg hss =>
      dsimp only
      have hth := with2 (w := w') (fun t t' st h hst => ⟨h.1, h.2, h.3, h.4, h.5, h.6, h.7, h.8, h.9,
        by have := Sim.rev2 hst; rw [List.reverse_reverse] at this; exact this⟩) hts hss
      obtain ⟨h1, b, bs, h2, h3, h4⟩ := append_inv hth
      rw [hs.before.length] at h1 h2
      rw [h2]
      exact ⟨(), s, w', rfl, trivial, ⟨hs.m, rfl, hg, h3, h1, h4, hs.io⟩, rfl⟩

theorem tick : SimTop QEq (tickGc e) (tickGc e') := by
  refine ⟨fun w s s' hs => ?_⟩
  have hc := E.collect.run w s s' hs
  rw [E.collect_abs] at hc
  have ha : tickGc e s = .ok ((), s) := by
    unfold tickGc
    split
    · exact E.collect_abs s
    · rfl
  rw [ha]
  unfold tickGc
  split
  · exact hc
  · exact ⟨(), s, w, rfl, trivial, hs, rfl⟩

theorem runH {x : Option (VM Val Store Bool)} {y : Option (VM (Option Ptr) Heap Bool)}
    (h : (x = none ∧ y = none) ∨ ∃ f f', x = some f ∧ y = some f' ∧ ∀ w, Sim w QEq f f') :
    Sim w QEq (runHandler x) (runHandler y) := by
  rcases h with ⟨rfl, rfl⟩ | ⟨f, g, rfl, rfl, h⟩
  · exact Sim.pureEq _
  · exact Sim.bindEq (h w) fun _ _ _ => Sim.pureEq _

theorem finish : Sim w QEq (finishHandlers e) (finishHandlers e') := by
  unfold finishHandlers errorHandler
  refine Sim.bindEq (Sim.bind Sim.getTh fun w1 h1 t t' ht => ?_) fun _ _ _ =>
    E.runH E.host.threadFinish
  have ht : World.Th w1 t t' := ht
  rw [ht.hasError]
  exact Sim.ite (fun _ => E.runH E.host.threadError) fun _ => Sim.pureEq _

theorem loop (n : Nat) : SimTop QEq (resumeLoop e n) (resumeLoop e' n) := by
  induction n with
  | zero => exact SimTop.pureEq _
  | succ n ih =>
    unfold resumeLoop
    refine SimTop.bindEq E.tick fun _ => SimTop.bindEq (SimTop.of fun _ => E.step) fun _ => ?_
    refine SimTop.bindTh fun w t t' ht s s' hs => ?_
    rw [ht.finished, ht.halted]
    exact (SimTop.ite (fun _ => SimTop.bindEq (SimTop.of fun _ => E.finish) fun _ =>
      SimTop.pureEq _) fun _ => SimTop.ite (fun _ => SimTop.pureEq _) fun _ => ih).run w s s' hs

theorem notError : SimTop QEq (do let t ← getTh; Pure.pure (!t.hasError) : VM Val Store Bool)
    (do let t ← getTh; Pure.pure (!t.hasError)) := by
  refine SimTop.bindTh fun w t t' ht s s' hs => ?_
  rw [ht.hasError]
  exact (SimTop.pureEq _).run w s s' hs

theorem unlessFinished {x : VM Val Store Bool} {y : VM (Option Ptr) Heap Bool}
    (h : SimTop QEq x y) :
    SimTop QEq (do let t ← getTh; if t.finished then Pure.pure false else x : VM Val Store Bool)
      (do let t ← getTh; if t.finished then Pure.pure false else y) := by
  refine SimTop.bindTh fun w t t' ht s s' hs => ?_
  rw [ht.finished]
  exact (SimTop.ite (fun _ => SimTop.pureEq _) fun _ => h).run w s s' hs

theorem quantum (n : I32) : SimTop QEq (runQuantum e n) (runQuantum e' n) := by
  unfold runQuantum
  refine SimTop.ite (fun _ => SimTop.bindEq (E.loop _) fun _ => SimTop.pureEq _) fun _ => ?_
  exact SimTop.bindEq (E.loop _) fun _ => SimTop.ite (fun _ => SimTop.pureEq _) fun _ =>
    SimTop.fault _

theorem resumeSim (n : I32) : SimTop QEq (resume e n) (resume e' n) := by
  refine E.unlessFinished (SimTop.bindEq (SimTop.of fun _ => Sim.modTh ?_) fun _ =>
    SimTop.bindEq (E.quantum n) fun _ => E.notError)
  exact fun _ _ _ _ h => ⟨h.1, h.2, h.3, h.4, h.5, rfl, h.7, h.8, h.9, h.10⟩

theorem stepInstSim : SimTop QEq (stepInst e) (stepInst e') :=
  E.unlessFinished (SimTop.bindEq E.collect fun _ => SimTop.bindEq (SimTop.of fun _ => E.step)
    fun _ => E.notError)

theorem lineLoop (l : Line) (n : Nat) :
    SimTop QEq (stepLineLoop e l n) (stepLineLoop e' l n) := by
  induction n with
  | zero => exact SimTop.fault _
  | succ n ih =>
    unfold stepLineLoop assertThat
    refine SimTop.bindEq (SimTop.of fun _ => E.step) fun _ => ?_
    refine SimTop.bindTh fun w t t' ht s s' hs => ?_
    unfold sourceLine
    rw [ht.finished, ht.frames, ht.hasError, E.prog, ht.pc]
    refine (SimTop.ite (fun _ => SimTop.pureEq _) fun _ => ?_).run w s s' hs
    refine SimTop.bindEq (SimTop.ite (fun _ => SimTop.pureEq _) fun _ => SimTop.fault _) fun _ => ?_
    refine SimTop.bindEq (SimTop.ite (fun _ => SimTop.pureEq _) fun _ => SimTop.fault _) fun _ => ?_
    exact SimTop.ite (fun _ => ih) fun _ => SimTop.pureEq _

theorem stepLineSim (n : Nat) : SimTop QEq (stepLine e n) (stepLine e' n) := by
  refine SimTop.bindTh fun w t t' ht s s' hs => ?_
  unfold sourceLine
  rw [ht.finished, E.prog, ht.pc]
  exact (SimTop.ite (fun _ => SimTop.pureEq _) fun _ => SimTop.bindEq (E.lineLoop _ n) fun _ =>
    E.notError).run w s s' hs

theorem callLoopSim (n : Nat) : SimTop QEq (callLoop e n) (callLoop e' n) := by
  induction n with
  | zero => exact SimTop.fault _
  | succ n ih =>
    unfold callLoop
    refine SimTop.bindTh fun w t t' ht s s' hs => ?_
    rw [ht.finished, ht.hasError]
    exact (SimTop.ite (fun _ => SimTop.pureEq _) fun _ => SimTop.bindEq (E.resumeSim _) fun _ =>
      SimTop.ite (fun _ => ih) fun _ => SimTop.pureEq _).run w s s' hs

end EnvSim
end Ccml
