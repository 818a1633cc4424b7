import Verif.Sim
import Verif.Builtins
/-!
Each instruction and each built-in function acts the same on the collected heap as on the
mathematical store.
-/
set_option linter.unusedSectionVars false
namespace Ccml
open World

theorem noNul_append {a b : Str} (ha : cstr a = a) (hb : cstr b = b) : cstr (a ++ b) = a ++ b := by
  rw [cstr_eq_iff] at *
  intro x hx
  rcases List.mem_append.1 hx with h | h
  · exact ha x h
  · exact hb x h

theorem noNul_take {a : Str} (ha : cstr a = a) (n : Nat) : cstr (a.take n) = a.take n := by
  rw [cstr_eq_iff] at *
  exact fun x hx => ha x (List.mem_of_mem_take hx)

theorem noNul_cstr (a : Str) : cstr (cstr a) = cstr a := by
  rw [cstr_eq_iff]
  unfold cstr
  induction a with
  | nil => simp
  | cons x t ih =>
    intro b hb
    rw [List.takeWhile_cons] at hb
    by_cases hx : (x != 0) = true
    · rw [if_pos hx] at hb
      rcases List.mem_cons.1 hb with rfl | hb
      · exact bne_iff_ne.1 hx
      · exact ih b hb
    · rw [if_neg hx] at hb; cases hb

theorem digit_ne_zero {n : Nat} (h : n < 10) : BitVec.ofNat 8 (48 + n) ≠ 0 := by
  intro hc
  have := congrArg BitVec.toNat hc
  rw [BitVec.toNat_ofNat] at this
  simp at this
  omega

theorem decDigits_noNul (fuel n : Nat) : ∀ b ∈ decDigits fuel n, b ≠ 0 := by
  induction fuel generalizing n with
  | zero => intro b hb; cases hb
  | succ fuel ih =>
    intro b hb
    unfold decDigits at hb
    split at hb
    · rename_i h
      rcases List.mem_cons.1 hb with rfl | hb
      · exact digit_ne_zero h
      · cases hb
    · rcases List.mem_append.1 hb with hb | hb
      · exact ih _ b hb
      · rcases List.mem_cons.1 hb with rfl | hb
        · exact digit_ne_zero (Nat.mod_lt _ (by decide))
        · cases hb

theorem decimal_noNul (v : I32) : cstr (decimal v) = decimal v := by
  rw [cstr_eq_iff]
  unfold decimal
  split
  · intro b hb
    rcases List.mem_cons.1 hb with rfl | hb
    · decide
    · exact decDigits_noNul _ _ b hb
  · exact decDigits_noNul _ _

theorem toBuf_noNul {fl : FloatOps} {x : View} {b : Str} (h : x.toBuf fl = .ok b) :
    cstr b = b := by
  cases x <;> simp only [View.toBuf] at h <;> cases h
  · decide
  · exact noNul_take (decimal_noNul _) _
  · exact noNul_take (noNul_cstr _) _
  · exact noNul_take (noNul_cstr _) _
  · exact noNul_take (noNul_append (by decide) (decimal_noNul _)) _

theorem Agree.later {α β : Type} {Q : World → α → β → Prop} {w1 w2 : World} {r r'}
    (h : Agree Le Q w2 r r') (hle : Le w1 w2) : Agree Le Q w1 r r' := by
  unfold Agree at h ⊢
  split
  · exact h
  · obtain ⟨a, t, w3, h1, h2, h3, h4⟩ := h
    exact ⟨a, t, w3, h1, hle.trans h2, h3, h4⟩

namespace Sim
variable {w : World}

/-- Continue with related values. -/
theorem bindRel {γ δ : Type} {Q' : World → γ → δ → Prop} {x : VM Val Store Val}
    {y : VM (Option Ptr) Heap (Option Ptr)} {f : Val → VM Val Store γ}
    {g : Option Ptr → VM (Option Ptr) Heap δ}
    (hx : Sim w QRel x y) (hf : ∀ w1, Le w w1 → ∀ a b, w1.Rel a b → Sim w1 Q' (f a) (g b)) :
    Sim w Q' (x >>= f) (y >>= g) := hx.bind hf

/-- Continue with a view. -/
theorem bindView {γ δ : Type} {Q' : World → γ → δ → Prop} {x : VM Val Store View}
    {y : VM (Option Ptr) Heap View} {f : View → VM Val Store γ}
    {g : View → VM (Option Ptr) Heap δ}
    (hx : Sim w QView x y) (hf : ∀ w1, Le w w1 → ∀ a : View, a.Ok → Sim w1 Q' (f a) (g a)) :
    Sim w Q' (x >>= f) (y >>= g) :=
  hx.bind fun w1 h1 a b h => by
    obtain ⟨rfl, h2⟩ := h
    exact hf w1 h1 _ h2

/-- Continue with a number or text that may be undefined. -/
theorem bindLift {α γ δ : Type} {Q' : World → γ → δ → Prop} {o : Out α} {f : α → VM Val Store γ}
    {g : α → VM (Option Ptr) Heap δ} (hf : ∀ a, o = .ok a → Sim w Q' (f a) (g a)) :
    Sim w Q' (Ccml.lift o >>= f) (Ccml.lift o >>= g) := by
  refine ⟨fun w1 h1 s s' hs => ?_⟩
  cases o with
  | error x => exact .inr rfl
  | ok a =>
    rw [vm_bind_ok (show Ccml.lift (Except.ok a) s = .ok (a, s) from rfl),
      vm_bind_ok (show Ccml.lift (Except.ok a) s' = .ok (a, s') from rfl)]
    exact (hf a rfl).run w1 h1 s s' hs

theorem popN (n : Nat) : Sim w QEq (popN n) (popN n) := by
  induction n generalizing w with
  | zero => exact pureEq _
  | succ n ih => exact bindRel pop fun _ _ _ _ _ => ih

theorem ite {α β : Type} {Q : World → α → β → Prop} {c : Prop} [Decidable c] {x1 x2 y1 y2}
    (h1 : c → Sim w Q x1 y1) (h2 : ¬ c → Sim w Q x2 y2) :
    Sim w Q (if c then x1 else x2) (if c then y1 else y2) := by
  by_cases h : c
  · rw [if_pos h, if_pos h]; exact h1 h
  · rw [if_neg h, if_neg h]; exact h2 h

end Sim

variable {e : Env Val Store} {e' : Env (Option Ptr) Heap} {w : World}

theorem HookSim.run {x y} (h : HookSim x y) {a b p q} (ha : w.Rel a p) (hb : w.Rel b q) :
    Sim w QEq (tryHandler x a b) (tryHandler y p q) := by
  unfold tryHandler
  rcases h with ⟨rfl, rfl⟩ | ⟨f, g, rfl, rfl, h⟩
  · exact Sim.raise _
  · exact Sim.bindEq (h w a p b q ha hb) fun _ _ r =>
      Sim.ite (fun _ => Sim.pureEq _) fun _ => Sim.raise _

namespace EnvSim
variable (E : EnvSim e e')
include E

/-- The common head of the binary operators. -/
theorem operands {f : Val → Val → View → View → VM Val Store Unit}
    {g : Option Ptr → Option Ptr → View → View → VM (Option Ptr) Heap Unit}
    (h : ∀ w1, Le w w1 → ∀ l p r q (lv rv : View), w1.Rel l p → w1.Rel r q → lv.Ok → rv.Ok →
      Sim w1 QEq (f l r lv rv) (g p q lv rv)) :
    Sim w QEq (do let r ← pop; let l ← pop; let rv ← Ccml.view e r; let lv ← Ccml.view e l
                  f l r lv rv)
      (do let r ← pop; let l ← pop; let rv ← Ccml.view e' r; let lv ← Ccml.view e' l
          g l r lv rv) := by
  refine Sim.bindRel Sim.pop fun w1 h1 r q hr => Sim.bindRel Sim.pop fun w2 h2 l p hl => ?_
  refine Sim.bindView (E.view (hr.mono h2)) fun w3 h3 rv hrv => ?_
  refine Sim.bindView (E.view (hl.mono h3)) fun w4 h4 lv hlv => ?_
  exact h w4 (((h1.trans h2).trans h3).trans h4) l p r q lv rv (hl.mono (h3.trans h4))
    (hr.mono ((h2.trans h3).trans h4)) hlv hrv

theorem sub : Sim w QEq (doSUB e) (doSUB e') := by
  refine E.operands fun w1 h1 l p r q lv rv hl hr _ _ => ?_
  cases lv <;> cases rv <;> simp only [View.num?, E.fl] <;> first
    | exact E.host.sub.run hl hr
    | exact E.pushFloat _
    | exact Sim.bindLift fun _ _ => E.pushInt _

theorem mul : Sim w QEq (doMUL e) (doMUL e') := by
  refine E.operands fun w1 h1 l p r q lv rv hl hr _ _ => ?_
  cases lv <;> cases rv <;> simp only [View.num?, E.fl] <;> first
    | exact E.host.mul.run hl hr
    | exact E.pushFloat _
    | exact Sim.bindLift fun _ _ => E.pushInt _

theorem div : Sim w QEq (doDIV e) (doDIV e') := by
  refine E.operands fun w1 h1 l p r q lv rv hl hr _ _ => ?_
  cases lv <;> cases rv <;> simp only [View.num?, E.fl] <;> first
    | exact E.host.div.run hl hr
    | exact E.pushFloat _
    | exact Sim.ite (fun _ => Sim.raise _) fun _ => Sim.bindLift fun _ _ => E.pushInt _

theorem mod : Sim w QEq (doMOD e) (doMOD e') := by
  refine E.operands fun w1 h1 l p r q lv rv hl hr _ _ => ?_
  cases lv <;> cases rv <;> first
    | exact Sim.raise _
    | exact Sim.ite (fun _ => Sim.raise _) fun _ => Sim.bindLift fun _ _ => E.pushInt _

theorem add : Sim w QEq (doADD e) (doADD e') := by
  refine E.operands fun w1 h1 l p r q lv rv hl hr hlv hrv => ?_
  cases lv <;> cases rv <;> simp only [View.num?, E.fl] <;> first
    | exact E.host.add.run hl hr
    | exact E.pushFloat _
    | exact Sim.bindLift fun _ _ => E.pushInt _
    | exact Sim.bindLift fun _ hb => E.pushStr _ (noNul_append (hlv _ rfl) (toBuf_noNul hb))
    | exact Sim.bindLift fun _ hb => E.pushStr _ (noNul_append (toBuf_noNul hb) (hrv _ rfl))

theorem and : Sim w QEq (doAND e) (doAND e') := by
  refine E.operands fun w1 h1 l p r q lv rv hl hr hlv hrv => ?_
  rw [E.fl]; exact E.pushBool _

theorem or : Sim w QEq (doOR e) (doOR e') := by
  refine E.operands fun w1 h1 l p r q lv rv hl hr hlv hrv => ?_
  rw [E.fl]; exact E.pushBool _

theorem not : Sim w QEq (doNOT e) (doNOT e') := by
  refine Sim.bindRel Sim.pop fun w1 h1 r q hr => Sim.bindView (E.view hr) fun w2 h2 v hv => ?_
  rw [E.fl]; exact E.pushBool _

theorem neg : Sim w QEq (doNEG e) (doNEG e') := by
  refine Sim.bindRel Sim.pop fun w1 h1 r q hr => Sim.bindView (E.view hr) fun w2 h2 v hv => ?_
  cases v <;> first
    | exact Sim.raise _
    | exact Sim.bindLift fun _ _ => E.pushInt _

theorem compare (ic : Int → Int → Bool) (fc : F32 → F32 → Bool) :
    Sim w QEq (doCompare e ic fc) (doCompare e' ic fc) := by
  refine E.operands fun w1 h1 l p r q lv rv hl hr hlv hrv => ?_
  cases lv <;> cases rv <;> simp only [View.num?, E.fl] <;> first
    | exact Sim.raise _
    | exact E.pushBool _

theorem eq : Sim w QEq (doEQ e) (doEQ e') := by
  refine E.operands fun w1 h1 l p r q lv rv hl hr hlv hrv => ?_
  cases lv <;> cases rv <;> simp only [View.num?, E.fl] <;> first
    | exact E.host.equals.run hl hr
    | exact E.pushBool _

theorem tjmp : Sim w QEq (doTJMP e) (doTJMP e') := by
  refine Sim.bindEq E.readOperand fun w0 h0 t => ?_
  refine Sim.bindRel Sim.pop fun w1 h1 r q hr => Sim.bindView (E.view hr) fun w2 h2 v hv => ?_
  rw [E.fl]; exact Sim.ite (fun _ => Sim.jump _) fun _ => Sim.pureEq _

theorem fjmp : Sim w QEq (doFJMP e) (doFJMP e') := by
  refine Sim.bindEq E.readOperand fun w0 h0 t => ?_
  refine Sim.bindRel Sim.pop fun w1 h1 r q hr => Sim.bindView (E.view hr) fun w2 h2 v hv => ?_
  rw [E.fl]; exact Sim.ite (fun _ => Sim.pureEq _) fun _ => Sim.jump _

theorem enterHere (callee : Int) :
    Sim w QEq (do let t ← getTh; enter t.stack.length t.pc callee)
      (do let t ← getTh; enter t.stack.length t.pc callee) := by
  refine Sim.bind Sim.getTh fun w1 _ t t' ht => ?_
  have ht : World.Th w1 t t' := ht
  rw [ht.len, ht.pc]
  exact Sim.enter _ _ _

theorem call : Sim w QEq (doCALL e) (doCALL e') :=
  Sim.bindEq E.readOperand fun _ _ _ => Sim.bindEq E.readOperand fun _ _ _ => E.enterHere _

theorem ret : Sim w QEq (doRET e) (doRET e') := by
  refine Sim.bindEq E.readOperand fun w0 h0 n => Sim.bindRel Sim.pop fun w1 h1 r q hr => ?_
  refine Sim.bind Sim.getTh fun w2 h2 t t' ht => ?_
  have ht : World.Th w2 t t' := ht
  rw [ht.len]
  refine Sim.ite (fun _ => Sim.raise _) fun _ => ?_
  refine Sim.bindEq (Sim.discard _) fun w3 h3 _ => ?_
  refine Sim.bindEq (Sim.push (hr.mono (h2.trans h3))) fun w4 h4 _ => ?_
  exact Sim.bindEq Sim.leave fun _ _ _ => Sim.jump _

theorem syscall (a b : I32) : Sim w QEq (doSyscall e a b) (doSyscall e' a b) := by
  unfold doSyscall
  rw [E.prog]
  refine Sim.ite (fun _ => Sim.fault _) fun _ => ?_
  cases e.prog.syscalls[a.toNat]? with
  | none => exact Sim.fault _
  | some s =>
    dsimp only
    cases s.call with
    | none => exact Sim.fault _
    | some fn => exact E.host.native _ _ _

theorem scall : Sim w QEq (doSCALL e) (doSCALL e') :=
  Sim.bindEq E.readOperand fun _ _ _ => Sim.bindEq E.readOperand fun _ _ _ => E.syscall _ _

theorem icall : Sim w QEq (doICALL e) (doICALL e') := by
  refine Sim.bindEq E.readOperand fun w0 h0 n => Sim.bindRel Sim.pop fun w1 h1 r q hr => ?_
  refine Sim.bindView (E.view hr) fun w2 h2 v hv => ?_
  cases v <;> first
    | exact Sim.raise _
    | exact Sim.fault _
    | exact E.syscall _ _
    | skip
  rename_i addr
  dsimp only
  rw [E.prog]
  cases e.prog.findByPc addr with
  | none => exact Sim.fault _
  | some f =>
    dsimp only
    by_cases hn : (f.numArgs : Int) ≠ n.toInt
    · rw [if_pos hn, if_pos hn]
      exact Sim.bindEq (Sim.raise _) fun _ _ _ => E.enterHere _
    · rw [if_neg hn, if_neg hn]
      exact E.enterHere _

theorem newStrI : Sim w QEq (doNEW_STR e) (doNEW_STR e') := by
  refine Sim.bindEq E.readOperand fun w0 h0 n => ?_
  rw [E.prog]
  refine Sim.ite (fun _ => Sim.fault _) fun _ => Sim.ite (fun _ => Sim.fault _) fun _ => ?_
  cases h : e.prog.strings[n.toNat]? with
  | none => exact Sim.fault _
  | some s => exact E.pushStr _ (E.strings s (List.mem_of_getElem? h))

theorem nat_lt (n : I32) (h : ¬ n.toInt ≤ 0) : n.toNat < 2147483648 := by
  have := n.toInt_eq_toNat_cond
  split at this <;> omega

theorem newAryI : Sim w QEq (doNEW_ARY e) (doNEW_ARY e') := by
  refine Sim.bindEq E.readOperand fun w0 h0 n => ?_
  refine Sim.ite (fun _ => Sim.fault _) fun h => ?_
  exact E.pushNew fun w1 _ => E.newArr w1 _ (E.nat_lt n h)

theorem newNoneI : Sim w QEq (doNEW_NONE e) (doNEW_NONE e') := by
  unfold doNEW_NONE
  rw [E.nil.1, E.nil.2]
  exact Sim.push (rel_nil w)

theorem globals : Sim w QEq (doGLOBALS e) (doGLOBALS e') := by
  refine Sim.bindEq E.readOperand fun w0 h0 n => ?_
  refine Sim.ite (fun _ => Sim.pureEq _) fun _ => Sim.ite (fun _ => Sim.fault _) fun _ => ?_
  refine ⟨fun w1 _ s s' hs => ⟨(), _, w1, rfl, .refl _, ?_, rfl⟩⟩
  refine ⟨hs.m, hs.h, ?_, hs.th, hs.before, hs.after, hs.io⟩
  rw [E.nil.1, E.nil.2]
  exact All2.replicate (rel_nil w1) _

theorem getv : Sim w QEq (doGETV e) (doGETV e') :=
  Sim.bindEq E.readOperand fun _ _ _ => Sim.bindEq Sim.curFrame fun _ _ _ =>
    Sim.bindRel (E.stackGet _) fun _ _ _ _ h => Sim.push h

theorem setv : Sim w QEq (doSETV e) (doSETV e') :=
  Sim.bindEq E.readOperand fun _ _ _ => Sim.bindRel Sim.pop fun _ _ _ _ h =>
    Sim.bindEq Sim.curFrame fun _ h1 _ => Sim.stackSet _ (h.mono h1)

theorem getg : Sim w QEq (doGETG e) (doGETG e') := by
  refine Sim.bindEq E.readOperand fun w0 h0 n => Sim.bind Sim.get fun w1 _ s s' hs => ?_
  refine Sim.ite (fun _ => Sim.raise _) fun _ => ?_
  cases h : s'.globals[n.toNat]? with
  | none =>
    have : s.globals[n.toNat]? = none := by
      rw [List.getElem?_eq_none_iff] at h ⊢
      rw [hs.globals.length]; exact h
    rw [this]
    exact Sim.raise _
  | some p =>
    obtain ⟨v, hv, hr⟩ := hs.globals.get _ _ h
    rw [hv]
    exact Sim.push hr

theorem setGlobal (i : Nat) {v : Val} {p : Option Ptr} (hv : w.Rel v p) :
    Sim w QEq (modify fun s => { s with globals := s.globals.set i v })
      (modify fun s => { s with globals := s.globals.set i p }) :=
  ⟨fun w1 h1 _ _ hs => ⟨(), _, w1, rfl, .refl _,
    ⟨hs.m, hs.h, hs.globals.set i (hv.mono h1), hs.th, hs.before, hs.after, hs.io⟩, rfl⟩⟩

theorem setg : Sim w QEq (doSETG e) (doSETG e') := by
  refine Sim.bindEq E.readOperand fun w0 h0 n => Sim.bind Sim.get fun w1 _ s s' hs => ?_
  rw [← hs.globals.length]
  refine Sim.ite (fun _ => Sim.raise _) fun _ => ?_
  exact Sim.bindRel Sim.pop fun _ _ _ _ h => E.setGlobal _ h

theorem derefC {a i : Val} {p q : Option Ptr} (ha : w.Rel a p) (hi : w.Rel i q) :
    Sim w QEq (derefCore e a i) (derefCore e' p q) := by
  unfold derefCore
  refine Sim.bindView (E.view ha) fun w1 h1 av _ => ?_
  cases av with
  | none => exact Sim.raise _
  | arr n =>
    refine Sim.bindView (E.view (hi.mono h1)) fun w2 h2 iv _ => ?_
    cases iv with
    | int x =>
      refine Sim.ite (fun _ => Sim.raise _) fun _ => Sim.bind Sim.get fun w3 h3 s s' hs => ?_
      obtain ⟨d, sh, hm⟩ := E.mem'
      rw [E.mem, hm, hs.m, hs.h]
      show Sim w3 QEq (lift (a.arrGet w3.m x.toNat) >>= push)
        (lift (gcArrGet w3.h p x.toNat) >>= push)
      rcases rel_arrGet (ha.mono ((h1.trans h2).trans h3)) x.toNat with
        ⟨f, h4, h5⟩ | ⟨u, v, h4, h5, h6⟩
      · rw [h4, h5]; exact ⟨fun _ _ _ _ _ => .inr rfl⟩
      · rw [h4, h5]; exact Sim.push h6
    | _ => exact Sim.raise _
  | str s =>
    refine Sim.bindView (E.view (hi.mono h1)) fun w2 h2 iv _ => ?_
    cases iv with
    | int x =>
      refine Sim.ite (fun _ => Sim.raise _) fun _ => ?_
      cases s[x.toNat]? with
      | none => exact Sim.raise _
      | some c => exact E.pushInt _
    | _ => exact Sim.raise _
  | _ =>
    refine Sim.bindView (E.view (hi.mono h1)) fun w2 h2 iv _ => ?_
    cases iv <;> exact Sim.raise _

theorem deref : Sim w QEq (doDEREF e) (doDEREF e') := by
  refine Sim.bindRel Sim.pop fun w1 h1 a p ha => Sim.bindRel Sim.pop fun w2 h2 i q hi => ?_
  rcases E.host.arrayGet with ⟨h3, h4⟩ | ⟨f, g, h3, h4, h5⟩
  · rw [h3, h4]; exact E.derefC (ha.mono h2) hi
  · rw [h3, h4]
    refine Sim.bindEq (h5 w2 a p i q (ha.mono h2) hi) fun w3 h6 r => ?_
    exact Sim.ite (fun _ => Sim.pureEq _) fun _ => E.derefC (ha.mono (h2.trans h6)) (hi.mono h6)

theorem setElemThen {v x : Val} {p y : Option Ptr} (hr : w.Rel v p) (hx : w.Rel x y) (i : Nat)
    {k : VM Val Store Unit} {k' : VM (Option Ptr) Heap Unit}
    (hk : ∀ w1, Le w w1 → Sim w1 QEq k k') :
    Sim w QEq
      (do let s ← MonadState.get; let m ← Ccml.lift (e.mem.arrSet s.mem v i x)
          modify fun s => { s with mem := m }
          k)
      (do let s ← MonadState.get; let m ← Ccml.lift (e'.mem.arrSet s.mem p i y)
          modify fun s => { s with mem := m }
          k') := by
  have := Sim.bindEq (E.setElem hr hx i) (f := fun _ => k) (g := fun _ => k') fun w1 h1 _ => hk w1 h1
  simpa only [bind_assoc] using this

theorem fill {a : Val} {p : Option Ptr} (ha : w.Rel a p) (n : Nat) :
    Sim w QEq (fillArray e a n) (fillArray e' p n) := by
  induction n generalizing w with
  | zero => exact Sim.pureEq _
  | succ n ih =>
    unfold fillArray
    refine Sim.bindRel Sim.pop fun w1 h1 v q hv => ?_
    exact E.setElemThen (ha.mono h1) hv n fun w2 h2 => ih (ha.mono (h1.trans h2))

theorem aryInit : Sim w QEq (doARY_INIT e) (doARY_INIT e') := by
  refine Sim.bindEq E.readOperand fun w0 h0 n => Sim.ite (fun _ => Sim.fault _) fun hn => ?_
  have hk : ∀ w1 (a : Val) p, Rel w1 a p → Sim w1 QEq (do fillArray e a n.toNat; push a)
      (do fillArray e' p n.toNat; push p) := fun w1 a p ha =>
    Sim.bindEq (E.fill ha _) fun w2 h2 _ => Sim.push (ha.mono h2)
  refine ⟨fun w1 h1 s s' hs => ?_⟩
  rw [vm_bind_ok (show (MonadState.get : VM Val Store _) s = .ok (s, s) from rfl),
    vm_bind_ok (show (MonadState.get : VM (Option Ptr) Heap _) s' = .ok (s', s') from rfl)]
  have hnew := E.newArr w1 n.toNat (E.nat_lt n hn)
  rw [hs.m, hs.h]
  unfold AgreeNew at hnew
  split at hnew
  · rename_i f hf
    rw [hf]
    rcases hnew with h | h
    · exact .inl h
    · rw [h]; exact .inr rfl
  · rename_i p h' hq
    rw [hq]
    obtain ⟨a, m, w2, h2, h3, h4, h5, h6⟩ := hnew
    rw [h2]
    have := (hk w2 a p h6).run w2 (.refl _) { s with mem := m } { s' with mem := h' }
      ⟨h4.symm, h5.symm, hs.globals.mono fun _ _ r => r.mono h3, hs.th.mono h3,
        hs.before.mono fun _ _ r => r.mono h3, hs.after.mono fun _ _ r => r.mono h3, hs.io⟩
    exact this.later h3

theorem setaC {a i v : Val} {p q r : Option Ptr} (ha : w.Rel a p) (hi : w.Rel i q)
    (hv : w.Rel v r) : Sim w QEq (setaCore e a i v) (setaCore e' p q r) := by
  unfold setaCore
  refine Sim.bindView (E.view ha) fun w1 h1 av _ => ?_
  cases av with
  | arr n =>
    refine Sim.bindView (E.view (hi.mono h1)) fun w2 h2 iv _ => ?_
    cases iv with
    | int x =>
      refine Sim.ite (fun _ => Sim.raise _) fun _ => ?_
      refine ⟨fun w3 h3 s s' hs => ?_⟩
      have hle := (h1.trans h2).trans h3
      obtain ⟨d, sh, hm⟩ := E.mem'
      obtain ⟨h4, y, h5⟩ := rel_view (hv.mono hle)
      rw [vm_bind_ok (show (MonadState.get : VM Val Store _) s = .ok (s, s) from rfl),
        vm_bind_ok (show (MonadState.get : VM (Option Ptr) Heap _) s' = .ok (s', s') from rfl),
        vm_bind_ok (show Ccml.view e v s = .ok (y, s) from
          view_ok (by rw [E.mem, hs.m]; exact h5)),
        vm_bind_ok (show Ccml.view e' r s' = .ok (y, s') from
          view_ok (by rw [hm, hs.h]; show gcView w3.h r = _; rw [h4, h5]))]
      have hset : ∀ w4 u b, Le w3 w4 → Rel w4 u b →
          Agree Le QEq w3
            ((Ccml.lift (e.mem.arrSet w4.m a x.toNat u) >>= fun m =>
              modify fun s => { s with mem := m }) s)
            ((Ccml.lift (e'.mem.arrSet w4.h p x.toNat b) >>= fun m =>
              modify fun s => { s with mem := m }) s') := by
        intro w4 u b h6 h7
        rw [E.mem, hm]
        show Agree _ _ _ ((Ccml.lift (a.arrSet w4.m x.toNat u) >>= fun m => _) s)
          ((Ccml.lift (gcArrSet w4.h p x.toNat b) >>= fun m => _) s')
        rcases rel_arrSet (ha.mono (hle.trans h6)) h7 x.toNat with ⟨f, h8, h9⟩ | ⟨w5, h8, h9, h10⟩
        · rw [h8, h9]; exact .inr rfl
        · rw [h8, h9]
          have h11 := h6.trans h10
          exact ⟨(), _, w5, rfl, h11, ⟨rfl, rfl, hs.globals.mono fun _ _ r => r.mono h11,
            hs.th.mono h11, hs.before.mono fun _ _ r => r.mono h11,
            hs.after.mono fun _ _ r => r.mono h11, hs.io⟩, rfl⟩
      have hcopy : Agree Le QEq w3
            ((Ccml.lift (copyVal e s.mem v) >>= fun x1 =>
              Ccml.lift (e.mem.arrSet x1.2 a x.toNat x1.1) >>= fun m =>
              modify fun s => { s with mem := m }) s)
            ((Ccml.lift (copyVal e' s'.mem r) >>= fun x1 =>
              Ccml.lift (e'.mem.arrSet x1.2 p x.toNat x1.1) >>= fun m =>
              modify fun s => { s with mem := m }) s') := by
        have hc := E.copy (hv.mono hle)
        rw [hs.m, hs.h]
        unfold AgreeNew at hc
        split at hc
        · rename_i f hf
          rw [hf]
          rcases hc with h | h
          · exact .inl h
          · rw [h]; exact .inr rfl
        · rename_i b h' hq
          obtain ⟨u, m, w4, h6, h7, h8, h9, h10⟩ := hc
          rw [hq, h6]
          rw [vm_bind_ok (show Ccml.lift (Except.ok (u, m)) s = .ok ((u, m), s) from rfl),
            vm_bind_ok (show Ccml.lift (Except.ok (b, h')) s' = .ok ((b, h'), s') from rfl)]
          rw [← h8, ← h9]
          exact hset w4 u b h7 h10
      cases y with
      | arr k =>
        dsimp only
        rw [hs.m, hs.h]
        exact hset w3 v r (.refl _) (hv.mono hle)
      | _ => exact hcopy
    | _ => exact Sim.raise _
  | _ => exact Sim.raise _

theorem seta : Sim w QEq (doSETA e) (doSETA e') := by
  refine Sim.bindRel Sim.pop fun w1 h1 a p ha => Sim.bindRel Sim.pop fun w2 h2 i q hi =>
    Sim.bindRel Sim.pop fun w3 h3 v r hv => ?_
  rcases E.host.arraySet with ⟨h4, h5⟩ | ⟨f, g, h4, h5, h6⟩
  · rw [h4, h5]; exact E.setaC (ha.mono (h2.trans h3)) (hi.mono h3) hv
  · rw [h4, h5]
    refine Sim.bindEq (h6 w3 a p i q v r (ha.mono (h2.trans h3)) (hi.mono h3) hv) fun w4 h7 b => ?_
    exact Sim.ite (fun _ => Sim.pureEq _) fun _ =>
      E.setaC (ha.mono ((h2.trans h3).trans h7)) (hi.mono (h3.trans h7)) (hv.mono h7)

theorem member (n : I32) : Sim w QEq (memberName e n) (memberName e' n) := by
  unfold memberName
  rw [E.prog]
  refine Sim.ite (fun _ => Sim.fault _) fun _ => ?_
  cases e.prog.strings[n.toNat]? with
  | none => exact Sim.fault _
  | some s => exact Sim.pureEq _

theorem setm : Sim w QEq (doSETM e) (doSETM e') := by
  refine Sim.bindRel Sim.pop fun w1 h1 a p ha => Sim.bindRel Sim.pop fun w2 h2 i q hi => ?_
  refine Sim.bindEq E.readOperand fun w3 h3 n => Sim.bindEq (E.member n) fun w4 h4 s => ?_
  rcases E.host.memberSet with ⟨h5, h6⟩ | ⟨f, g, h5, h6, h7⟩
  · rw [h5, h6]; exact Sim.raise _
  · rw [h5, h6]
    refine Sim.bindEq (h7 w4 a p i q s (ha.mono ((h2.trans h3).trans h4)) (hi.mono (h3.trans h4)))
      fun _ _ b => ?_
    exact Sim.ite (fun _ => Sim.pureEq _) fun _ => Sim.raise _

theorem getmH {a : Val} {p : Option Ptr} (ha : w.Rel a p) (s : Str) :
    Sim w QEq (getmHandler e a s) (getmHandler e' p s) := by
  unfold getmHandler
  rcases E.host.memberGet with ⟨h5, h6⟩ | ⟨f, g, h5, h6, h7⟩
  · rw [h5, h6]; exact Sim.raise _
  · rw [h5, h6]
    refine Sim.bindEq (h7 w a p s ha) fun _ _ b => ?_
    exact Sim.ite (fun _ => Sim.pureEq _) fun _ => Sim.raise _

theorem getm : Sim w QEq (doGETM e) (doGETM e') := by
  refine Sim.bindRel Sim.pop fun w1 h1 a p ha => ?_
  refine Sim.bindEq E.readOperand fun w3 h3 n => Sim.bindEq (E.member n) fun w4 h4 s => ?_
  refine Sim.bindView (E.view (ha.mono (h3.trans h4))) fun w5 h5 v _ => ?_
  have hh := E.getmH (ha.mono ((h3.trans h4).trans h5)) s
  cases v with
  | arr n => exact Sim.ite (fun _ => E.pushInt _) fun _ => hh
  | _ => exact hh

theorem execSim (op : Option Op) : Sim w QEq (exec e op) (exec e' op) := by
  cases op with
  | none => exact Sim.raise _
  | some op =>
    cases op <;> simp only [exec, doLT, doGT, doLEQ, doGEQ, E.fl]
    case ADD => exact E.add
    case SUB => exact E.sub
    case MUL => exact E.mul
    case DIV => exact E.div
    case MOD => exact E.mod
    case AND => exact E.and
    case OR => exact E.or
    case NOT => exact E.not
    case NEG => exact E.neg
    case LT => exact E.compare _ _
    case GT => exact E.compare _ _
    case LEQ => exact E.compare _ _
    case GEQ => exact E.compare _ _
    case EQ => exact E.eq
    case JMP => exact Sim.bindEq E.readOperand fun _ _ _ => Sim.jump _
    case TJMP => exact E.tjmp
    case FJMP => exact E.fjmp
    case CALL => exact E.call
    case RET => exact E.ret
    case SCALL => exact E.scall
    case ICALL => exact E.icall
    case POP => exact Sim.bindEq E.readOperand fun _ _ _ => Sim.popN _
    case NEW_ARY => exact E.newAryI
    case NEW_INT => exact Sim.bindEq E.readOperand fun _ _ _ => E.pushInt _
    case NEW_STR => exact E.newStrI
    case NEW_NONE => exact E.newNoneI
    case NEW_FLT => exact Sim.bindEq E.readOperand fun _ _ _ => E.pushFloat _
    case NEW_FUNC =>
      exact Sim.bindEq E.readOperand fun _ _ _ =>
        Sim.ite (fun _ => Sim.fault _) fun _ => E.pushFunc _
    case NEW_SCALL =>
      exact Sim.bindEq E.readOperand fun _ _ _ =>
        Sim.ite (fun _ => Sim.fault _) fun _ => E.pushSyscall _
    case LOCALS => exact Sim.bindEq E.readOperand fun _ _ _ => E.reserve _
    case GLOBALS => exact E.globals
    case GETV => exact E.getv
    case SETV => exact E.setv
    case GETG => exact E.getg
    case SETG => exact E.setg
    case DEREF => exact E.deref
    case SETA => exact E.seta
    case GETM => exact E.getm
    case SETM => exact E.setm
    case ARY_INIT => exact E.aryInit

theorem break_ {t : Thread Val} {t' : Thread (Option Ptr)} (h : w.Th t t') :
    w.Th (Ccml.checkBreak e t) (Ccml.checkBreak e' t') := by
  unfold Ccml.checkBreak sourceLine
  rw [E.prog, h.pc, h.breakpoints]
  split
  · exact h
  · dsimp only
    exact ⟨h.1, rfl, h.3, h.4, h.5, by dsimp only; rw [h.halted, h.lastLine], rfl, h.8, rfl, h.10⟩

theorem step : Sim w QEq (stepImp e) (stepImp e') := by
  refine Sim.bindEq E.readOpcode fun _ _ b => Sim.bindEq (E.execSim _) fun _ _ _ => ?_
  refine Sim.bindEq (Sim.modTh fun _ _ _ _ h => E.break_ h) fun _ _ _ => ?_
  exact Sim.modTh fun _ _ _ _ h => ⟨h.1, h.2, h.3, by dsimp only; rw [h.4], h.5, h.6, h.7, h.8,
    h.9, h.10⟩

end EnvSim
end Ccml
