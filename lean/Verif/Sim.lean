import Verif.GcHeight
import Verif.GcHook
/-!
The machine on the collected heap simulates the machine on the mathematical store: definitions and
the lemmas for each primitive and each instruction.
-/
set_option linter.unusedSectionVars false
namespace Ccml

/-- The arrays of a store as a graph of values. -/
def valGraph (m : Store) : Graph Val
  | .none => some .none
  | .int v => some (.int v)
  | .float v => some (.float v)
  | .str v => some (.str v)
  | .func v => some (.func v)
  | .syscall v => some (.syscall v)
  | .arr l => match m[l]? with
    | some xs => some (.arr xs)
    | Option.none => Option.none

/-- A store, a heap and the places of the arrays of the store in the heap. -/
structure World where
  m : Store
  h : Heap
  L : Val → Ptr → Prop
  ok : Holds (valGraph m) h L
  packed : h.Packed

namespace World

/-- Later worlds without a collection in between. -/
structure Le (w w' : World) : Prop where
  m : w.m.length ≤ w'.m.length
  h : Heap.Ext w.h w'.h
  L : ∀ a q, w.L a q → w'.L a q

theorem Le.refl (w : World) : Le w w := ⟨Nat.le_refl _, .refl _, fun _ _ h => h⟩
theorem Le.trans {a b c : World} (h : Le a b) (k : Le b c) : Le a c :=
  ⟨Nat.le_trans h.m k.m, h.h.trans k.h, fun _ _ hx => k.L _ _ (h.L _ _ hx)⟩

/-- The pointer represents the value. -/
def Rel (w : World) (v : Val) (p : Option Ptr) : Prop := Rep (valGraph w.m) w.h w.L v p

theorem rep_store {m m' : Store} (hm : m.length ≤ m'.length) {h L} {v : Val} {p : Option Ptr}
    (hr : Rep (valGraph m) h L v p) : Rep (valGraph m') h L v p := by
  cases v with
  | arr l =>
    simp only [Rep, valGraph] at hr ⊢
    cases hl : m[l]? with
    | none => rw [hl] at hr; exact hr.elim
    | some xs =>
      rw [hl] at hr
      have : l < m'.length := by
        have := (List.getElem?_eq_some_iff.1 hl).1; omega
      rw [List.getElem?_eq_getElem this]
      exact hr
  | _ => exact hr

theorem Rel.mono {w w' : World} {v : Val} {p : Option Ptr} (hr : Rel w v p) (hle : Le w w') :
    Rel w' v p :=
  rep_store hle.m (hr.ext hle.h hle.L)

theorem rel_nil (w : World) : Rel w .none none := by simp [Rel, Rep, valGraph]

/-- The threads agree, values being related. -/
structure Th (w : World) (t : Thread Val) (t' : Thread (Option Ptr)) : Prop where
  waits : t'.waits = t.waits
  lastLine : t'.lastLine = t.lastLine
  error : t'.error = t.error
  cycles : t'.cycles = t.cycles
  finished : t'.finished = t.finished
  halted : t'.halted = t.halted
  pc : t'.pc = t.pc
  frames : t'.frames = t.frames
  breakpoints : t'.breakpoints = t.breakpoints
  stack : All2 w.Rel t.stack t'.stack

theorem Th.mono {w w' : World} {t t'} (h : Th w t t') (hle : Le w w') : Th w' t t' :=
  ⟨h.1, h.2, h.3, h.4, h.5, h.6, h.7, h.8, h.9, h.10.mono fun _ _ r => r.mono hle⟩

theorem Th.len {w : World} {t t'} (h : Th w t t') : t'.stack.length = t.stack.length :=
  h.stack.length.symm

theorem Th.hasError {w : World} {t t'} (h : Th w t t') : t'.hasError = t.hasError := by
  simp only [Thread.hasError, h.error]

/-- The states agree, values being related. -/
structure Same (w : World) (s : St Val Store) (s' : St (Option Ptr) Heap) : Prop where
  m : s.mem = w.m
  h : s'.mem = w.h
  globals : All2 w.Rel s.globals s'.globals
  th : Th w s.th s'.th
  before : All2 (Th w) s.before s'.before
  after : All2 (Th w) s.after s'.after
  io : s'.io = s.io

end World

open World

/-- The outcomes that the store does not have: memory exhausted, and the stack of the tracer
exhausted. -/
def Limit (f : Fault) : Prop := f = .oom ∨ f = .diverge

variable {α β γ δ : Type}

/-- Outcomes agree: the heap runs into a limit, or both end in the same fault, or both go on in
related states with results related by `Q`. -/
def Agree (N : World → World → Prop) (Q : World → α → β → Prop) (w : World)
    (r : Out (α × St Val Store)) (r' : Out (β × St (Option Ptr) Heap)) : Prop :=
  match r' with
  | .error f => Limit f ∨ r = .error f
  | .ok (b, t') => ∃ a t w', r = .ok (a, t) ∧ N w w' ∧ w'.Same t t' ∧ Q w' a b

/-- `x` on the store and `y` on the heap do the same in every world from `w` on. -/
structure Sim (w : World) (Q : World → α → β → Prop) (x : VM Val Store α)
    (y : VM (Option Ptr) Heap β) : Prop where
  run : ∀ w1, Le w w1 → ∀ s s', w1.Same s s' → Agree Le Q w1 (x s) (y s')

/-- Results are related values. -/
def QRel (w : World) (v : Val) (p : Option Ptr) : Prop := w.Rel v p
/-- Results are equal. -/
def QEq (_ : World) (a b : α) : Prop := b = a
/-- Results are equal views. -/
def QView (_ : World) (a b : View) : Prop := b = a ∧ ∀ s, a = .str s → cstr s = s
/-- Results are related threads. -/
def QTh (w : World) (t : Thread Val) (t' : Thread (Option Ptr)) : Prop := w.Th t t'

namespace Sim
variable {w : World}

theorem bind {Q : World → α → β → Prop} {Q' : World → γ → δ → Prop} {x : VM Val Store α}
    {y : VM (Option Ptr) Heap β} {f : α → VM Val Store γ} {g : β → VM (Option Ptr) Heap δ}
    (hx : Sim w Q x y) (hf : ∀ w1, Le w w1 → ∀ a b, Q w1 a b → Sim w1 Q' (f a) (g b)) :
    Sim w Q' (x >>= f) (y >>= g) := by
  refine ⟨fun w1 h1 s s' hs => ?_⟩
  have hx' := hx.run w1 h1 s s' hs
  unfold Agree at hx'
  rw [vm_bind, vm_bind]
  cases hy : y s' with
  | error e =>
    rw [hy] at hx'
    rcases hx' with h | h
    · exact .inl h
    · rw [h]; exact .inr rfl
  | ok b =>
    obtain ⟨b, t'⟩ := b
    rw [hy] at hx'
    obtain ⟨a, t, w2, h2, h3, h4, h5⟩ := hx'
    rw [h2]
    dsimp only
    have := (hf w2 (h1.trans h3) a b h5).run w2 (.refl _) t t' h4
    unfold Agree at this ⊢
    split
    · rename_i e he
      rw [he] at this
      exact this
    · rename_i d u' he
      rw [he] at this
      obtain ⟨c, u, w3, h6, h7, h8, h9⟩ := this
      exact ⟨c, u, w3, h6, h3.trans h7, h8, h9⟩

/-- Continue with equal results. -/
theorem bindEq {Q' : World → γ → δ → Prop} {x : VM Val Store α}
    {y : VM (Option Ptr) Heap α} {f : α → VM Val Store γ} {g : α → VM (Option Ptr) Heap δ}
    (hx : Sim w QEq x y) (hf : ∀ w1, Le w w1 → ∀ a, Sim w1 Q' (f a) (g a)) :
    Sim w Q' (x >>= f) (y >>= g) :=
  hx.bind fun w1 h1 a b h => by unfold QEq at h; subst h; exact hf w1 h1 _

theorem pure {Q : World → α → β → Prop} {a : α} {b : β} (h : ∀ w1, Le w w1 → Q w1 a b) :
    Sim w Q (Pure.pure a) (Pure.pure b) :=
  ⟨fun w1 h1 s s' hs => ⟨a, s, w1, rfl, .refl _, hs, h w1 h1⟩⟩

theorem pureEq (a : α) : Sim w QEq (Pure.pure a) (Pure.pure a) := pure fun _ _ => rfl

theorem fault {Q : World → α → β → Prop} (f : Fault) : Sim w Q (fault f) (fault f) :=
  ⟨fun _ _ _ _ _ => .inr rfl⟩

theorem lift (o : Out α) : Sim w QEq (lift o) (lift o) := by
  refine ⟨fun w1 _ s _ hs => ?_⟩
  unfold Ccml.lift
  cases o with
  | error f => exact .inr rfl
  | ok a => exact ⟨a, s, w1, rfl, .refl _, hs, rfl⟩

theorem modTh {f : Thread Val → Thread Val} {f' : Thread (Option Ptr) → Thread (Option Ptr)}
    (hf : ∀ w1, Le w w1 → ∀ t t', w1.Th t t' → w1.Th (f t) (f' t')) :
    Sim w QEq (modTh f) (modTh f') := by
  refine ⟨fun w1 h1 _ _ hs => ⟨(), _, w1, rfl, .refl _, ?_, rfl⟩⟩
  exact ⟨hs.m, hs.h, hs.globals, hf w1 h1 _ _ hs.th, hs.before, hs.after, hs.io⟩

theorem getTh : Sim w QTh getTh getTh :=
  ⟨fun w1 _ s _ hs => ⟨_, s, w1, rfl, .refl _, hs, hs.th⟩⟩

theorem raise (e : TErr) : Sim w QEq (raise e) (raise e) :=
  modTh fun _ _ _ _ h => ⟨h.1, h.2, rfl, h.4, rfl, h.6, h.7, h.8, h.9, h.10⟩

theorem jump (x : Int) : Sim w QEq (jump x) (jump x) :=
  modTh fun _ _ _ _ h => ⟨h.1, h.2, h.3, h.4, h.5, h.6, rfl, h.8, h.9, h.10⟩

theorem enter (a : Nat) (b c : Int) : Sim w QEq (enter a b c) (enter a b c) :=
  modTh fun _ _ _ _ h => ⟨h.1, h.2, h.3, h.4, h.5, h.6, rfl, by rw [h.8], h.9, h.10⟩

theorem push {v : Val} {p : Option Ptr} (hv : w.Rel v p) : Sim w QEq (push v) (push p) :=
  modTh fun _ h1 _ _ h => ⟨h.1, h.2, h.3, h.4, h.5, h.6, h.7, h.8, h.9, .cons (hv.mono h1) h.10⟩

theorem pop : Sim w QRel pop pop := by
  refine ⟨fun w1 _ s s' hs => ?_⟩
  have hst := hs.th.stack
  unfold Ccml.pop
  cases h : s'.th.stack with
  | nil =>
    rw [h] at hst
    generalize hq : s.th.stack = st at hst
    cases hst
    exact .inr rfl
  | cons p ps =>
    rw [h] at hst
    generalize hq : s.th.stack = st at hst
    cases hst with
    | cons hv hr =>
      refine ⟨_, _, w1, rfl, .refl _, ⟨hs.m, hs.h, hs.globals, ?_, hs.before, hs.after, hs.io⟩, hv⟩
      have := hs.th
      exact ⟨this.1, this.2, this.3, this.4, this.5, this.6, this.7, this.8, this.9, hr⟩

theorem drop2 {α β : Type} {R : α → β → Prop} {as : List α} {bs : List β} (h : All2 R as bs)
    (n : Nat) : All2 R (as.drop n) (bs.drop n) := by
  induction h generalizing n with
  | nil => simp; exact .nil
  | cons h t ih =>
    cases n with
    | zero => exact .cons h t
    | succ n => exact ih n

theorem take2 {α β : Type} {R : α → β → Prop} {as : List α} {bs : List β} (h : All2 R as bs)
    (n : Nat) : All2 R (as.take n) (bs.take n) := by
  induction h generalizing n with
  | nil => simp; exact .nil
  | cons h t ih =>
    cases n with
    | zero => exact .nil
    | succ n => exact .cons h (ih n)

theorem rev2 {α β : Type} {R : α → β → Prop} {as : List α} {bs : List β} (h : All2 R as bs) :
    All2 R as.reverse bs.reverse := by
  induction h with
  | nil => exact .nil
  | cons h t ih => simp only [List.reverse_cons]; exact ih.append (.cons h .nil)

theorem discard (n : Nat) : Sim w QEq (discard n) (discard n) := by
  refine ⟨fun w1 _ s s' hs => ?_⟩
  unfold Ccml.discard
  rw [hs.th.len]
  by_cases h : n ≤ s.th.stack.length
  · rw [if_pos h, if_pos h]
    refine ⟨_, _, w1, rfl, .refl _, ⟨hs.m, hs.h, hs.globals, ?_, hs.before, hs.after, hs.io⟩, rfl⟩
    have := hs.th
    exact ⟨this.1, this.2, this.3, this.4, this.5, this.6, this.7, this.8, this.9,
      drop2 this.10 n⟩
  · rw [if_neg h, if_neg h]
    exact .inr rfl

theorem curFrame : Sim w QEq curFrame curFrame := by
  refine ⟨fun w1 _ s _ hs => ?_⟩
  unfold Ccml.curFrame
  rw [hs.th.frames]
  cases s.th.frames with
  | nil => exact .inr rfl
  | cons f fs => exact ⟨f, s, w1, rfl, .refl _, hs, rfl⟩

theorem leave : Sim w QEq leave leave := by
  refine ⟨fun w1 _ s s' hs => ?_⟩
  unfold Ccml.leave
  rw [hs.th.frames, hs.th.len]
  cases s.th.frames with
  | nil =>
    have := (raise (w := w1) .stack_underflow).run w1 (.refl _) s s' hs
    exact ⟨0, _, w1, rfl, .refl _, by
      obtain ⟨_, _, w2, h1, h2, h3, h4⟩ := this
      refine ⟨hs.m, hs.h, hs.globals, ?_, hs.before, hs.after, hs.io⟩
      have := hs.th
      exact ⟨this.1, this.2, rfl, this.4, rfl, this.6, this.7, this.8, this.9, this.10⟩, rfl⟩
  | cons f fs =>
    dsimp only
    by_cases hc : ((f.terminal || fs.isEmpty) = true ∧ s.th.stack.length = 0)
    · rw [if_pos hc, if_pos hc]; exact .inr rfl
    · rw [if_neg hc, if_neg hc]
      refine ⟨f.ret, _, w1, rfl, .refl _, ⟨hs.m, hs.h, hs.globals, ?_, hs.before, hs.after, hs.io⟩, rfl⟩
      have := hs.th
      exact ⟨this.1, this.2, this.3, this.4, rfl, this.6, this.7, rfl, this.9, this.10⟩

theorem stackSet (i : Int) {v : Val} {p : Option Ptr} (hv : w.Rel v p) :
    Sim w QEq (stackSet i v) (stackSet i p) := by
  refine ⟨fun w1 h1 s s' hs => ?_⟩
  unfold Ccml.stackSet
  rw [hs.th.len]
  by_cases hc : 0 ≤ i ∧ i < s.th.stack.length
  · rw [if_pos hc, if_pos hc]
    refine ⟨(), _, w1, rfl, .refl _, ⟨hs.m, hs.h, hs.globals, ?_, hs.before, hs.after, hs.io⟩, rfl⟩
    have := hs.th
    exact ⟨this.1, this.2, this.3, this.4, this.5, this.6, this.7, this.8, this.9,
      rev2 ((rev2 this.10).set _ (hv.mono h1))⟩
  · rw [if_neg hc, if_neg hc]
    exact (raise _).run w1 (.refl _) s s' hs

theorem get : Sim w World.Same (MonadState.get : VM Val Store _)
    (MonadState.get : VM (Option Ptr) Heap _) :=
  ⟨fun w1 _ s _ hs => ⟨s, s, w1, rfl, .refl _, hs, hs⟩⟩

end Sim

/-! ### Memory operations -/

theorem rel_view {w : World} {v : Val} {p : Option Ptr} (hr : w.Rel v p) :
    gcView w.h p = v.view w.m ∧ ∃ x, v.view w.m = .ok x := by
  unfold Rel Rep at hr
  cases v <;> simp only [valGraph] at hr
  case none => subst hr; exact ⟨rfl, _, rfl⟩
  case arr l =>
    cases hm : w.m[l]? with
    | none => rw [hm] at hr; exact hr.elim
    | some xs =>
      rw [hm] at hr
      obtain ⟨q, rfl, hl⟩ := hr
      obtain ⟨ys, ps, h1, _, h3, h4⟩ := w.ok.arr _ _ hl
      simp only [valGraph, hm, Option.some.injEq, Node.arr.injEq] at h1
      subst h1
      simp [gcView, Val.view, h3, hm, h4.length]
  case str s =>
    obtain ⟨q, rfl, hq, _⟩ := hr
    simp [gcView, Val.view, hq]
  all_goals
    obtain ⟨q, rfl, hq⟩ := hr
    simp [gcView, Val.view, hq]

/-- Strings that can be reached hold no NUL, and arrays are no longer than an `int32_t` tells. -/
def View.Ok (x : View) : Prop := ∀ s, x = .str s → cstr s = s

theorem rel_cstr {w : World} {v : Val} {p : Option Ptr} (hr : w.Rel v p) {x : View}
    (h : v.view w.m = .ok x) : x.Ok := by
  intro s hs
  subst hs
  cases v <;> simp [Val.view] at h
  · subst h
    unfold Rel Rep at hr
    simp only [valGraph] at hr
    obtain ⟨_, _, _, h, _⟩ := hr
    exact h
  · split at h <;> cases h

/-- A value that is not an array is allocated: the world grows by nothing but the new cell. -/
theorem new_scalar (w : World) {c : Cell} {q : Ptr} {h' : Heap} (a : Heap.Alloced w.h c q h')
    (hp : h'.Packed) :
    ∃ w', Le w w' ∧ w'.m = w.m ∧ w'.h = h' ∧ w'.h.get q = some c := by
  obtain ⟨t, e⟩ := w.ok.tracing.alloc_scalar a
  refine ⟨⟨w.m, h', w.L, ⟨t.below, t.arr, t.inj, w.ok.func, ?_⟩, hp⟩,
    ⟨Nat.le_refl _, e, fun _ _ h => h⟩, rfl, rfl, ?_⟩
  · intro x; rw [a.fwd]; exact w.ok.fwd x
  · show h'.get q = some c
    rw [a.get, if_pos rfl]

/-- Allocation agrees: limit, or a later world with related results. -/
def AgreeNew (w : World) (r : Out (Val × Store)) (r' : Out (Option Ptr × Heap)) : Prop :=
  match r' with
  | .error f => Limit f ∨ r = .error f
  | .ok (p, h) => ∃ v m w', r = .ok (v, m) ∧ Le w w' ∧ w'.m = m ∧ w'.h = h ∧ w'.Rel v p

theorem gcNew_scalar (w : World) (v : Val) (c : Cell) (hc : c.extra < 9223372036854775809)
    (hr : ∀ w' q, w'.h.get q = some c → World.Rel w' v (some q)) :
    AgreeNew w (.ok (v, w.m)) (gcNew w.h c) := by
  unfold gcNew
  cases hx : w.h.allocTo c.extra c with
  | none => exact .inl (.inl rfl)
  | some y =>
    obtain ⟨q, h'⟩ := y
    obtain ⟨w', h1, h2, h3, h4⟩ := new_scalar w (Heap.allocTo_spec w.ok.below hc hx)
      (Heap.packed_alloc w.packed hc hx)
    exact ⟨v, w.m, w', rfl, h1, h2, h3, hr w' q h4⟩

theorem new_arr (w : World) (n : Nat) (hn : n < 2147483648) :
    AgreeNew w (.ok (.arr w.m.length, w.m ++ [List.replicate n .none]))
      (gcNew w.h (.arr (List.replicate n none))) := by
  unfold gcNew
  cases hx : w.h.allocTo (Cell.arr (List.replicate n none)).extra (.arr (List.replicate n none)) with
  | none => exact .inl (.inl rfl)
  | some y =>
    obtain ⟨q, h'⟩ := y
    have a := Heap.allocTo_spec w.ok.below (by simp [Cell.extra]; omega) hx
    have he := a.ext
    have hml : w.m.length ≤ (w.m ++ [List.replicate n Val.none]).length := by simp
    have hne : ∀ x d, w.h.get x = some d → x ≠ q := by
      intro x d hd e
      rw [e, a.fresh] at hd
      cases hd
    have hLq : ∀ x, ¬ w.L x q := by
      intro x hx
      obtain ⟨_, _, _, _, h3, _⟩ := w.ok.arr x q hx
      exact hne _ _ h3 rfl
    have hLnew : ∀ y, ¬ w.L (.arr w.m.length) y := by
      intro y hy
      obtain ⟨_, _, h3, _⟩ := w.ok.arr _ _ hy
      simp [valGraph] at h3
    have hgrow : ∀ v p, Rep (valGraph w.m) w.h w.L v p →
        Rep (valGraph (w.m ++ [List.replicate n Val.none])) h'
          (fun x y => w.L x y ∨ (x = .arr w.m.length ∧ y = q)) v p := fun v p hr =>
      rep_store hml (hr.ext he fun _ _ h => .inl h)
    let w' : World := ⟨w.m ++ [List.replicate n .none], h',
      fun x y => w.L x y ∨ (x = .arr w.m.length ∧ y = q), by
      refine ⟨a.below, ?_, ?_, ?_, by intro x; rw [a.fwd]; exact w.ok.fwd x⟩
      · intro x y hxy
        rcases hxy with hxy | ⟨rfl, rfl⟩
        · obtain ⟨ys, ps, h1, h2, h3, h4⟩ := w.ok.arr x y hxy
          refine ⟨ys, ps, ?_, h2, by rw [a.get, if_neg (hne _ _ h3)]; exact h3,
            h4.mono hgrow⟩
          cases x <;> simp only [valGraph] at h1 ⊢ <;> try exact h1
          split at h1 <;> cases h1
          rename_i hm
          rw [List.getElem?_append_left (List.getElem?_eq_some_iff.1 hm).1, hm]
        · refine ⟨List.replicate n .none, List.replicate n none, ?_, by simpa using hn,
            by rw [a.get, if_pos rfl], ?_⟩
          · simp [valGraph]
          · exact All2.replicate (by simp [Rep, valGraph]) n
      · intro x y z h1 h2
        rcases h1 with h1 | ⟨rfl, h1⟩ <;> rcases h2 with h2 | ⟨rfl, h2⟩
        · exact w.ok.inj _ _ _ h1 h2
        · rw [h2] at h1; exact absurd h1 (hLq _)
        · rw [h1] at h2; exact absurd h2 (hLq _)
        · rfl
      · intro x y z hy hz
        rcases hy with hy | ⟨rfl, rfl⟩ <;> rcases hz with hz | ⟨hz1, hz⟩
        · exact w.ok.func _ _ _ hy hz
        · subst hz1; exact absurd hy (hLnew _)
        · exact absurd hz (hLnew _)
        · exact hz.symm,
      Heap.packed_alloc w.packed (by simp [Cell.extra]; omega) hx⟩
    refine ⟨_, _, w', rfl, ⟨hml, he, fun _ _ h => .inl h⟩, rfl, rfl, ?_⟩
    have hg : valGraph w'.m (.arr w.m.length) = some (.arr (List.replicate n .none)) := by
      simp [w', valGraph]
    show Rep (valGraph w'.m) w'.h w'.L (.arr w.m.length) (some q)
    unfold Rep
    rw [hg]
    exact ⟨q, rfl, .inr ⟨rfl, rfl⟩⟩

theorem rel_arrGet {w : World} {v : Val} {p : Option Ptr} (hr : w.Rel v p) (i : Nat) :
    (∃ f, v.arrGet w.m i = .error f ∧ gcArrGet w.h p i = .error f) ∨
    (∃ x y, v.arrGet w.m i = .ok x ∧ gcArrGet w.h p i = .ok y ∧ w.Rel x y) := by
  unfold Rel Rep at hr
  cases v <;> simp only [valGraph] at hr
  case none => subst hr; exact .inl ⟨_, rfl, rfl⟩
  case arr l =>
    cases hm : w.m[l]? with
    | none => rw [hm] at hr; exact hr.elim
    | some xs =>
      rw [hm] at hr
      obtain ⟨q, rfl, hl⟩ := hr
      obtain ⟨ys, ps, h1, _, h3, h4⟩ := w.ok.arr _ _ hl
      simp only [valGraph, hm, Option.some.injEq, Node.arr.injEq] at h1
      subst h1
      simp only [Val.arrGet, hm, gcArrGet, h3]
      cases hi : xs[i]? with
      | none =>
        have : ps[i]? = none := by
          rw [List.getElem?_eq_none_iff] at hi ⊢
          rw [← h4.length]; exact hi
        rw [this]
        exact .inl ⟨_, rfl, rfl⟩
      | some x =>
        obtain ⟨y, hy, hxy⟩ := h4.get' i x hi
        rw [hy]
        exact .inr ⟨x, y, rfl, rfl, hxy⟩
  case str s =>
    obtain ⟨q, rfl, hq, _⟩ := hr
    exact .inl ⟨.ub, rfl, by simp [gcArrGet, hq]⟩
  all_goals
    obtain ⟨q, rfl, hq⟩ := hr
    exact .inl ⟨.ub, rfl, by simp [gcArrGet, hq]⟩

theorem rel_arrSet {w : World} {v x : Val} {p y : Option Ptr} (hr : w.Rel v p) (hx : w.Rel x y)
    (i : Nat) :
    (∃ f, v.arrSet w.m i x = .error f ∧ gcArrSet w.h p i y = .error f) ∨
    (∃ w', v.arrSet w.m i x = .ok w'.m ∧ gcArrSet w.h p i y = .ok w'.h ∧ Le w w') := by
  have hr0 := hr
  unfold Rel Rep at hr
  cases v <;> simp only [valGraph] at hr
  case none => subst hr; exact .inl ⟨_, rfl, rfl⟩
  case arr l =>
    cases hm : w.m[l]? with
    | none => rw [hm] at hr; exact hr.elim
    | some xs =>
      rw [hm] at hr
      obtain ⟨q, rfl, hl⟩ := hr
      obtain ⟨ys, ps, h1, h2, h3, h4⟩ := w.ok.arr _ _ hl
      simp only [valGraph, hm, Option.some.injEq, Node.arr.injEq] at h1
      subst h1
      simp only [Val.arrSet, hm, gcArrSet, h3, ← h4.length]
      by_cases hi : i < xs.length
      · rw [if_pos hi, if_pos hi]
        right
        have hlm : l < w.m.length := (List.getElem?_eq_some_iff.1 hm).1
        have he : Heap.Ext w.h (w.h.put q (.arr (ps.set i y))) := Heap.ext_put h3
        have hgrow : ∀ v p, Rep (valGraph w.m) w.h w.L v p →
            Rep (valGraph (w.m.set l (xs.set i x))) (w.h.put q (.arr (ps.set i y))) w.L v p :=
          fun v p hr => rep_store (by simp) (hr.ext he fun _ _ h => h)
        refine ⟨⟨w.m.set l (xs.set i x), w.h.put q (.arr (ps.set i y)), w.L, ?_,
          Heap.packed_put w.packed h3 (by simp [Cell.extra])⟩, rfl, rfl,
          ⟨by simp, he, fun _ _ h => h⟩⟩
        refine ⟨Heap.below_put w.ok.below h3, ?_, w.ok.inj, w.ok.func, by simpa using w.ok.fwd⟩
        intro a z haz
        by_cases hz : z = q
        · subst hz
          have := w.ok.inj _ _ _ haz hl
          subst this
          refine ⟨xs.set i x, ps.set i y, ?_, by simpa using h2, by simp [Heap.get_put],
            (h4.set i hx).mono hgrow⟩
          simp [valGraph, hlm]
        · obtain ⟨zs, rs, g1, g2, g3, g4⟩ := w.ok.arr a z haz
          refine ⟨zs, rs, ?_, g2, by simp [Heap.get_put, hz, g3], g4.mono hgrow⟩
          cases a <;> simp only [valGraph] at g1 ⊢ <;> try exact g1
          rename_i l'
          have hne : l ≠ l' := by
            intro e; subst e
            exact hz (w.ok.func _ _ _ haz hl)
          rw [List.getElem?_set_ne hne]; exact g1
      · rw [if_neg hi, if_neg hi]
        exact .inl ⟨_, rfl, rfl⟩
  case str s =>
    obtain ⟨q, rfl, hq, _⟩ := hr
    exact .inl ⟨.ub, rfl, by simp [gcArrSet, hq]⟩
  all_goals
    obtain ⟨q, rfl, hq⟩ := hr
    exact .inl ⟨.ub, rfl, by simp [gcArrSet, hq]⟩

/-- Two operator hooks correspond. -/
def HookSim (x : Option (Val → Val → VM Val Store Bool))
    (y : Option (Option Ptr → Option Ptr → VM (Option Ptr) Heap Bool)) : Prop :=
  (x = none ∧ y = none) ∨ ∃ f g, x = some f ∧ y = some g ∧
    ∀ w a p b q, World.Rel w a p → World.Rel w b q → Sim w QEq (f a b) (g p q)

/-- The host parts of two machines correspond. -/
structure HostSim (e : Env Val Store) (e' : Env (Option Ptr) Heap) : Prop where
  native : ∀ w f n, Sim w QEq (e.native f n) (e'.native f n)
  arrayGet : HookSim e.handlers.onArrayGet e'.handlers.onArrayGet
  equals : HookSim e.handlers.onEquals e'.handlers.onEquals
  add : HookSim e.handlers.onAdd e'.handlers.onAdd
  sub : HookSim e.handlers.onSub e'.handlers.onSub
  mul : HookSim e.handlers.onMul e'.handlers.onMul
  div : HookSim e.handlers.onDiv e'.handlers.onDiv
  arraySet : (e.handlers.onArraySet = none ∧ e'.handlers.onArraySet = none) ∨
    ∃ f f', e.handlers.onArraySet = some f ∧ e'.handlers.onArraySet = some f' ∧
      ∀ w a p b q c r, World.Rel w a p → World.Rel w b q → World.Rel w c r →
        Sim w QEq (f a b c) (f' p q r)
  memberGet : (e.handlers.onMemberGet = none ∧ e'.handlers.onMemberGet = none) ∨
    ∃ f f', e.handlers.onMemberGet = some f ∧ e'.handlers.onMemberGet = some f' ∧
      ∀ w a p s, World.Rel w a p → Sim w QEq (f a s) (f' p s)
  memberSet : (e.handlers.onMemberSet = none ∧ e'.handlers.onMemberSet = none) ∨
    ∃ f f', e.handlers.onMemberSet = some f ∧ e'.handlers.onMemberSet = some f' ∧
      ∀ w a p b q s, World.Rel w a p → World.Rel w b q → Sim w QEq (f a b s) (f' p q s)
  threadError : (e.handlers.onThreadError = none ∧ e'.handlers.onThreadError = none) ∨
    ∃ f f', e.handlers.onThreadError = some f ∧ e'.handlers.onThreadError = some f' ∧
      ∀ w, Sim w QEq f f'
  threadFinish : (e.handlers.onThreadFinish = none ∧ e'.handlers.onThreadFinish = none) ∨
    ∃ f f', e.handlers.onThreadFinish = some f ∧ e'.handlers.onThreadFinish = some f' ∧
      ∀ w, Sim w QEq f f'

/-- Two machines that differ in the memory only. -/
structure EnvSim (e : Env Val Store) (e' : Env (Option Ptr) Heap) : Prop where
  prog : e'.prog = e.prog
  fl : e'.fl = e.fl
  mem : e.mem = Mem.abs
  mem' : ∃ depth should, e'.mem = Mem.gc depth should
  strings : ∀ s ∈ e.prog.strings, cstr s = s
  host : HostSim e e'

namespace EnvSim
variable {e : Env Val Store} {e' : Env (Option Ptr) Heap} (E : EnvSim e e') {w : World}
include E

theorem nil : e'.mem.nil = none ∧ e.mem.nil = .none := by
  obtain ⟨d, sh, h⟩ := E.mem'
  rw [h, E.mem]; exact ⟨rfl, rfl⟩

theorem reserve (n : Nat) : Sim w QEq (reserve e n) (reserve e' n) := by
  unfold Ccml.reserve
  rw [E.nil.1, E.nil.2]
  exact Sim.modTh fun w1 _ _ _ h => ⟨h.1, h.2, h.3, h.4, h.5, h.6, h.7, h.8, h.9,
    (All2.replicate (rel_nil w1) n).append h.10⟩

theorem stackGet (i : Int) : Sim w QRel (stackGet e i) (stackGet e' i) := by
  refine ⟨fun w1 _ s s' hs => ?_⟩
  unfold Ccml.stackGet stackAt
  have hrev := Sim.rev2 hs.th.stack
  by_cases hi : 0 ≤ i
  · rw [if_pos hi, if_pos hi]
    cases hx : s'.th.stack.reverse[i.toNat]? with
    | some p =>
      obtain ⟨v, hv, hr⟩ := hrev.get _ _ hx
      rw [hv]
      exact ⟨v, s, w1, rfl, .refl _, hs, hr⟩
    | none =>
      have : s.th.stack.reverse[i.toNat]? = none := by
        rw [List.getElem?_eq_none_iff] at hx ⊢
        rw [hrev.length]; exact hx
      rw [this, E.nil.1, E.nil.2]
      refine ⟨.none, _, w1, rfl, .refl _, ⟨hs.m, hs.h, hs.globals, ?_, hs.before, hs.after, hs.io⟩,
        rel_nil w1⟩
      have := hs.th
      exact ⟨this.1, this.2, rfl, this.4, rfl, this.6, this.7, this.8, this.9, this.10⟩
  · rw [if_neg hi, if_neg hi, E.nil.1, E.nil.2]
    refine ⟨.none, _, w1, rfl, .refl _, ⟨hs.m, hs.h, hs.globals, ?_, hs.before, hs.after, hs.io⟩,
      rel_nil w1⟩
    have := hs.th
    exact ⟨this.1, this.2, rfl, this.4, rfl, this.6, this.7, this.8, this.9, this.10⟩

theorem readOpcode : Sim w QEq (readOpcode e) (readOpcode e') := by
  refine ⟨fun w1 _ s s' hs => ?_⟩
  unfold Ccml.readOpcode
  rw [E.prog, hs.th.pc]
  split
  · exact .inr rfl
  · split
    · exact .inr rfl
    · split
      · exact .inr rfl
      · refine ⟨_, _, w1, rfl, .refl _, ⟨hs.m, hs.h, hs.globals, ?_, hs.before, hs.after, hs.io⟩, rfl⟩
        have := hs.th
        exact ⟨this.1, this.2, this.3, this.4, this.5, this.6, rfl, this.8, this.9, this.10⟩

theorem readOperand : Sim w QEq (readOperand e) (readOperand e') := by
  refine ⟨fun w1 _ s s' hs => ?_⟩
  unfold Ccml.readOperand
  rw [E.prog, hs.th.pc]
  split
  · exact .inr rfl
  · split
    · exact .inr rfl
    · split
      · exact .inr rfl
      · refine ⟨_, _, w1, rfl, .refl _, ⟨hs.m, hs.h, hs.globals, ?_, hs.before, hs.after, hs.io⟩, rfl⟩
        have := hs.th
        exact ⟨this.1, this.2, this.3, this.4, this.5, this.6, rfl, this.8, this.9, this.10⟩

theorem view {v : Val} {p : Option Ptr} (hr : w.Rel v p) : Sim w QView (view e v) (view e' p) := by
  refine ⟨fun w1 h1 s s' hs => ?_⟩
  obtain ⟨d, sh, hm⟩ := E.mem'
  obtain ⟨h2, x, h3⟩ := rel_view (hr.mono h1)
  have ha : Ccml.view e v s = .ok (x, s) := view_ok (by rw [E.mem, hs.m]; exact h3)
  have hb : Ccml.view e' p s' = .ok (x, s') := view_ok (by
    rw [hm, hs.h]; show gcView w1.h p = _; rw [h2, h3])
  rw [ha, hb]
  exact ⟨x, s, w1, rfl, .refl _, hs, rfl, (rel_cstr (hr.mono h1) h3)⟩

theorem pushNew {f : Store → Out (Val × Store)} {g : Heap → Out (Option Ptr × Heap)}
    (h : ∀ w1, Le w w1 → AgreeNew w1 (f w1.m) (g w1.h)) : Sim w QEq (pushNew f) (pushNew g) := by
  refine ⟨fun w1 h1 s s' hs => ?_⟩
  unfold Ccml.pushNew
  have := h w1 h1
  rw [hs.m, hs.h]
  unfold AgreeNew at this
  split at this
  · rename_i x hx
    rw [hx]
    rcases this with h | h
    · exact .inl h
    · rw [h]; exact .inr rfl
  · rename_i p h' hx
    rw [hx]
    obtain ⟨v, m, w2, h2, h3, h4, h5, h6⟩ := this
    rw [h2]
    have ht := hs.th.mono h3
    exact ⟨(), _, w2, rfl, h3, ⟨h4.symm, h5.symm, hs.globals.mono fun _ _ r => r.mono h3,
      ⟨ht.1, ht.2, ht.3, ht.4, ht.5, ht.6, ht.7, ht.8, ht.9, .cons h6 ht.10⟩,
      hs.before.mono fun _ _ r => r.mono h3, hs.after.mono fun _ _ r => r.mono h3, hs.io⟩, rfl⟩

theorem newInt (w1 : World) (v : I32) : AgreeNew w1 (e.mem.newInt w1.m v) (e'.mem.newInt w1.h v) := by
  obtain ⟨d, sh, hm⟩ := E.mem'
  rw [E.mem, hm]
  exact gcNew_scalar w1 (.int v) (.int v) (by simp [Cell.extra]) fun w' q hq => ⟨q, rfl, hq⟩

theorem newFloat (w1 : World) (v : F32) :
    AgreeNew w1 (e.mem.newFloat w1.m v) (e'.mem.newFloat w1.h v) := by
  obtain ⟨d, sh, hm⟩ := E.mem'
  rw [E.mem, hm]
  exact gcNew_scalar w1 (.float v) (.float v) (by simp [Cell.extra]) fun w' q hq => ⟨q, rfl, hq⟩

theorem newFunc (w1 : World) (v : I32) :
    AgreeNew w1 (e.mem.newFunc w1.m v) (e'.mem.newFunc w1.h v) := by
  obtain ⟨d, sh, hm⟩ := E.mem'
  rw [E.mem, hm]
  exact gcNew_scalar w1 (.func v) (.func v) (by simp [Cell.extra]) fun w' q hq => ⟨q, rfl, hq⟩

theorem newSyscall (w1 : World) (v : I32) :
    AgreeNew w1 (e.mem.newSyscall w1.m v) (e'.mem.newSyscall w1.h v) := by
  obtain ⟨d, sh, hm⟩ := E.mem'
  rw [E.mem, hm]
  exact gcNew_scalar w1 (.syscall v) (.syscall v) (by simp [Cell.extra])
    fun w' q hq => ⟨q, rfl, hq⟩

theorem newStr (w1 : World) (s : Str) (hs : cstr s = s) :
    AgreeNew w1 (e.mem.newStr w1.m s) (e'.mem.newStr w1.h s) := by
  obtain ⟨d, sh, hm⟩ := E.mem'
  rw [E.mem, hm]
  show AgreeNew w1 (.ok (.str s, w1.m)) (if s.length < 9223372036854775808 then
    gcNew w1.h (.str s) else .error .oom)
  split
  · rename_i hl
    exact gcNew_scalar w1 (.str s) (.str s) (by simp only [Cell.extra]; omega)
      fun w' q hq => ⟨q, rfl, hq, hs, hl⟩
  · exact .inl (.inl rfl)

theorem newArr (w1 : World) (n : Nat) (hn : n < 2147483648) :
    AgreeNew w1 (e.mem.newArr w1.m n) (e'.mem.newArr w1.h n) := by
  obtain ⟨d, sh, hm⟩ := E.mem'
  rw [E.mem, hm]
  show AgreeNew w1 (.ok (.arr w1.m.length, w1.m ++ [List.replicate n .none]))
    (if n < 2147483648 then gcNew w1.h (.arr (List.replicate n none)) else .error .ub)
  rw [if_pos hn]
  exact new_arr w1 n hn

theorem pushInt (v : I32) : Sim w QEq (pushInt e v) (pushInt e' v) :=
  E.pushNew fun w1 _ => E.newInt w1 v
theorem pushFloat (v : F32) : Sim w QEq (pushFloat e v) (pushFloat e' v) :=
  E.pushNew fun w1 _ => E.newFloat w1 v
theorem pushFunc (v : I32) : Sim w QEq (pushFunc e v) (pushFunc e' v) :=
  E.pushNew fun w1 _ => E.newFunc w1 v
theorem pushSyscall (v : I32) : Sim w QEq (pushSyscall e v) (pushSyscall e' v) :=
  E.pushNew fun w1 _ => E.newSyscall w1 v
theorem pushStr (v : Str) (hv : cstr v = v) : Sim w QEq (pushStr e v) (pushStr e' v) :=
  E.pushNew fun w1 _ => E.newStr w1 v hv
theorem pushBool (v : Bool) : Sim w QEq (pushBool e v) (pushBool e' v) := E.pushInt _

theorem copy {v : Val} {p : Option Ptr} (hr : w.Rel v p) :
    AgreeNew w (copyVal e w.m v) (copyVal e' w.h p) := by
  obtain ⟨d, sh, hm⟩ := E.mem'
  obtain ⟨h2, x, h3⟩ := rel_view hr
  unfold copyVal
  have ha : e.mem.view w.m v = .ok x := by rw [E.mem]; exact h3
  have hb : e'.mem.view w.h p = .ok x := by rw [hm]; show gcView _ _ = _; rw [h2, h3]
  rw [ha, hb]
  cases x with
  | none =>
    rw [E.nil.1, E.nil.2]
    exact ⟨.none, w.m, w, rfl, .refl _, rfl, rfl, rel_nil w⟩
  | arr n => exact .inr rfl
  | int v => exact E.newInt w v
  | float v => exact E.newFloat w v
  | func v => exact E.newFunc w v
  | syscall v => exact E.newSyscall w v
  | str s =>
    exact E.newStr w s (rel_cstr hr h3 s rfl)

/-- Overwrite an array element in the current memory. -/
theorem setElem {v x : Val} {p y : Option Ptr} (hr : w.Rel v p) (hx : w.Rel x y) (i : Nat) :
    Sim w QEq
      (do let s ← MonadState.get; let m ← Ccml.lift (e.mem.arrSet s.mem v i x)
          modify fun s => { s with mem := m })
      (do let s ← MonadState.get; let m ← Ccml.lift (e'.mem.arrSet s.mem p i y)
          modify fun s => { s with mem := m }) := by
  refine ⟨fun w1 h1 s s' hs => ?_⟩
  obtain ⟨d, sh, hm⟩ := E.mem'
  rw [vm_bind_ok (show (MonadState.get : VM Val Store _) s = .ok (s, s) from rfl),
    vm_bind_ok (show (MonadState.get : VM (Option Ptr) Heap _) s' = .ok (s', s') from rfl)]
  rw [E.mem, hm, hs.m, hs.h]
  show Agree _ _ _ ((Ccml.lift (v.arrSet w1.m i x) >>= fun m => _) s)
    ((Ccml.lift (gcArrSet w1.h p i y) >>= fun m => _) s')
  rcases rel_arrSet (hr.mono h1) (hx.mono h1) i with ⟨f, h2, h3⟩ | ⟨w2, h2, h3, h4⟩
  · rw [h2, h3]; exact .inr rfl
  · rw [h2, h3]
    exact ⟨(), _, w2, rfl, h4, ⟨rfl, rfl, hs.globals.mono fun _ _ r => r.mono h4, hs.th.mono h4,
      hs.before.mono fun _ _ r => r.mono h4, hs.after.mono fun _ _ r => r.mono h4, hs.io⟩, rfl⟩

end EnvSim
end Ccml
