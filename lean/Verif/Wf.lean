import Verif.SimExec
import Verif.Host
/-!
On the mathematical store every value a program can get at is live (arrays are in the store) and
its strings hold no NUL byte.  Invariant of every instruction, built-in and host call.
-/
set_option linter.unusedSectionVars false
namespace Ccml

/-- Array references are below `n`, strings hold no NUL. -/
def WfV (n : Nat) : Val → Prop
  | .arr l => l < n
  | .str s => cstr s = s
  | _ => True

theorem WfV.mono {n k : Nat} {v : Val} (h : WfV n v) (hk : n ≤ k) : WfV k v := by
  cases v <;> try exact h
  exact Nat.lt_of_lt_of_le h hk

/-- All values of the list are fine. -/
def WfL (n : Nat) (l : List Val) : Prop := ∀ v ∈ l, WfV n v

theorem WfL.mono {n k : Nat} {l : List Val} (h : WfL n l) (hk : n ≤ k) : WfL k l :=
  fun v hv => (h v hv).mono hk

theorem WfL.nil {n : Nat} : WfL n [] := fun _ h => by cases h
theorem WfL.cons {n : Nat} {v : Val} {l : List Val} (hv : WfV n v) (h : WfL n l) :
    WfL n (v :: l) := fun x hx => by
  rcases List.mem_cons.1 hx with rfl | hx
  · exact hv
  · exact h x hx
theorem WfL.head {n : Nat} {v : Val} {l : List Val} (h : WfL n (v :: l)) : WfV n v :=
  h v (List.mem_cons_self ..)
theorem WfL.tail {n : Nat} {v : Val} {l : List Val} (h : WfL n (v :: l)) : WfL n l :=
  fun x hx => h x (List.mem_cons_of_mem _ hx)
theorem WfL.set {n : Nat} {l : List Val} (h : WfL n l) (i : Nat) {v : Val} (hv : WfV n v) :
    WfL n (l.set i v) := fun x hx => by
  rcases List.mem_or_eq_of_mem_set hx with hx | rfl
  · exact h x hx
  · exact hv
theorem WfL.append {n : Nat} {a b : List Val} (ha : WfL n a) (hb : WfL n b) : WfL n (a ++ b) :=
  fun x hx => (List.mem_append.1 hx).elim (ha x) (hb x)
theorem WfL.replicate {n : Nat} (k : Nat) : WfL n (List.replicate k .none) := fun x hx => by
  rw [List.eq_of_mem_replicate hx]; trivial

/-- The store is closed. -/
def WfM (m : Store) : Prop := ∀ xs ∈ m, WfL m.length xs
/-- The values of the threads are fine. -/
def WfT (n : Nat) (ts : List (Thread Val)) : Prop := ∀ t ∈ ts, WfL n t.stack

/-- Everything in the state is fine. -/
structure Wf (s : St Val Store) : Prop where
  mem : WfM s.mem
  globals : WfL s.mem.length s.globals
  th : WfL s.mem.length s.th.stack
  before : WfT s.mem.length s.before
  after : WfT s.mem.length s.after

variable {α β : Type}

/-- `x` keeps the state fine from stores of length `n` on; results satisfy `Q`. -/
structure Keep (n : Nat) (Q : Nat → α → Prop) (x : VM Val Store α) : Prop where
  run : ∀ s, Wf s → n ≤ s.mem.length → ∀ a s', x s = .ok (a, s') →
    Wf s' ∧ s.mem.length ≤ s'.mem.length ∧ Q s'.mem.length a

/-- No claim about the result. -/
def QAny (_ : Nat) (_ : α) : Prop := True

namespace Keep
variable {n : Nat}

theorem bind {Q : Nat → α → Prop} {Q' : Nat → β → Prop} {x : VM Val Store α}
    {f : α → VM Val Store β} (hx : Keep n Q x)
    (hf : ∀ k, n ≤ k → ∀ a, Q k a → Keep k Q' (f a)) : Keep n Q' (x >>= f) := by
  refine ⟨fun s hs hn b s' h => ?_⟩
  rw [vm_bind] at h
  cases hq : x s with
  | error e => rw [hq] at h; cases h
  | ok r =>
    obtain ⟨a, s1⟩ := r
    rw [hq] at h
    obtain ⟨h1, h2, h3⟩ := hx.run s hs hn a s1 hq
    obtain ⟨h4, h5, h6⟩ := (hf _ (Nat.le_trans hn h2) a h3).run s1 h1 (Nat.le_refl _) b s' h
    exact ⟨h4, Nat.le_trans h2 h5, h6⟩

theorem pure {Q : Nat → α → Prop} {a : α} (h : ∀ k, n ≤ k → Q k a) :
    Keep n Q (Pure.pure a : VM Val Store α) :=
  ⟨fun s hs hn b s' hx => by cases hx; exact ⟨hs, Nat.le_refl _, h _ hn⟩⟩
theorem pureAny (a : α) : Keep n QAny (Pure.pure a : VM Val Store α) := pure fun _ _ => trivial
theorem fault {Q : Nat → α → Prop} (f : Fault) : Keep n Q (fault f : VM Val Store α) :=
  ⟨fun s hs hn b s' hx => by cases hx⟩

theorem lift (o : Out α) : Keep n (fun _ a => o = .ok a) (lift o : VM Val Store α) := by
  refine ⟨fun s hs hn b s' hx => ?_⟩
  unfold Ccml.lift at hx
  cases o with
  | error f => cases hx
  | ok a => cases hx; exact ⟨hs, Nat.le_refl _, rfl⟩

theorem modTh {f : Thread Val → Thread Val}
    (hf : ∀ k, n ≤ k → ∀ t, WfL k t.stack → WfL k (f t).stack) : Keep n QAny (modTh f) :=
  ⟨fun s hs hn b s' hx => by
    cases hx
    exact ⟨⟨hs.mem, hs.globals, hf _ hn _ hs.th, hs.before, hs.after⟩, Nat.le_refl _, trivial⟩⟩

theorem getTh : Keep n (fun k t => WfL k t.stack) (getTh : VM Val Store _) :=
  ⟨fun s hs hn b s' hx => by cases hx; exact ⟨hs, Nat.le_refl _, hs.th⟩⟩
theorem raise (x : TErr) : Keep n QAny (raise x) := modTh fun _ _ _ h => h
theorem jump (x : Int) : Keep n QAny (jump x) := modTh fun _ _ _ h => h
theorem enter (a : Nat) (b c : Int) : Keep n QAny (enter a b c) := modTh fun _ _ _ h => h
theorem push {v : Val} (hv : WfV n v) : Keep n QAny (push v) :=
  modTh fun _ hk _ h => .cons (hv.mono hk) h

theorem pop : Keep n WfV (pop : VM Val Store Val) := by
  refine ⟨fun s hs hn b s' hx => ?_⟩
  unfold Ccml.pop at hx
  have := hs.th
  split at hx
  · cases hx
  · rename_i v r hq
    cases hx
    rw [hq] at this
    exact ⟨⟨hs.mem, hs.globals, this.tail, hs.before, hs.after⟩, Nat.le_refl _, this.head⟩

theorem popN (k : Nat) : Keep n QAny (popN k : VM Val Store Unit) := by
  induction k generalizing n with
  | zero => exact pureAny _
  | succ k ih => exact bind pop fun _ _ _ _ => ih

theorem discard (k : Nat) : Keep n QAny (discard k : VM Val Store Unit) := by
  refine ⟨fun s hs hn b s' hx => ?_⟩
  unfold Ccml.discard at hx
  split at hx <;> cases hx
  exact ⟨⟨hs.mem, hs.globals, fun v hv => hs.th v (List.mem_of_mem_drop hv), hs.before, hs.after⟩,
    Nat.le_refl _, trivial⟩

theorem curFrame : Keep n QAny (curFrame : VM Val Store Frame) := by
  refine ⟨fun s hs hn b s' hx => ?_⟩
  unfold Ccml.curFrame at hx
  split at hx <;> cases hx
  exact ⟨hs, Nat.le_refl _, trivial⟩

theorem leave : Keep n QAny (leave : VM Val Store Int) := by
  refine ⟨fun s hs hn b s' hx => ?_⟩
  unfold Ccml.leave at hx
  split at hx
  · cases hx; exact ⟨⟨hs.mem, hs.globals, hs.th, hs.before, hs.after⟩, Nat.le_refl _, trivial⟩
  · dsimp only at hx
    split at hx <;> cases hx
    exact ⟨⟨hs.mem, hs.globals, hs.th, hs.before, hs.after⟩, Nat.le_refl _, trivial⟩

theorem stackSet (i : Int) {v : Val} (hv : WfV n v) : Keep n QAny (stackSet i v) := by
  refine ⟨fun s hs hn b s' hx => ?_⟩
  unfold Ccml.stackSet at hx
  split at hx
  · cases hx
    refine ⟨⟨hs.mem, hs.globals, ?_, hs.before, hs.after⟩, Nat.le_refl _, trivial⟩
    intro x hx
    unfold stackPut at hx
    rw [List.mem_reverse] at hx
    rcases List.mem_or_eq_of_mem_set hx with hx | rfl
    · exact hs.th x (List.mem_reverse.1 hx)
    · exact hv.mono hn
  · exact (raise _).run s hs hn b s' hx

theorem ite {Q : Nat → α → Prop} {c : Prop} [Decidable c] {x y : VM Val Store α}
    (h1 : c → Keep n Q x) (h2 : ¬ c → Keep n Q y) : Keep n Q (if c then x else y) := by
  split
  · exact h1 ‹_›
  · exact h2 ‹_›

theorem get : Keep n (fun k s => Wf s ∧ s.mem.length = k) (MonadState.get : VM Val Store _) :=
  ⟨fun s hs hn b s' hx => by cases hx; exact ⟨hs, Nat.le_refl _, hs, rfl⟩⟩

end Keep

/-- Host functions and handlers keep the state fine. -/
structure HostKeep (e : Env Val Store) : Prop where
  native : ∀ n f k, Keep n QAny (e.native f k)
  memberGet : ∀ h, e.handlers.onMemberGet = some h → ∀ n a s, WfV n a → Keep n QAny (h a s)
  memberSet : ∀ h, e.handlers.onMemberSet = some h → ∀ n a b s, WfV n a → WfV n b →
    Keep n QAny (h a b s)
  arraySet : ∀ h, e.handlers.onArraySet = some h → ∀ n a b c, WfV n a → WfV n b → WfV n c →
    Keep n QAny (h a b c)
  bin : ∀ h, (e.handlers.onArrayGet = some h ∨ e.handlers.onEquals = some h ∨
      e.handlers.onAdd = some h ∨ e.handlers.onSub = some h ∨ e.handlers.onMul = some h ∨
      e.handlers.onDiv = some h) → ∀ n a b, WfV n a → WfV n b → Keep n QAny (h a b)
  threadError : ∀ h, e.handlers.onThreadError = some h → ∀ n, Keep n QAny h
  threadFinish : ∀ h, e.handlers.onThreadFinish = some h → ∀ n, Keep n QAny h

/-- The machine works on the store and its program has no strings with NUL. -/
structure EnvKeep (e : Env Val Store) : Prop where
  mem : e.mem = Mem.abs
  strings : ∀ s ∈ e.prog.strings, cstr s = s
  host : HostKeep e

namespace EnvKeep
variable {e : Env Val Store} (E : EnvKeep e) {n : Nat}
include E

theorem reserve (k : Nat) : Keep n QAny (reserve e k) := by
  unfold Ccml.reserve
  rw [E.mem]
  exact Keep.modTh fun _ _ _ h => (WfL.replicate k).append h

theorem stackGet (i : Int) : Keep n WfV (stackGet e i) := by
  refine ⟨fun s hs hn b s' hx => ?_⟩
  unfold Ccml.stackGet stackAt at hx
  split at hx
  · rename_i v hv
    cases hx
    split at hv
    · exact ⟨hs, Nat.le_refl _, hs.th _ (List.mem_reverse.1 (List.mem_of_getElem? hv))⟩
    · cases hv
  · rw [E.mem] at hx
    cases hx
    exact ⟨⟨hs.mem, hs.globals, hs.th, hs.before, hs.after⟩, Nat.le_refl _, trivial⟩

theorem readOpcode : Keep n QAny (readOpcode e) := by
  refine ⟨fun s hs hn b s' hx => ?_⟩
  unfold Ccml.readOpcode at hx
  split at hx
  · cases hx
  · split at hx
    · cases hx
    · split at hx <;> cases hx
      exact ⟨⟨hs.mem, hs.globals, hs.th, hs.before, hs.after⟩, Nat.le_refl _, trivial⟩

theorem readOperand : Keep n QAny (readOperand e) := by
  refine ⟨fun s hs hn b s' hx => ?_⟩
  unfold Ccml.readOperand at hx
  split at hx
  · cases hx
  · split at hx
    · cases hx
    · split at hx <;> cases hx
      exact ⟨⟨hs.mem, hs.globals, hs.th, hs.before, hs.after⟩, Nat.le_refl _, trivial⟩

theorem viewOk {m : Store} {k : Nat} {v : Val} (hv : WfV k v) {x : View} (h : v.view m = .ok x) :
    x.Ok := by
  intro t ht
  subst ht
  cases v <;> simp [Val.view] at h
  · subst h; exact hv
  · split at h <;> cases h

theorem view {v : Val} (hv : WfV n v) : Keep n (fun _ => View.Ok) (view e v) := by
  refine ⟨fun s hs hn b s' hx => ?_⟩
  unfold Ccml.view Ccml.lift at hx
  rw [E.mem] at hx
  split at hx
  · rename_i x hq
    cases hx
    exact ⟨hs, Nat.le_refl _, E.viewOk hv hq⟩
  · cases hx

theorem pushVal {v : Val} (hv : WfV n v) {f : Store → Out (Val × Store)}
    (hf : ∀ m, f m = .ok (v, m)) : Keep n QAny (pushNew f) := by
  refine ⟨fun s hs hn b s' hx => ?_⟩
  unfold pushNew at hx
  rw [hf] at hx
  cases hx
  exact ⟨⟨hs.mem, hs.globals, .cons (hv.mono hn) hs.th, hs.before, hs.after⟩, Nat.le_refl _, trivial⟩

theorem pushInt (v : I32) : Keep n QAny (pushInt e v) :=
  E.pushVal (v := .int v) trivial fun _ => by rw [E.mem]; rfl
theorem pushFloat (v : F32) : Keep n QAny (pushFloat e v) :=
  E.pushVal (v := .float v) trivial fun _ => by rw [E.mem]; rfl
theorem pushFunc (v : I32) : Keep n QAny (pushFunc e v) :=
  E.pushVal (v := .func v) trivial fun _ => by rw [E.mem]; rfl
theorem pushSyscall (v : I32) : Keep n QAny (pushSyscall e v) :=
  E.pushVal (v := .syscall v) trivial fun _ => by rw [E.mem]; rfl
theorem pushStr (v : Str) (hv : cstr v = v) : Keep n QAny (pushStr e v) :=
  E.pushVal (v := .str v) hv fun _ => by rw [E.mem]; rfl
theorem pushBool (v : Bool) : Keep n QAny (pushBool e v) := E.pushInt _

theorem wfM_new {m : Store} (hm : WfM m) (k : Nat) : WfM (m ++ [List.replicate k .none]) := by
  intro xs hxs
  rcases List.mem_append.1 hxs with h | h
  · exact (hm xs h).mono (by simp)
  · simp only [List.mem_singleton] at h
    subst h
    exact .replicate k

theorem pushArr (k : Nat) : Keep n QAny (pushNew (e.mem.newArr · k)) := by
  refine ⟨fun s hs hn b s' hx => ?_⟩
  unfold pushNew at hx
  rw [E.mem] at hx
  cases hx
  have hle : s.mem.length ≤ (s.mem ++ [List.replicate k Val.none]).length := by simp
  exact ⟨⟨E.wfM_new hs.mem k, hs.globals.mono hle,
    .cons (show s.mem.length < _ by simp) (hs.th.mono hle),
    fun t ht => (hs.before t ht).mono hle, fun t ht => (hs.after t ht).mono hle⟩, hle, trivial⟩

theorem hook {o : Option (Val → Val → VM Val Store Bool)}
    (ho : ∀ h, o = some h → ∀ n a b, WfV n a → WfV n b → Keep n QAny (h a b)) {a b : Val}
    (ha : WfV n a) (hb : WfV n b) : Keep n QAny (tryHandler o a b) := by
  unfold tryHandler
  cases o with
  | none => exact Keep.raise _
  | some h =>
    exact Keep.bind (ho h rfl n a b ha hb) fun _ _ _ _ =>
      Keep.ite (fun _ => Keep.pureAny _) fun _ => Keep.raise _

theorem operands {f : Val → Val → View → View → VM Val Store Unit}
    (h : ∀ k, n ≤ k → ∀ l r (lv rv : View), WfV k l → WfV k r → lv.Ok → rv.Ok →
      Keep k QAny (f l r lv rv)) :
    Keep n QAny (do let r ← pop; let l ← pop; let rv ← Ccml.view e r; let lv ← Ccml.view e l
                    f l r lv rv) := by
  refine Keep.bind Keep.pop fun k1 h1 r hr => Keep.bind Keep.pop fun k2 h2 l hl => ?_
  refine Keep.bind (E.view (hr.mono h2)) fun k3 h3 rv hrv => ?_
  refine Keep.bind (E.view (hl.mono h3)) fun k4 h4 lv hlv => ?_
  exact h k4 (by omega) l r lv rv (hl.mono (by omega)) (hr.mono (by omega)) hlv hrv

theorem unary {f : Val → View → VM Val Store Unit}
    (h : ∀ k, n ≤ k → ∀ l (lv : View), WfV k l → lv.Ok → Keep k QAny (f l lv)) :
    Keep n QAny (do let l ← pop; let lv ← Ccml.view e l; f l lv) := by
  refine Keep.bind Keep.pop fun k1 h1 r hr => Keep.bind (E.view hr) fun k2 h2 lv hl => ?_
  exact h k2 (by omega) r lv (hr.mono h2) hl

theorem liftThen {γ : Type} {o : Out γ} {f : γ → VM Val Store β} {Q : Nat → β → Prop}
    (h : ∀ k, n ≤ k → ∀ a, o = .ok a → Keep k Q (f a)) : Keep n Q (Ccml.lift o >>= f) :=
  Keep.bind (Keep.lift o) h

theorem syscall (a b : I32) : Keep n QAny (doSyscall e a b) := by
  unfold doSyscall
  refine Keep.ite (fun _ => Keep.fault _) fun _ => ?_
  split
  · exact Keep.fault _
  · split
    · exact Keep.fault _
    · exact E.host.native _ _ _

theorem enterHere (c : Int) :
    Keep n QAny (do let t ← getTh; enter t.stack.length t.pc c : VM Val Store Unit) :=
  Keep.bind Keep.getTh fun _ _ _ _ => Keep.enter _ _ _

theorem arrGetOk {m : Store} (hm : WfM m) {v : Val} {i : Nat} {x : Val}
    (h : v.arrGet m i = .ok x) : WfV m.length x := by
  cases v <;> simp only [Val.arrGet] at h <;> try cases h
  split at h
  · rename_i a ha
    split at h
    · rename_i y hy
      cases h
      exact hm a (List.mem_of_getElem? ha) _ (List.mem_of_getElem? hy)
    · cases h
  · cases h

theorem arrSetOk {m : Store} (hm : WfM m) {v : Val} {i : Nat} {x : Val} (hx : WfV m.length x)
    {m' : Store} (h : v.arrSet m i x = .ok m') : WfM m' ∧ m'.length = m.length := by
  cases v <;> simp only [Val.arrSet] at h <;> try cases h
  split at h
  · rename_i a ha
    split at h
    · cases h
      refine ⟨?_, by simp⟩
      intro xs hxs
      rw [List.length_set]
      rcases List.mem_or_eq_of_mem_set hxs with hxs | rfl
      · exact hm xs hxs
      · exact (hm a (List.mem_of_getElem? ha)).set i hx
    · cases h
  · cases h

theorem setMem {s : St Val Store} (hs : Wf s) {m' : Store} (hm : WfM m')
    (hl : m'.length = s.mem.length) : Wf { s with mem := m' } := by
  refine ⟨hm, ?_, ?_, ?_, ?_⟩ <;> dsimp only <;> rw [hl]
  · exact hs.globals
  · exact hs.th
  · exact hs.before
  · exact hs.after

theorem copyOk {m : Store} {v : Val} {k : Nat} (hv : WfV k v) {x : Val × Store}
    (h : copyVal e m v = .ok x) : x.2 = m ∧ ∀ j, WfV j x.1 := by
  unfold copyVal at h
  rw [E.mem] at h
  have hvo : ∀ y, v.view m = .ok y → y.Ok := fun y hy => E.viewOk hv hy
  split at h
  · cases h
  all_goals first
    | (cases h; exact ⟨rfl, fun _ => trivial⟩)
    | skip
  · rename_i s hq
    cases h
    exact ⟨rfl, fun _ => hvo _ hq s rfl⟩
  · cases h

theorem setElem {v x : Val} (hx : WfV n x) (i : Nat) {k : VM Val Store Unit}
    (hk : ∀ j, n ≤ j → Keep j QAny k) :
    Keep n QAny
      (do let s ← MonadState.get; let m ← Ccml.lift (e.mem.arrSet s.mem v i x)
          modify fun s => { s with mem := m }
          k) := by
  refine ⟨fun s hs hn b s' h => ?_⟩
  rw [vm_bind_ok (show (MonadState.get : VM Val Store _) s = .ok (s, s) from rfl), E.mem] at h
  cases hq : v.arrSet s.mem i x with
  | error f =>
    rw [show Mem.abs.arrSet s.mem v i x = v.arrSet s.mem i x from rfl, hq] at h; cases h
  | ok m =>
    rw [show Mem.abs.arrSet s.mem v i x = v.arrSet s.mem i x from rfl, hq] at h
    obtain ⟨h1, h2⟩ := E.arrSetOk hs.mem (hx.mono hn) hq
    have := (hk _ hn).run { s with mem := m } (E.setMem hs h1 h2) (Nat.le_of_eq h2.symm) b s' h
    refine ⟨this.1, ?_, this.2.2⟩
    have h3 : m.length ≤ s'.mem.length := this.2.1
    omega

theorem fill (a : Val) (k : Nat) : Keep n QAny (fillArray e a k) := by
  induction k generalizing n with
  | zero => exact Keep.pureAny _
  | succ k ih =>
    unfold fillArray
    exact Keep.bind Keep.pop fun j hj v hv => E.setElem hv k fun i hi => ih

theorem aryInit : Keep n QAny (doARY_INIT e) := by
  refine Keep.bind E.readOperand fun k hk x _ => Keep.ite (fun _ => Keep.fault _) fun _ => ?_
  refine ⟨fun s hs hn b s' h => ?_⟩
  rw [vm_bind_ok (show (MonadState.get : VM Val Store _) s = .ok (s, s) from rfl), E.mem] at h
  have hle : s.mem.length ≤ (s.mem ++ [List.replicate x.toNat Val.none]).length := by simp
  have hk2 : Keep (s.mem ++ [List.replicate x.toNat Val.none]).length QAny
      (do fillArray e (.arr s.mem.length) x.toNat; push (.arr s.mem.length)) :=
    Keep.bind (E.fill _ _) fun j hj _ _ => Keep.push (show s.mem.length < j by simp at hj; omega)
  have := hk2.run { s with mem := s.mem ++ [List.replicate x.toNat Val.none] }
    ⟨E.wfM_new hs.mem _, hs.globals.mono hle, hs.th.mono hle,
      fun t ht => (hs.before t ht).mono hle, fun t ht => (hs.after t ht).mono hle⟩
    (Nat.le_refl _) b s' h
  exact ⟨this.1, Nat.le_trans hle this.2.1, this.2.2⟩

theorem derefC {a i : Val} (ha : WfV n a) (hi : WfV n i) : Keep n QAny (derefCore e a i) := by
  unfold derefCore
  refine Keep.bind (E.view ha) fun k1 h1 av _ => ?_
  cases av <;> dsimp only <;> first
    | exact Keep.raise _
    | refine Keep.bind (E.view (hi.mono h1)) fun k2 h2 iv _ => ?_
  all_goals cases iv <;> try exact Keep.raise _
  · rename_i s x
    refine Keep.ite (fun _ => Keep.raise _) fun _ => ?_
    split
    · exact Keep.raise _
    · exact E.pushInt _
  · rename_i len x
    refine Keep.ite (fun _ => Keep.raise _) fun _ => Keep.bind Keep.get fun k3 h3 s hs => ?_
    rw [E.mem]
    exact E.liftThen fun k4 h4 y hy => Keep.push ((E.arrGetOk hs.1.mem hy).mono (by omega))

theorem setaC {a i v : Val} (ha : WfV n a) (hi : WfV n i) (hv : WfV n v) :
    Keep n QAny (setaCore e a i v) := by
  unfold setaCore
  refine Keep.bind (E.view ha) fun k1 h1 av _ => ?_
  cases av <;> dsimp only <;> first
    | exact Keep.raise _
    | refine Keep.bind (E.view (hi.mono h1)) fun k2 h2 iv _ => ?_
  cases iv <;> dsimp only <;> first
    | exact Keep.raise _
    | refine Keep.ite (fun _ => Keep.raise _) fun _ => ?_
  rename_i len _ x _ _
  refine ⟨fun s hs hn b s' h => ?_⟩
  rw [vm_bind_ok (show (MonadState.get : VM Val Store _) s = .ok (s, s) from rfl)] at h
  cases hy : Val.view s.mem v with
  | error f =>
    rw [vm_bind, show Ccml.view e v s = .error f by
      unfold Ccml.view Ccml.lift
      rw [E.mem, show Mem.abs.view s.mem v = Val.view s.mem v from rfl, hy]] at h
    cases h
  | ok y =>
    rw [vm_bind_ok (view_ok (by rw [E.mem]; exact hy))] at h
    have hset : ∀ u, WfV s.mem.length u →
        (Ccml.lift (e.mem.arrSet s.mem a x.toNat u) >>= fun m =>
          modify fun s => { s with mem := m }) s = .ok (b, s') →
        Wf s' ∧ s.mem.length ≤ s'.mem.length ∧ QAny s'.mem.length b := by
      intro u hu hx
      rw [E.mem] at hx
      cases hq : a.arrSet s.mem x.toNat u with
      | error f =>
        rw [show Mem.abs.arrSet s.mem a x.toNat u = a.arrSet s.mem x.toNat u from rfl, hq] at hx
        cases hx
      | ok m =>
        rw [show Mem.abs.arrSet s.mem a x.toNat u = a.arrSet s.mem x.toNat u from rfl, hq] at hx
        obtain ⟨h1, h2⟩ := E.arrSetOk hs.mem hu hq
        cases hx
        exact ⟨E.setMem hs h1 h2, Nat.le_of_eq h2.symm, trivial⟩
    have hcopy : (Ccml.lift (copyVal e s.mem v) >>= fun x1 =>
          Ccml.lift (e.mem.arrSet x1.2 a x.toNat x1.1) >>= fun m =>
          modify fun s => { s with mem := m }) s = .ok (b, s') →
        Wf s' ∧ s.mem.length ≤ s'.mem.length ∧ QAny s'.mem.length b := by
      intro hx
      cases hq : copyVal e s.mem v with
      | error f => rw [hq] at hx; cases hx
      | ok p =>
        rw [hq, vm_bind_ok (show Ccml.lift (Except.ok p) s = .ok (p, s) from rfl)] at hx
        obtain ⟨h1, h2⟩ := E.copyOk hv hq
        rw [h1] at hx
        exact hset p.1 (h2 _) hx
    cases y with
    | arr k => exact hset v (hv.mono (by omega)) h
    | _ => exact hcopy h

theorem member (x : I32) : Keep n QAny (memberName e x) := by
  unfold memberName
  refine Keep.ite (fun _ => Keep.fault _) fun _ => ?_
  split
  · exact Keep.fault _
  · exact Keep.pureAny _

theorem getmH {a : Val} (ha : WfV n a) (s : Str) : Keep n QAny (getmHandler e a s) := by
  unfold getmHandler
  cases hq : e.handlers.onMemberGet with
  | none => exact Keep.raise _
  | some h =>
    exact Keep.bind (E.host.memberGet h hq n a s ha) fun _ _ _ _ =>
      Keep.ite (fun _ => Keep.pureAny _) fun _ => Keep.raise _

theorem compare (ic : Int → Int → Bool) (fc : F32 → F32 → Bool) :
    Keep n QAny (doCompare e ic fc) := by
  refine E.operands fun k hk l r lv rv hl hr hlv hrv => ?_
  cases lv <;> cases rv <;> simp only [View.num?] <;> first
    | exact Keep.raise _
    | exact E.pushBool _

theorem execKeep (op : Option Op) : Keep n QAny (exec e op) := by
  cases op with
  | none => exact Keep.raise _
  | some op =>
    cases op <;> simp only [exec, doLT, doGT, doLEQ, doGEQ]
    case ADD =>
      refine E.operands fun k hk l r lv rv hl hr hlv hrv => ?_
      cases lv <;> cases rv <;> simp only [View.num?] <;> first
        | exact E.hook (fun h hh => E.host.bin h (by simp [hh])) hl hr
        | exact E.pushFloat _
        | exact E.liftThen fun _ _ _ _ => E.pushInt _
        | exact E.liftThen fun _ _ _ hb => E.pushStr _ (noNul_append (hlv _ rfl) (toBuf_noNul hb))
        | exact E.liftThen fun _ _ _ hb => E.pushStr _ (noNul_append (toBuf_noNul hb) (hrv _ rfl))
    case SUB =>
      refine E.operands fun k hk l r lv rv hl hr hlv hrv => ?_
      cases lv <;> cases rv <;> simp only [View.num?] <;> first
        | exact E.hook (fun h hh => E.host.bin h (by simp [hh])) hl hr
        | exact E.pushFloat _
        | exact E.liftThen fun _ _ _ _ => E.pushInt _
    case MUL =>
      refine E.operands fun k hk l r lv rv hl hr hlv hrv => ?_
      cases lv <;> cases rv <;> simp only [View.num?] <;> first
        | exact E.hook (fun h hh => E.host.bin h (by simp [hh])) hl hr
        | exact E.pushFloat _
        | exact E.liftThen fun _ _ _ _ => E.pushInt _
    case DIV =>
      refine E.operands fun k hk l r lv rv hl hr hlv hrv => ?_
      cases lv <;> cases rv <;> simp only [View.num?] <;> first
        | exact E.hook (fun h hh => E.host.bin h (by simp [hh])) hl hr
        | exact E.pushFloat _
        | exact Keep.ite (fun _ => Keep.raise _) fun _ => E.liftThen fun _ _ _ _ => E.pushInt _
    case MOD =>
      refine E.operands fun k hk l r lv rv hl hr hlv hrv => ?_
      cases lv <;> cases rv <;> first
        | exact Keep.raise _
        | exact Keep.ite (fun _ => Keep.raise _) fun _ => E.liftThen fun _ _ _ _ => E.pushInt _
    case AND => exact E.operands fun _ _ _ _ _ _ _ _ _ _ => E.pushBool _
    case OR => exact E.operands fun _ _ _ _ _ _ _ _ _ _ => E.pushBool _
    case NOT => exact E.unary fun _ _ _ _ _ _ => E.pushBool _
    case NEG =>
      refine E.unary fun k hk l lv hl hlv => ?_
      cases lv <;> first
        | exact Keep.raise _
        | exact E.liftThen fun _ _ _ _ => E.pushInt _
    case LT => exact E.compare _ _
    case GT => exact E.compare _ _
    case LEQ => exact E.compare _ _
    case GEQ => exact E.compare _ _
    case EQ =>
      refine E.operands fun k hk l r lv rv hl hr hlv hrv => ?_
      cases lv <;> cases rv <;> simp only [View.num?] <;> first
        | exact E.hook (fun h hh => E.host.bin h (by simp [hh])) hl hr
        | exact E.pushBool _
    case JMP => exact Keep.bind E.readOperand fun _ _ _ _ => Keep.jump _
    case TJMP =>
      exact Keep.bind E.readOperand fun _ _ _ _ => E.unary fun _ _ _ _ _ _ =>
        Keep.ite (fun _ => Keep.jump _) fun _ => Keep.pureAny _
    case FJMP =>
      exact Keep.bind E.readOperand fun _ _ _ _ => E.unary fun _ _ _ _ _ _ =>
        Keep.ite (fun _ => Keep.pureAny _) fun _ => Keep.jump _
    case CALL =>
      exact Keep.bind E.readOperand fun _ _ _ _ => Keep.bind E.readOperand fun _ _ _ _ =>
        E.enterHere _
    case RET =>
      refine Keep.bind E.readOperand fun _ _ _ _ => Keep.bind Keep.pop fun k hk v hv => ?_
      refine Keep.bind Keep.getTh fun j hj _ _ => Keep.ite (fun _ => Keep.raise _) fun _ => ?_
      refine Keep.bind (Keep.discard _) fun i hi _ _ => ?_
      refine Keep.bind (Keep.push (hv.mono (by omega))) fun _ _ _ _ => ?_
      exact Keep.bind Keep.leave fun _ _ _ _ => Keep.jump _
    case SCALL =>
      exact Keep.bind E.readOperand fun _ _ _ _ => Keep.bind E.readOperand fun _ _ _ _ =>
        E.syscall _ _
    case ICALL =>
      refine Keep.bind E.readOperand fun _ _ x _ => E.unary fun k hk v vv _ _ => ?_
      cases vv <;> first
        | exact Keep.raise _
        | exact Keep.fault _
        | exact E.syscall _ _
        | skip
      dsimp only
      split
      · exact Keep.fault _
      · split
        · exact Keep.bind (Keep.raise _) fun _ _ _ _ => E.enterHere _
        · exact E.enterHere _
    case POP => exact Keep.bind E.readOperand fun _ _ _ _ => Keep.popN _
    case NEW_ARY =>
      exact Keep.bind E.readOperand fun _ _ _ _ => Keep.ite (fun _ => Keep.fault _) fun _ =>
        E.pushArr _
    case NEW_INT => exact Keep.bind E.readOperand fun _ _ _ _ => E.pushInt _
    case NEW_STR =>
      refine Keep.bind E.readOperand fun _ _ x _ => ?_
      refine Keep.ite (fun _ => Keep.fault _) fun _ => Keep.ite (fun _ => Keep.fault _) fun _ => ?_
      split
      · rename_i s hs
        exact E.pushStr _ (E.strings s (List.mem_of_getElem? hs))
      · exact Keep.fault _
    case NEW_NONE => unfold doNEW_NONE; rw [E.mem]; exact Keep.push (v := .none) trivial
    case NEW_FLT => exact Keep.bind E.readOperand fun _ _ _ _ => E.pushFloat _
    case NEW_FUNC =>
      exact Keep.bind E.readOperand fun _ _ _ _ => Keep.ite (fun _ => Keep.fault _) fun _ =>
        E.pushFunc _
    case NEW_SCALL =>
      exact Keep.bind E.readOperand fun _ _ _ _ => Keep.ite (fun _ => Keep.fault _) fun _ =>
        E.pushSyscall _
    case LOCALS => exact Keep.bind E.readOperand fun _ _ _ _ => E.reserve _
    case GLOBALS =>
      refine Keep.bind E.readOperand fun _ _ x _ => ?_
      refine Keep.ite (fun _ => Keep.pureAny _) fun _ => Keep.ite (fun _ => Keep.fault _) fun _ => ?_
      refine ⟨fun s hs hn b s' h => ?_⟩
      cases h
      rw [E.mem]
      exact ⟨⟨hs.mem, WfL.replicate _, hs.th, hs.before, hs.after⟩, Nat.le_refl _, trivial⟩
    case GETV =>
      exact Keep.bind E.readOperand fun _ _ _ _ => Keep.bind Keep.curFrame fun _ _ _ _ =>
        Keep.bind (E.stackGet _) fun _ _ _ h => Keep.push h
    case SETV =>
      exact Keep.bind E.readOperand fun _ _ _ _ => Keep.bind Keep.pop fun _ _ _ h =>
        Keep.bind Keep.curFrame fun _ h1 _ _ => Keep.stackSet _ (h.mono h1)
    case GETG =>
      refine Keep.bind E.readOperand fun _ _ x _ => Keep.bind Keep.get fun k hk s hs => ?_
      refine Keep.ite (fun _ => Keep.raise _) fun _ => ?_
      split
      · exact Keep.raise _
      · rename_i v hv
        exact Keep.push ((hs.1.globals v (List.mem_of_getElem? hv)).mono (by omega))
    case SETG =>
      refine Keep.bind E.readOperand fun _ _ x _ => Keep.bind Keep.get fun k hk s hs => ?_
      refine Keep.ite (fun _ => Keep.raise _) fun _ => Keep.bind Keep.pop fun j hj v hv => ?_
      refine ⟨fun s hs hn b s' h => ?_⟩
      cases h
      exact ⟨⟨hs.mem, hs.globals.set _ (hv.mono hn), hs.th, hs.before, hs.after⟩, Nat.le_refl _,
        trivial⟩
    case DEREF =>
      refine Keep.bind Keep.pop fun k1 h1 a ha => Keep.bind Keep.pop fun k2 h2 i hi => ?_
      cases hq : e.handlers.onArrayGet with
      | none => exact E.derefC (ha.mono h2) hi
      | some h =>
        exact Keep.bind (E.host.bin h (.inl hq) k2 a i (ha.mono h2) hi) fun k3 h3 _ _ =>
          Keep.ite (fun _ => Keep.pureAny _) fun _ => E.derefC (ha.mono (by omega)) (hi.mono h3)
    case SETA =>
      refine Keep.bind Keep.pop fun k1 h1 a ha => Keep.bind Keep.pop fun k2 h2 i hi => ?_
      refine Keep.bind Keep.pop fun k3 h3 v hv => ?_
      cases hq : e.handlers.onArraySet with
      | none => exact E.setaC (ha.mono (by omega)) (hi.mono h3) hv
      | some h =>
        exact Keep.bind (E.host.arraySet h hq k3 a i v (ha.mono (by omega)) (hi.mono h3) hv)
          fun k4 h4 _ _ => Keep.ite (fun _ => Keep.pureAny _) fun _ =>
            E.setaC (ha.mono (by omega)) (hi.mono (by omega)) (hv.mono h4)
    case GETM =>
      refine Keep.bind Keep.pop fun k1 h1 a ha => Keep.bind E.readOperand fun k2 h2 x _ => ?_
      refine Keep.bind (E.member x) fun k3 h3 s _ => ?_
      refine Keep.bind (E.view (ha.mono (by omega))) fun k4 h4 v _ => ?_
      have hh := E.getmH (ha.mono (show k1 ≤ k4 by omega)) s
      cases v with
      | arr len => exact Keep.ite (fun _ => E.pushInt _) fun _ => hh
      | _ => exact hh
    case SETM =>
      refine Keep.bind Keep.pop fun k1 h1 a ha => Keep.bind Keep.pop fun k2 h2 i hi => ?_
      refine Keep.bind E.readOperand fun k3 h3 x _ => Keep.bind (E.member x) fun k4 h4 s _ => ?_
      cases hq : e.handlers.onMemberSet with
      | none => exact Keep.raise _
      | some h =>
        exact Keep.bind (E.host.memberSet h hq k4 a i s (ha.mono (by omega)) (hi.mono (by omega)))
          fun _ _ _ _ => Keep.ite (fun _ => Keep.pureAny _) fun _ => Keep.raise _
    case ARY_INIT => exact E.aryInit

theorem step : Keep n QAny (stepImp e) := by
  refine Keep.bind E.readOpcode fun _ _ b _ => Keep.bind (E.execKeep _) fun _ _ _ _ => ?_
  refine Keep.bind (Keep.modTh fun _ _ t h => ?_) fun _ _ _ _ => Keep.modTh fun _ _ _ h => h
  unfold checkBreak
  split
  · exact h
  · exact h

end EnvKeep
end Ccml
