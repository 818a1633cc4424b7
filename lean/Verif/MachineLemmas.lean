import Verif.Machine
import Verif.AbsMem
import Verif.Builtins
/-!
Helper lemmas for the machine.
-/
namespace Ccml
variable {P M : Type} {α β : Type}

theorem vm_bind (x : VM P M α) (f : α → VM P M β) (s : St P M) :
    (x >>= f) s = match x s with
      | .ok (a, s') => f a s'
      | .error e => .error e := by
  show (StateT.bind x f) s = _
  simp only [StateT.bind, bind, Except.bind]
  cases x s <;> rfl

theorem vm_bind_ok {x : VM P M α} {f : α → VM P M β} {s s' : St P M} {a : α}
    (h : x s = .ok (a, s')) : (x >>= f) s = f a s' := by rw [vm_bind, h]

theorem vm_bind_error {x : VM P M α} {f : α → VM P M β} {s : St P M} {e : Fault}
    (h : x s = .error e) : (x >>= f) s = .error e := by rw [vm_bind, h]

theorem vm_pure (a : α) (s : St P M) : (pure a : VM P M α) s = .ok (a, s) := rfl

theorem vm_get (s : St P M) : (get : VM P M (St P M)) s = .ok (s, s) := rfl

theorem vm_modify (f : St P M → St P M) (s : St P M) :
    (modify f : VM P M Unit) s = .ok ((), f s) := rfl

/-- The state with another value stack. -/
def St.withStack (s : St P M) (st : List P) : St P M := { s with th := { s.th with stack := st } }

theorem pop_cons {s : St P M} {v : P} {r : List P} (h : s.th.stack = v :: r) :
    pop s = .ok (v, s.withStack r) := by
  simp only [pop, h, St.withStack]

theorem pop_nil {s : St P M} (h : s.th.stack = []) : (pop : VM P M P) s = .error .assert := by
  simp only [pop, h]

theorem view_ok {e : Env P M} {s : St P M} {p : P} {v : View} (h : e.mem.view s.mem p = .ok v) :
    view e p s = .ok (v, s) := by
  simp only [view, lift, h]

@[simp] theorem withStack_mem (s : St P M) (st : List P) : (s.withStack st).mem = s.mem := rfl
@[simp] theorem withStack_stack (s : St P M) (st : List P) : (s.withStack st).th.stack = st := rfl
@[simp] theorem withStack_withStack (s : St P M) (a b : List P) :
    (s.withStack a).withStack b = s.withStack b := rfl

/-- Array references refer to existing arrays. -/
def Live (m : Store) : Val → Prop
  | .arr l => l < m.length
  | _ => True

/-- The view of a live value. -/
def Val.viewL (m : Store) : Val → View
  | .none => .none
  | .int v => .int v
  | .float f => .float f
  | .str s => .str s
  | .arr l => .arr (m[l]?.getD []).length
  | .func v => .func v
  | .syscall v => .syscall v

theorem viewL_ok {m : Store} {v : Val} (h : Live m v) : v.view m = .ok (v.viewL m) := by
  cases v with
  | arr l =>
    have : m[l]? = some m[l] := List.getElem?_eq_getElem h
    simp only [Val.view, Val.viewL, this, Option.getD_some]
  | _ => rfl

theorem view_live {e : Env Val Store} (he : e.mem = Mem.abs) {s : St Val Store} {v : Val}
    (h : Live s.mem v) : Ccml.view e v s = .ok (v.viewL s.mem, s) :=
  view_ok (by rw [he]; exact viewL_ok h)

theorem cstr_id {s : Str} (h : ∀ b ∈ s, b ≠ 0) : cstr s = s := by
  induction s with
  | nil => rfl
  | cons b t ih =>
    have hb : (b != 0) = true := by
      simp only [bne_iff_ne]; exact h b (List.mem_cons_self ..)
    unfold cstr at ih ⊢
    rw [List.takeWhile_cons, if_pos hb, ih (fun x hx => h x (List.mem_cons_of_mem _ hx))]

end Ccml
