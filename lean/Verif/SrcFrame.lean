import Verif.Src
import Verif.HostSpec
/-!
The threads behind the running one make no difference to what the source says: they are neither looked
at nor changed.
-/
namespace Ccml.Src
open Ccml Sem

/-- The state with other threads behind the running one. -/
def on (L : List (Thread Val)) (w : State) : State := { w with after := L }

/-- The end of an evaluation with other threads behind the running one. -/
def onR {α : Type} (L : List (Thread Val)) : Res α → Res α
  | .ok a w => .ok a (on L w)
  | .err x w => .err x (on L w)
  | .fault f => .fault f
  | .timeout => .timeout
  | .undef => .undef

variable {L : List (Thread Val)}

theorem on_mem (w : State) : (on L w).mem = w.mem := rfl
theorem on_globals (w : State) : (on L w).globals = w.globals := rfl
theorem on_io (w : State) : (on L w).io = w.io := rfl

theorem onR_bind {α β : Type} (r : Res α) {f : α → State → Res β}
    (h : ∀ a w, f a (on L w) = onR L (f a w)) : (onR L r).bind f = onR L (r.bind f) := by
  cases r <;> simp only [onR, Res.bind, h]

theorem on_bind {α β : Type} {x : State → Res α} {f : α → State → Res β} {w : State}
    (hx : x (on L w) = onR L (x w)) (h : ∀ a w, f a (on L w) = onR L (f a w)) :
    (x (on L w)).bind f = onR L ((x w).bind f) := by
  rw [hx, onR_bind _ h]

theorem on_look {β : Type} {v : Val} {w : State} {f g : View → Res β} (h : ∀ x, f x = onR L (g x)) :
    look v (on L w) f = onR L (look v w g) := by
  unfold look
  show (match v.view w.mem with | .ok x => f x | .error x => .fault x) = _
  cases v.view w.mem with
  | error => rfl
  | ok x => exact h x

theorem on_res {w : State} (a : Ans) : a.res (on L w) = onR L (a.res w) := by cases a <;> rfl

theorem on_binaryV (fl : FloatOps) (op : Tok) (a b : Val) (w : State) :
    binaryV fl op a b (on L w) = onR L (binaryV fl op a b w) :=
  on_look fun _ => on_look fun _ => on_res _

theorem on_unaryV (fl : FloatOps) (op : Tok) (a : Val) (w : State) :
    unaryV fl op a (on L w) = onR L (unaryV fl op a w) :=
  on_look fun _ => on_res _

theorem on_index (a i : Val) (w : State) : index a i (on L w) = onR L (index a i w) := by
  unfold index
  refine on_look fun x => ?_
  cases x <;> first
    | rfl
    | (refine on_look fun y => ?_
       cases y <;> try rfl
       dsimp only
       cases a <;> try rfl
       · dsimp only
         split
         · split <;> rfl
         · rfl
       · dsimp only
         rw [on_mem]
         split
         · rfl
         · split
           · split <;> rfl
           · rfl)

theorem on_update (a i v : Val) (w : State) : update a i v (on L w) = onR L (update a i v w) := by
  unfold update
  refine on_look fun x => ?_
  cases a <;> try rfl
  refine on_look fun y => ?_
  cases y <;> try rfl
  dsimp only
  rw [on_mem]
  split
  · rfl
  · split
    · exact on_look fun _ => rfl
    · rfl

theorem on_member (a : Val) (n : Str) (w : State) : member a n (on L w) = onR L (member a n w) := by
  unfold member
  refine on_look fun x => ?_
  cases x <;> try rfl
  dsimp only
  split <;> rfl

theorem on_math (fl : FloatOps) (f : F32 → F32) (v : Val) (w : State) :
    math fl f v (on L w) = onR L (math fl f v w) := by
  unfold math
  refine on_look fun x => ?_
  split <;> rfl

theorem on_pick (fl : FloatOps) (f : F32 → F32 → Bool) (a b : Val) (w : State) :
    pick fl f a b (on L w) = onR L (pick fl f a b w) := by
  unfold pick
  refine on_look fun x => on_look fun y => ?_
  split <;> rfl

theorem on_builtin (fl : FloatOps) (prog : Program) (b : Builtin) (args : List Val) (w : State) :
    builtin fl prog b args (on L w) = onR L (builtin fl prog b args w) := by
  unfold builtin
  split <;> try rfl
  all_goals first
    | exact on_math ..
    | exact on_pick ..
    | skip
  · refine on_look fun x => ?_
    cases x <;> try rfl
    dsimp only
    split
    · exact on_res _
    · rfl
  · refine on_look fun x => on_look fun y => ?_
    split <;> rfl
  · refine on_look fun x => ?_
    cases x <;> rfl
  · refine on_look fun x => ?_
    cases x <;> rfl
  · refine on_look fun x => ?_
    cases x <;> try rfl
    dsimp only
    split
    · rfl
    · split
      · rfl
      · rw [on_mem]
        split <;> rfl
  · refine on_look fun x => ?_
    split
    · rfl
    · rfl
    · exact on_res _
  · refine on_look fun x => ?_
    split
    · rfl
    · split <;> rfl
    · exact on_res _

theorem on_lookAll {w : State} {f g : List View → Res Val} (h : ∀ xs, f xs = onR L (g xs)) :
    ∀ (vs : List Val) (acc : List View), lookAll vs acc (on L w) f = onR L (lookAll vs acc w g)
  | [], acc => h acc
  | _ :: vs, _ => on_look fun _ => on_lookAll h vs _

theorem on_hostFn (fl : FloatOps) (b : HostFn) (args : List Val) (w : State) :
    hostFn fl b args (on L w) = onR L (hostFn fl b args w) := by
  unfold hostFn
  split <;> try rfl
  · refine on_look fun x => ?_
    cases x <;> rfl
  · refine on_look fun x => ?_
    cases x <;> rfl
  · rw [on_io]
    split <;> rfl
  · rw [on_io]
    split <;> rfl
  · split
    · refine on_lookAll (fun xs => ?_) _ _
      rw [on_io]
      split <;> rfl
    · rfl

/-- Nor do the host functions look at them. -/
def HostOn (L : List (Thread Val)) (cx : Ctx) : Prop :=
  ∀ fn args w, cx.host fn args (on L w) = onR L (cx.host fn args w)

theorem on_builtins (fl : FloatOps) (prog : Program) (fn : FnPtr) (args : List Val) (w : State) :
    builtins fl prog fn args (on L w) = onR L (builtins fl prog fn args w) := by
  unfold builtins
  split
  · exact on_builtin ..
  · split
    · exact on_hostFn ..
    · rfl

variable {cx : Ctx} {callF : CallF}

theorem on_item (i : Nat) (w : State) : cx.item i (on L w) = onR L (cx.item i w) := by
  unfold Ctx.item
  split <;> try rfl
  · split <;> rfl
  · rw [on_globals]
    split <;> rfl
  · split <;> rfl

theorem on_ident (ρ : Locals) (n : Str) (w : State) : cx.ident ρ n (on L w) = onR L (cx.ident ρ n w) := by
  unfold Ctx.ident
  split <;> try rfl
  split
  · exact on_item ..
  · rfl

theorem on_get (ρ : Locals) (n : Str) (w : State) : cx.get ρ n (on L w) = onR L (cx.get ρ n w) := by
  unfold Ctx.get
  split <;> try rfl
  split
  · split
    · exact on_item ..
    · rfl
  · rfl

theorem on_setItem (i : Nat) (v : Val) (w : State) : cx.setItem i v (on L w) = onR L (cx.setItem i v w) := by
  unfold Ctx.setItem
  rw [on_globals]
  split <;> rfl

theorem on_set (ρ : Locals) (n : Str) (v : Val) (w : State) : cx.set ρ n v (on L w) = onR L (cx.set ρ n v w) := by
  unfold Ctx.set
  split <;> try rfl
  split
  · split
    · refine on_bind (x := cx.setItem _ v) (on_setItem _ v w) fun _ _ => ?_
      rfl
    · rfl
  · rfl

theorem on_apply (hh : HostOn L cx) (hc : ∀ i args w, callF i args (on L w) = onR L (callF i args w)) (v : Val)
    (args : List Val) (w : State) : cx.apply callF v args (on L w) = onR L (cx.apply callF v args w) := by
  cases v with
  | none => rfl
  | func a =>
    unfold Ctx.apply
    dsimp only
    split
    · rfl
    · split
      · split
        · exact hc ..
        · rfl
      · rfl
  | syscall j =>
    unfold Ctx.apply
    dsimp only
    split
    · rfl
    · split
      · rfl
      · split
        · rfl
        · exact hh ..
  | int | float | str | arr =>
    unfold Ctx.apply
    dsimp only
    refine on_look fun _ => ?_
    rfl

theorem on_loop {test : Locals → State → Res Bool} {body : Locals → State → Res Flow}
    (ht : ∀ ρ w, test ρ (on L w) = onR L (test ρ w)) (hb : ∀ ρ w, body ρ (on L w) = onR L (body ρ w)) :
    ∀ n ρ w, loop test body n ρ (on L w) = onR L (loop test body n ρ w)
  | 0, _, _ => rfl
  | n + 1, ρ, w => by
    simp only [loop]
    refine on_bind (ht ρ w) fun b w => ?_
    cases b with
    | false => rfl
    | true =>
      refine on_bind (hb ρ w) fun fl w => ?_
      cases fl with
      | next ρ => exact on_loop ht hb n ρ w
      | ret v => rfl

section
variable (hh : HostOn L cx) (hc : ∀ i args w, callF i args (on L w) = onR L (callF i args w))
include hh hc

mutual
theorem on_evalE (ρ : Locals) : ∀ (e : Expr Unit) (w : State),
    evalE cx callF ρ e (on L w) = onR L (evalE cx callF ρ e w)
  | .ident .., w => by simp only [evalE]; exact on_ident ..
  | .int .., w => by simp only [evalE]; rfl
  | .float .., w => by simp only [evalE]; rfl
  | .str .., w => by simp only [evalE]; rfl
  | .none .., w => by simp only [evalE]; rfl
  | .member .., w => by
    simp only [evalE]
    exact on_bind (on_get ..) fun _ _ => on_member ..
  | .arr _ es, w => by
    simp only [evalE]
    exact on_bind (on_evalEs ρ es w) fun _ _ => rfl
  | .deref _ l i, w => by
    simp only [evalE]
    exact on_bind (on_evalE ρ i w) fun _ w => on_bind (on_evalE ρ l w) fun _ _ => on_index ..
  | .call _ c as, w => by
    simp only [evalE]
    exact on_bind (on_evalEs ρ as w) fun _ w => on_bind (on_evalE ρ c w) fun _ _ => on_apply hh hc ..
  | .bin op l r, w => by
    simp only [evalE]
    refine on_bind (on_evalE ρ l w) fun _ w => on_bind (on_evalE ρ r w) fun _ _ => ?_
    split
    · rfl
    · exact on_binaryV ..
  | .un op a, w => by
    simp only [evalE]
    refine on_bind (on_evalE ρ a w) fun _ w => ?_
    split
    · exact on_unaryV ..
    · rfl

theorem on_evalEs (ρ : Locals) : ∀ (es : List (Expr Unit)) (w : State),
    evalEs cx callF ρ es (on L w) = onR L (evalEs cx callF ρ es w)
  | [], w => by simp only [evalEs]; rfl
  | e :: es, w => by
    simp only [evalEs]
    exact on_bind (on_evalE ρ e w) fun _ w => on_bind (on_evalEs ρ es w) fun _ _ => rfl
end

mutual
theorem on_evalS (n : Nat) : ∀ (s : Stmt Unit) (ρ : Locals) (w : State),
    evalS cx callF n s ρ (on L w) = onR L (evalS cx callF n s ρ w)
  | .var _ _ none, ρ, w => by simp only [evalS]; rfl
  | .var _ _ (some e), ρ, w => by
    simp only [evalS]
    exact on_bind (on_evalE hh hc ρ e w) fun _ _ => rfl
  | .assign _ _ e, ρ, w => by
    simp only [evalS]
    exact on_bind (on_evalE hh hc ρ e w) fun _ w => on_bind (on_set ..) fun _ _ => rfl
  | .assignArr _ _ i e, ρ, w => by
    simp only [evalS]
    exact on_bind (on_evalE hh hc ρ e w) fun _ w => on_bind (on_evalE hh hc ρ i w) fun _ w =>
      on_bind (on_get ..) fun _ w => on_bind (on_update ..) fun _ _ => rfl
  | .assignMem _ _ _ e, ρ, w => by
    simp only [evalS]
    exact on_bind (on_evalE hh hc ρ e w) fun _ w => on_bind (on_get ..) fun _ w => rfl
  | .call _ c as, ρ, w => by
    simp only [evalS]
    exact on_bind (on_evalEs hh hc ρ as w) fun _ w => on_bind (on_evalE hh hc ρ c w) fun _ w =>
      on_bind (on_apply hh hc ..) fun _ _ => rfl
  | .ifS _ c thn hasElse els, ρ, w => by
    simp only [evalS]
    refine on_bind (on_evalE hh hc ρ c w) fun _ w => on_look fun x => ?_
    split
    · exact on_bind (on_evalB n thn ρ w) fun _ _ => rfl
    · split
      · exact on_bind (on_evalB n els ρ w) fun _ _ => rfl
      · rfl
  | .whileS _ c body, ρ, w => by
    simp only [evalS]
    exact on_loop (fun ρ w => on_bind (on_evalE hh hc ρ c w) fun _ w => (by refine on_look fun _ => ?_; rfl))
      (fun ρ w => on_bind (on_evalB n body ρ w) fun _ _ => rfl) n ρ w
  | .forS _ i _ a b body, ρ, w => by
    simp only [evalS]
    refine on_bind (on_evalE hh hc ρ a w) fun _ w => on_bind (on_set ..) fun ρ w => ?_
    refine on_loop (fun ρ w => on_bind (on_get ..) fun _ w => on_bind (on_evalE hh hc ρ b w) fun _ w =>
      on_bind (on_binaryV ..) fun _ w => (by refine on_look fun _ => ?_; rfl))
      (fun ρ w => on_bind (on_evalB n body ρ w) fun fl w => ?_) n ρ w
    cases fl with
    | ret v => rfl
    | next ρ' =>
      exact on_bind (on_get ..) fun _ w => on_bind (on_binaryV ..) fun _ w => on_bind (on_set ..) fun _ _ => rfl
  | .ret _ none, ρ, w => by simp only [evalS]; rfl
  | .ret _ (some e), ρ, w => by
    simp only [evalS]
    exact on_bind (on_evalE hh hc ρ e w) fun _ _ => rfl

theorem on_evalB (n : Nat) : ∀ (ss : List (Stmt Unit)) (ρ : Locals) (w : State),
    evalB cx callF n ss ρ (on L w) = onR L (evalB cx callF n ss ρ w)
  | [], ρ, w => by simp only [evalB]; rfl
  | s :: ss, ρ, w => by
    simp only [evalB]
    refine on_bind (on_evalS n s ρ w) fun fl w => ?_
    cases fl with
    | ret v => rfl
    | next ρ => exact on_evalB n ss ρ w
end
end

theorem on_callFn (hh : HostOn L cx) : ∀ n i args w, callFn cx n i args (on L w) = onR L (callFn cx n i args w)
  | 0, _, _, _ => rfl
  | n + 1, i, args, w => by
    simp only [callFn]
    split
    · split
      · exact on_bind (on_evalB hh (on_callFn hh n) ..) fun _ _ => rfl
      · rfl
    · rfl

/-- What a call does is the same whatever threads are behind the running one. -/
theorem on_call (hh : HostOn L cx) (n : Nat) (name : Str) (args : List Val) (w : State) :
    call cx n name args (on L w) = onR L (call cx n name args w) := by
  unfold call
  split
  · exact on_callFn hh ..
  · rfl

end Ccml.Src
