import Verif.SrcFrame
/-!
Evaluations of a source that stop early (proof infrastructure): with less fuel, or with host functions missing, the meaning is
the same or the evaluation has run out of fuel or has got to a function that is missing.
-/
namespace Ccml.Src
open Sem

/-- A way of stopping early. -/
inductive Short
  | time
  | fault (f : Fault)
  | err (x : TErr)

/-- The evaluation has stopped early. -/
def Short.Is {α : Type} : Short → Res α → Prop
  | .time, .timeout => True
  | .fault f, .fault g => g = f
  | .err x, .err y _ => y = x
  | _, _ => False

/-- `x` is `y`, or it has stopped early. -/
def Part {α : Type} (b : Short) (x y : Res α) : Prop := b.Is x ∨ x = y

variable {b : Short}

theorem Part.rfl {α : Type} (x : Res α) : Part b x x := .inr (Eq.refl _)

theorem Part.bind {α β : Type} {x y : Res α} {f g : α → State → Res β} (h : Part b x y)
    (k : ∀ a w, Part b (f a w) (g a w)) : Part b (x.bind f) (y.bind g) := by
  rcases h with h | h
  · left
    cases b <;> cases x <;> first
      | exact h.elim
      | exact h
  · subst h
    cases x <;> first
      | exact k _ _
      | exact .inr (Eq.refl _)

theorem Part.look {β : Type} {v : Val} {w : State} {f g : View → Res β} (h : ∀ x, Part b (f x) (g x)) :
    Part b (Sem.look v w f) (Sem.look v w g) := by
  unfold Sem.look
  cases v.view w.mem with
  | error => exact .rfl _
  | ok x => exact h x

theorem Part.loop {test test' : Locals → State → Res Bool} {body body' : Locals → State → Res Flow}
    (ht : ∀ ρ w, Part b (test ρ w) (test' ρ w)) (hb : ∀ ρ w, Part b (body ρ w) (body' ρ w)) :
    ∀ n m, (n = m ∨ n ≤ m ∧ b = .time) → ∀ ρ w, Part b (Src.loop test body n ρ w) (Src.loop test' body' m ρ w)
  | 0, m, h, ρ, w => by
    rcases h with rfl | ⟨-, rfl⟩
    · exact .rfl _
    · exact .inl trivial
  | n + 1, 0, h, ρ, w => by rcases h with h | ⟨h, -⟩ <;> omega
  | n + 1, m + 1, h, ρ, w => by
    simp only [Src.loop]
    refine Part.bind (ht ρ w) fun c w => ?_
    cases c with
    | false => exact .rfl _
    | true =>
      refine Part.bind (hb ρ w) fun fl w => ?_
      cases fl with
      | next ρ => exact Part.loop ht hb n m (h.imp (by omega) fun h => ⟨by omega, h.2⟩) ρ w
      | ret v => exact .rfl _

/-- The surroundings with another table and other host functions. -/
abbrev Ctx.other (cx : Ctx) (T : List Syscall) (H : FnPtr → List Val → State → Res Val) : Ctx :=
  { cx with table := T, host := H }

variable {cx : Ctx} {T : List Syscall} {H : FnPtr → List Val → State → Res Val} (hN : T.map Syscall.name = cx.table.map Syscall.name)

include hN in
theorem hostIndex_other (n : Str) : (cx.other T H).hostIndex n = cx.hostIndex n := by
  have : ∀ l : List Syscall, l.findIdx? (fun s => s.name == n) = (l.map Syscall.name).findIdx? (· == n) := fun l => by
    rw [List.findIdx?_map]
    rfl
  unfold Ctx.hostIndex
  rw [this, this]
  exact congrArg _ hN

theorem constNum_other : ∀ (n : Nat) (x : Str), (cx.other T H).constNum n x = cx.constNum n x
  | 0, _ => rfl
  | n + 1, x => by
    simp only [Ctx.constNum]
    rw [funext (constNum_other n)]
    rfl

theorem constVal_other : ∀ (n i : Nat), (cx.other T H).constVal n i = cx.constVal n i
  | 0, _ => rfl
  | n + 1, i => by
    simp only [Ctx.constVal]
    rw [funext (constNum_other _), funext (constVal_other n)]
    rfl

include hN in
theorem item_other (i : Nat) (w : State) : (cx.other T H).item i w = cx.item i w := by
  unfold Ctx.item
  simp only [hostIndex_other hN, constVal_other]
  rfl

include hN in
theorem ident_other (ρ : Locals) (n : Str) (w : State) : (cx.other T H).ident ρ n w = cx.ident ρ n w := by
  unfold Ctx.ident
  simp only [item_other hN]
  rfl

include hN in
theorem get_other (ρ : Locals) (n : Str) (w : State) : (cx.other T H).get ρ n w = cx.get ρ n w := by
  unfold Ctx.get
  simp only [item_other hN]
  rfl

variable {callF callF' : CallF}

section
variable (hH : ∀ f g j args w, Part b (cx.apply f (.syscall j) args w) ((cx.other T H).apply g (.syscall j) args w))
  (hc : ∀ i args w, Part b (callF i args w) (callF' i args w))

include hH hc in
theorem part_apply (v : Val) (args : List Val) (w : State) :
    Part b (cx.apply callF v args w) ((cx.other T H).apply callF' v args w) := by
  cases v with
  | none => exact .rfl _
  | func a =>
    show Part b (match cx.funAt a with | none => _ | some i => _) (match cx.funAt a with | none => _ | some i => _)
    cases cx.funAt a with
    | none => exact .rfl _
    | some i =>
      show Part b (match cx.prog[i]? with | some (.func f) => _ | _ => _) (match cx.prog[i]? with | some (.func f) => _ | _ => _)
      split
      · split
        · exact hc ..
        · exact .rfl _
      · exact .rfl _
  | syscall j => exact hH ..
  | int | float | str | arr => exact .rfl _

include hN hH hc

mutual
theorem part_evalE (ρ : Locals) : ∀ (e : Expr Unit) (w : State),
    Part b (evalE cx callF ρ e w) (evalE (cx.other T H) callF' ρ e w)
  | .ident .., w => by simp only [evalE]; rw [ident_other hN]; exact .rfl _
  | .int .., w => by simp only [evalE]; exact .rfl _
  | .float .., w => by simp only [evalE]; exact .rfl _
  | .str .., w => by simp only [evalE]; exact .rfl _
  | .none .., w => by simp only [evalE]; exact .rfl _
  | .member .., w => by
    simp only [evalE]
    rw [get_other hN]
    exact .rfl _
  | .arr _ es, w => by
    simp only [evalE]
    exact .bind (part_evalEs ρ es w) fun _ _ => .rfl _
  | .deref _ l i, w => by
    simp only [evalE]
    exact .bind (part_evalE ρ i w) fun _ w => .bind (part_evalE ρ l w) fun _ _ => .rfl _
  | .call _ c as, w => by
    simp only [evalE]
    exact .bind (part_evalEs ρ as w) fun _ w => .bind (part_evalE ρ c w) fun _ _ => part_apply hH hc ..
  | .bin op l r, w => by
    simp only [evalE]
    exact .bind (part_evalE ρ l w) fun _ w => .bind (part_evalE ρ r w) fun _ _ => .rfl _
  | .un op a, w => by
    simp only [evalE]
    exact .bind (part_evalE ρ a w) fun _ w => .rfl _

theorem part_evalEs (ρ : Locals) : ∀ (es : List (Expr Unit)) (w : State),
    Part b (evalEs cx callF ρ es w) (evalEs (cx.other T H) callF' ρ es w)
  | [], w => by simp only [evalEs]; exact .rfl _
  | e :: es, w => by
    simp only [evalEs]
    exact .bind (part_evalE ρ e w) fun _ w => .bind (part_evalEs ρ es w) fun _ _ => .rfl _
end

variable {n m : Nat} (hn : n = m ∨ n ≤ m ∧ b = .time)
include hn

mutual
theorem part_evalS : ∀ (s : Stmt Unit) (ρ : Locals) (w : State),
    Part b (evalS cx callF n s ρ w) (evalS (cx.other T H) callF' m s ρ w)
  | .var _ _ none, ρ, w => by simp only [evalS]; exact .rfl _
  | .var _ _ (some e), ρ, w => by
    simp only [evalS]
    exact .bind (part_evalE hN hH hc ρ e w) fun _ _ => .rfl _
  | .assign _ _ e, ρ, w => by
    simp only [evalS]
    exact .bind (part_evalE hN hH hc ρ e w) fun _ w => .rfl _
  | .assignArr _ _ i e, ρ, w => by
    simp only [evalS]
    refine .bind (part_evalE hN hH hc ρ e w) fun _ w => .bind (part_evalE hN hH hc ρ i w) fun _ w => ?_
    rw [get_other hN]
    exact .rfl _
  | .assignMem _ _ _ e, ρ, w => by
    simp only [evalS]
    refine .bind (part_evalE hN hH hc ρ e w) fun _ w => ?_
    rw [get_other hN]
    exact .rfl _
  | .call _ c as, ρ, w => by
    simp only [evalS]
    exact .bind (part_evalEs hN hH hc ρ as w) fun _ w => .bind (part_evalE hN hH hc ρ c w) fun _ w =>
      .bind (part_apply hH hc ..) fun _ _ => .rfl _
  | .ifS _ c thn hasElse els, ρ, w => by
    simp only [evalS]
    refine .bind (part_evalE hN hH hc ρ c w) fun _ w => .look fun x => ?_
    show Part b (if truth cx.fl x then _ else _) (if truth cx.fl x then _ else _)
    split
    · exact .bind (part_evalB thn ρ w) fun _ _ => .rfl _
    · split
      · exact .bind (part_evalB els ρ w) fun _ _ => .rfl _
      · exact .rfl _
  | .whileS _ c body, ρ, w => by
    simp only [evalS]
    exact Part.loop (fun ρ w => .bind (part_evalE hN hH hc ρ c w) fun _ w => .rfl _)
      (fun ρ w => .bind (part_evalB body ρ w) fun _ _ => .rfl _) n m hn ρ w
  | .forS _ i _ a z body, ρ, w => by
    simp only [evalS]
    refine .bind (part_evalE hN hH hc ρ a w) fun _ w => Part.bind (.rfl _) fun ρ w => ?_
    refine Part.loop (fun ρ w => ?_) (fun ρ w => .bind (part_evalB body ρ w) fun fl w => ?_) n m hn ρ w
    · rw [get_other hN]
      exact .bind (.rfl _) fun _ w => .bind (part_evalE hN hH hc ρ z w) fun _ w => .rfl _
    · simp only [get_other hN]
      exact .rfl _
  | .ret _ none, ρ, w => by simp only [evalS]; exact .rfl _
  | .ret _ (some e), ρ, w => by
    simp only [evalS]
    exact .bind (part_evalE hN hH hc ρ e w) fun _ _ => .rfl _

theorem part_evalB : ∀ (ss : List (Stmt Unit)) (ρ : Locals) (w : State),
    Part b (evalB cx callF n ss ρ w) (evalB (cx.other T H) callF' m ss ρ w)
  | [], ρ, w => by simp only [evalB]; exact .rfl _
  | s :: ss, ρ, w => by
    simp only [evalB]
    refine .bind (part_evalS s ρ w) fun fl w => ?_
    cases fl with
    | ret v => exact .rfl _
    | next ρ => exact part_evalB ss ρ w
end
end

section
variable (hH : ∀ f g j args w, Part b (cx.apply f (.syscall j) args w) ((cx.other T H).apply g (.syscall j) args w))
include hN hH

theorem part_callFn : ∀ n m, (n = m ∨ n ≤ m ∧ b = .time) → ∀ i args w,
    Part b (callFn cx n i args w) (callFn (cx.other T H) m i args w)
  | 0, m, h, i, args, w => by
    rcases h with rfl | ⟨-, rfl⟩
    · exact .rfl _
    · exact .inl trivial
  | n + 1, 0, h, i, args, w => by rcases h with h | ⟨h, -⟩ <;> omega
  | n + 1, m + 1, h, i, args, w => by
    simp only [callFn]
    split
    · split
      · exact .bind (part_evalB hN hH (part_callFn n m (h.imp (by omega) fun h => ⟨by omega, h.2⟩)) h ..) fun _ _ => .rfl _
      · exact .rfl _
    · exact .rfl _

theorem part_call {n m : Nat} (h : n = m ∨ n ≤ m ∧ b = .time) (name : Str) (args : List Val) (w : State) :
    Part b (call cx n name args w) (call (cx.other T H) m name args w) := by
  unfold call
  show Part b (match cx.global name with | some i => _ | none => _) (match cx.global name with | some i => _ | none => _)
  cases cx.global name with
  | none => exact .rfl _
  | some i => exact part_callFn hN hH n m h ..

theorem part_initVars {n m : Nat} (h : n = m ∨ n ≤ m ∧ b = .time) : ∀ (xs : List (Item Unit)) (i : Nat) (w : State),
    Part b (initVars cx (callFn cx n) i xs w) (initVars (cx.other T H) (callFn (cx.other T H) m) i xs w)
  | [], _, _ => .rfl _
  | x :: xs, i, w => by
    have key : ∀ e, Part b ((evalE cx (callFn cx n) [] e w).bind fun v w => (cx.setItem i v w).bind fun _ w =>
          initVars cx (callFn cx n) (i + 1) xs w)
        ((evalE (cx.other T H) (callFn (cx.other T H) m) [] e w).bind fun v w => ((cx.other T H).setItem i v w).bind fun _ w =>
          initVars (cx.other T H) (callFn (cx.other T H) m) (i + 1) xs w) := fun e =>
      .bind (part_evalE hN hH (part_callFn hN hH n m h) ..) fun _ w => .bind (.rfl _) fun _ w => part_initVars h xs ..
    cases x with
    | func | syscall => simp only [initVars]; exact part_initVars h xs ..
    | var t c e =>
      cases c with
      | true => simp only [initVars]; exact part_initVars h xs ..
      | false =>
        cases e with
        | none => simp only [initVars]; exact part_initVars h xs ..
        | some e =>
          cases e <;> simp only [initVars] <;> first
            | exact part_initVars h xs ..
            | exact key _

theorem part_startUp {n m : Nat} (h : n = m ∨ n ≤ m ∧ b = .time) (w : State) :
    Part b (startUp cx n w) (startUp (cx.other T H) m w) := part_initVars hN hH h ..
end

/-- More fuel changes nothing but the end of an evaluation that has run out of it. -/
theorem call_more {n m : Nat} (h : n ≤ m) {name : Str} {args : List Val} {w : State} (hr : call cx n name args w ≠ .timeout) :
    call cx m name args w = call cx n name args w := by
  rcases part_call (b := .time) (cx := cx) (T := cx.table) (H := cx.host) rfl (fun _ _ _ _ _ => .inr rfl) (.inr ⟨h, rfl⟩) name args w with k | k
  · revert k hr
    cases call cx n name args w <;> intro hr k
    all_goals first
      | exact k.elim
      | exact absurd rfl hr
  · exact k.symm

theorem startUp_more {n m : Nat} (h : n ≤ m) {w : State} (hr : startUp cx n w ≠ .timeout) : startUp cx m w = startUp cx n w := by
  rcases part_startUp (b := .time) (cx := cx) (T := cx.table) (H := cx.host) rfl (fun _ _ _ _ _ => .inr rfl) (.inr ⟨h, rfl⟩) w with k | k
  · revert k hr
    cases startUp cx n w <;> intro hr k
    all_goals first
      | exact k.elim
      | exact absurd rfl hr
  · exact k.symm

end Ccml.Src
