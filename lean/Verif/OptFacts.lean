import Verif.Sem
import Verif.Optimize
/-!
Lemmas about the optimisation passes and the evaluator, used by Props/Optimize.lean.
-/
set_option linter.unusedSimpArgs false
namespace Ccml
open Sem (State Res Vars Flow CallF evalE evalEs evalS evalB callFn initVars startUp loop Ctx)

/-! ### The evaluator only looks at some of the program -/

/-- Without the bodies of functions and the initialisers of variables. -/
def Item.face : Item Ref → Item Ref
  | .func f => .func { f with body := [] }
  | .var t false _ => .var t false none
  | x => x

/-- The same evaluator with another program. -/
def Sem.Ctx.withProg (cx : Ctx) (q : Prog Ref) : Ctx := { cx with prog := q }

section
variable (cx : Ctx) {p q : Prog Ref} (h : p.map Item.face = q.map Item.face)
include h

theorem face_get (i : Nat) : p[i]?.map Item.face = q[i]?.map Item.face := by
  rw [← List.getElem?_map, ← List.getElem?_map, h]

theorem face_length : p.length = q.length := by
  have := congrArg List.length h
  simpa using this

theorem face_slot (i : Nat) : (cx.withProg p).slot i = (cx.withProg q).slot i := by
  have key : ∀ l : List (Item Ref),
      (l.filter fun x => match x with | .var _ false _ => true | _ => false).length =
      ((l.map Item.face).filter fun x => match x with | .var _ false _ => true | _ => false).length := by
    intro l
    induction l with
    | nil => rfl
    | cons x l ih =>
      cases x with
      | var t b e => cases b <;> simp [Item.face, ih]
      | func f => simpa [Item.face] using ih
      | syscall n a => simpa [Item.face] using ih
  show ((p.take i).filter _).length = ((q.take i).filter _).length
  refine (key _).trans (Eq.trans ?_ (key _).symm)
  rw [List.map_take, List.map_take, h]

theorem face_funAt (a : I32) : (cx.withProg p).funAt a = (cx.withProg q).funAt a := by
  unfold Sem.Ctx.funAt
  have hl : (cx.withProg p).prog.length = (cx.withProg q).prog.length := face_length h
  rw [hl]
  congr 1
  funext i
  have hg := face_get h i
  show (match p[i]? with | some (.func _) => cx.funAddr i == a | _ => false) =
    (match q[i]? with | some (.func _) => cx.funAddr i == a | _ => false)
  cases hp : p[i]? with
  | none => cases hq : q[i]? with
    | none => rfl
    | some y => rw [hp, hq] at hg; cases hg
  | some x => cases hq : q[i]? with
    | none => rw [hp, hq] at hg; cases hg
    | some y =>
      rw [hp, hq] at hg
      rcases x with ⟨_, _ | _, _⟩ | _ | _ <;> rcases y with ⟨_, _ | _, _⟩ | _ | _ <;> simp_all [Item.face]

theorem face_ident (ρ : Vars) (r : Ref) (w : State) :
    (cx.withProg p).ident ρ r w = (cx.withProg q).ident ρ r w := by
  cases r with
  | item i =>
    have hg := face_get h i
    have hs := face_slot cx h i
    unfold Sem.Ctx.ident
    dsimp only
    rw [hs]
    have e1 : (cx.withProg p).prog[i]? = p[i]? := rfl
    have e2 : (cx.withProg q).prog[i]? = q[i]? := rfl
    rw [e1, e2]
    cases hp : p[i]? with
    | none => cases hq : q[i]? with
      | none => rfl
      | some y => rw [hp, hq] at hg; cases hg
    | some x => cases hq : q[i]? with
      | none => rw [hp, hq] at hg; cases hg
      | some y =>
        rw [hp, hq] at hg
        rcases x with ⟨_, _ | _, _⟩ | _ | _ <;> rcases y with ⟨_, _ | _, _⟩ | _ | _ <;> simp_all [Item.face] <;> first | rfl | skip
  | arg i => rfl
  | loc i => rfl

theorem face_var (i : Nat) : (∃ t e, p[i]? = some (.var t false e)) ↔ (∃ t e, q[i]? = some (.var t false e)) := by
  have hg := face_get h i
  cases hp : p[i]? with
  | none => cases hq : q[i]? with
    | none => simp
    | some y => rw [hp, hq] at hg; cases hg
  | some x => cases hq : q[i]? with
    | none => rw [hp, hq] at hg; cases hg
    | some y =>
      rw [hp, hq] at hg
      rcases x with ⟨_, _ | _, _⟩ | _ | _ <;> rcases y with ⟨_, _ | _, _⟩ | _ | _ <;> simp_all [Item.face]

theorem face_ite {α : Type} (i : Nat) (a b : α) :
    (match p[i]? with | some (.var _ false _) => a | _ => b) =
    (match q[i]? with | some (.var _ false _) => a | _ => b) := by
  have hg := face_get h i
  cases hp : p[i]? with
  | none => cases hq : q[i]? with
    | none => rfl
    | some y => rw [hp, hq] at hg; cases hg
  | some x => cases hq : q[i]? with
    | none => rw [hp, hq] at hg; cases hg
    | some y =>
      rw [hp, hq] at hg
      rcases x with ⟨_, _ | _, _⟩ | _ | _ <;> rcases y with ⟨_, _ | _, _⟩ | _ | _ <;> simp_all [Item.face]

theorem face_vget (ρ : Vars) (r : Ref) (w : State) :
    (cx.withProg p).get ρ r w = (cx.withProg q).get ρ r w := by
  cases r with
  | item i =>
    unfold Sem.Ctx.get
    dsimp only
    rw [face_ident cx h]
    exact face_ite h i _ _
  | arg i => rfl
  | loc i => rfl

theorem face_vset (ρ : Vars) (r : Ref) (v : Val) (w : State) :
    (cx.withProg p).set ρ r v w = (cx.withProg q).set ρ r v w := by
  cases r with
  | item i =>
    unfold Sem.Ctx.set
    dsimp only
    rw [face_slot cx h]
    exact face_ite h i _ _
  | arg i => rfl
  | loc i => rfl

theorem face_apply (callF : CallF) (v : Val) (args : List Val) (w : State) :
    (cx.withProg p).apply callF v args w = (cx.withProg q).apply callF v args w := by
  cases v with
  | func a =>
    unfold Sem.Ctx.apply
    dsimp only
    rw [face_funAt cx h]
    cases (cx.withProg q).funAt a with
    | none => rfl
    | some i =>
      dsimp only
      have hg := face_get h i
      show (match p[i]? with | some (.func f) => _ | _ => _) = (match q[i]? with | some (.func f) => _ | _ => _)
      cases hp : p[i]? with
      | none => cases hq : q[i]? with
        | none => rfl
        | some y => rw [hp, hq] at hg; cases hg
      | some x => cases hq : q[i]? with
        | none => rw [hp, hq] at hg; cases hg
        | some y =>
          rw [hp, hq] at hg
          rcases x with ⟨_, _ | _, _⟩ | _ | _ <;> rcases y with ⟨_, _ | _, _⟩ | _ | _ <;> simp_all [Item.face]
  | _ => rfl

mutual
theorem face_evalE (callF : CallF) (ρ : Vars) : ∀ (x : Expr Ref) (w : State),
    evalE (cx.withProg p) callF ρ x w = evalE (cx.withProg q) callF ρ x w
  | .ident _ r, w => by rw [evalE, evalE]; exact face_ident cx h ρ r w
  | .int .., w => by rw [evalE, evalE]
  | .float .., w => by rw [evalE, evalE]
  | .str .., w => by rw [evalE, evalE]
  | .none _, w => by rw [evalE, evalE]
  | .member _ m r, w => by rw [evalE, evalE, face_vget cx h]
  | .arr _ es, w => by rw [evalE, evalE, face_evalEs callF ρ es]
  | .deref _ l i, w => by
    rw [evalE, evalE, face_evalE callF ρ i]
    congr 1; funext a w
    rw [face_evalE callF ρ l]
  | .call _ c as, w => by
    rw [evalE, evalE, face_evalEs callF ρ as]
    congr 1; funext a w
    rw [face_evalE callF ρ c]
    congr 1; funext a w
    exact face_apply cx h ..
  | .bin op l r, w => by
    rw [evalE, evalE, face_evalE callF ρ l]
    congr 1; funext a w
    rw [face_evalE callF ρ r]
    rfl
  | .un op a, w => by
    rw [evalE, evalE, face_evalE callF ρ a]
    rfl
theorem face_evalEs (callF : CallF) (ρ : Vars) : ∀ (x : List (Expr Ref)) (w : State),
    evalEs (cx.withProg p) callF ρ x w = evalEs (cx.withProg q) callF ρ x w
  | [], w => by rw [evalEs, evalEs]
  | e :: es, w => by
    rw [evalEs, evalEs, face_evalE callF ρ e]
    congr 1; funext a w
    rw [face_evalEs callF ρ es]
end

mutual
theorem face_evalS (callF : CallF) (zi : Ref → Bool) (n : Nat) : ∀ (s : Stmt Ref) (ρ : Vars) (w : State),
    evalS (cx.withProg p) callF zi n s ρ w = evalS (cx.withProg q) callF zi n s ρ w
  | .var _ r init, ρ, w => by
    unfold evalS
    cases r <;> try rfl
    cases init with
    | none => rfl
    | some e =>
      dsimp only
      rw [face_evalE cx h]
  | .assign _ r e, ρ, w => by
    unfold evalS
    rw [face_evalE cx h]
    congr 1; funext a w
    rw [face_vset cx h]
  | .assignArr _ r i e, ρ, w => by
    unfold evalS
    rw [face_evalE cx h]
    congr 1; funext a w
    rw [face_evalE cx h]
    congr 1; funext a w
    rw [face_vget cx h]
  | .assignMem _ _ r e, ρ, w => by
    unfold evalS
    rw [face_evalE cx h]
    congr 1; funext a w
    rw [face_vget cx h]
  | .call _ c as, ρ, w => by
    unfold evalS
    rw [face_evalEs cx h]
    congr 1; funext a w
    rw [face_evalE cx h]
    congr 1; funext a w
    rw [face_apply cx h]
  | .ifS _ c thn hasElse els, ρ, w => by
    unfold evalS
    rw [face_evalE cx h]
    congr 1; funext a w
    congr 1; funext x
    rw [face_evalB callF zi n thn, face_evalB callF zi n els]
    rfl
  | .whileS _ c body, ρ, w => by
    unfold evalS
    congr 1
    · funext ρ w
      rw [face_evalE cx h]
      rfl
    · funext ρ w
      rw [face_evalB callF zi n body]
  | .forS _ _ r a b body, ρ, w => by
    unfold evalS
    rw [face_evalE cx h]
    congr 1; funext a w
    rw [face_vset cx h]
    congr 1; funext ρ w
    congr 1
    · funext ρ w
      rw [face_vget cx h]
      congr 1; funext a w
      rw [face_evalE cx h]
      rfl
    · funext ρ w
      rw [face_evalB callF zi n body]
      congr 1; funext a w
      congr 1; funext ρ w
      rw [face_vget cx h]
      congr 1; funext a w
      show (Sem.binaryV cx.fl _ _ _ _).bind _ = (Sem.binaryV cx.fl _ _ _ _).bind _
      congr 1; funext a w
      rw [face_vset cx h]
  | .ret _ none, ρ, w => by unfold evalS; rfl
  | .ret _ (some e), ρ, w => by
    unfold evalS
    rw [face_evalE cx h]
theorem face_evalB (callF : CallF) (zi : Ref → Bool) (n : Nat) : ∀ (b : List (Stmt Ref)) (ρ : Vars) (w : State),
    evalB (cx.withProg p) callF zi n b ρ w = evalB (cx.withProg q) callF zi n b ρ w
  | [], ρ, w => by unfold evalB; rfl
  | s :: ss, ρ, w => by
    unfold evalB
    rw [face_evalS callF zi n s]
    congr 1; funext a w
    congr 1; funext ρ w
    rw [face_evalB callF zi n ss]
end

end

/-- Two lists element by element. -/
inductive Pairs {α β : Type} (R : α → β → Prop) : List α → List β → Prop
  | nil : Pairs R [] []
  | cons {a : α} {b : β} {l : List α} {m : List β} : R a b → Pairs R l m → Pairs R (a :: l) (b :: m)

/-- One initialiser for another that does the same. -/
inductive SameInit (cx : Ctx) (p : Prog Ref) : Option (Expr Ref) → Option (Expr Ref) → Prop
  | none : SameInit cx p none none
  | some {a b : Expr Ref} : (∀ callF ρ w, evalE (cx.withProg p) callF ρ a w = evalE (cx.withProg p) callF ρ b w) →
      SameInit cx p (some a) (some b)

theorem SameInit.refl (cx : Ctx) (p : Prog Ref) : ∀ o, SameInit cx p o o
  | .none => .none
  | .some _ => .some fun _ _ _ => rfl

/-- One function for another with the same arguments whose body does the same, one variable for
another whose initialiser does the same. -/
structure SameItem (cx : Ctx) (p : Prog Ref) (x y : Item Ref) : Prop where
  face : x.face = y.face
  body : ∀ f g, x = .func f → y = .func g → ∀ callF zi n ρ w,
    evalB (cx.withProg p) callF zi n f.body ρ w = evalB (cx.withProg p) callF zi n g.body ρ w
  init : ∀ t t' o o', x = .var t false o → y = .var t' false o' → SameInit cx p o o'

theorem same_face {cx : Ctx} {p' : Prog Ref} {p q : Prog Ref}
    (h : Pairs (SameItem cx p') p q) : p.map Item.face = q.map Item.face := by
  induction h with
  | nil => rfl
  | cons h _ ih => simp [h.1, ih]

theorem pairs_get {α β : Type} {R : α → β → Prop} : ∀ {l : List α} {m : List β},
    Pairs R l m → ∀ (i : Nat) {a : α}, l[i]? = some a → ∃ b, m[i]? = some b ∧ R a b
  | _, _, .nil, i, a, h => by simp at h
  | _, _, .cons h1 h2, 0, a, h => by
    simp at h
    subst h
    exact ⟨_, by simp, h1⟩
  | _, _, .cons h1 h2, i + 1, a, h => by
    simp at h
    simpa using pairs_get h2 i h

/-- Calls do the same when all bodies do. -/
theorem same_calls {cx : Ctx} {p q : Prog Ref} (h : Pairs (SameItem cx p) p q)
    (zi : Nat → Ref → Bool) : ∀ n, callFn (cx.withProg q) zi n = callFn (cx.withProg p) zi n
  | 0 => by funext i args w; rfl
  | n + 1 => by
    have hf := same_face h
    funext i args w
    unfold callFn
    rw [same_calls h zi n]
    show (match q[i]? with | some (.func f) => _ | _ => _) = (match p[i]? with | some (.func f) => _ | _ => _)
    cases hp : p[i]? with
    | none =>
      have := face_get hf i
      rw [hp] at this
      cases hq : q[i]? with
      | none => rfl
      | some y => rw [hq] at this; cases this
    | some x =>
      obtain ⟨y, hy, h1, h2, h3⟩ := pairs_get h i hp
      rw [hy]
      rcases x with ⟨_, _ | _, _⟩ | _ | _ <;> rcases y with ⟨_, _ | _, _⟩ | _ | _ <;> simp_all [Item.face]
      rename_i f g
      rw [← face_evalB cx hf]

theorem same_initVars {cx : Ctx} {p q : Prog Ref} (hf : p.map Item.face = q.map Item.face) (callF : CallF) :
    ∀ (xs ys : List (Item Ref)) (i : Nat) (w : State), Pairs (SameItem cx p) xs ys →
      initVars (cx.withProg q) callF i ys w = initVars (cx.withProg p) callF i xs w
  | _, _, i, w, .nil => by unfold initVars; rfl
  | x :: xs, y :: ys, i, w, .cons h1 h2 => by
    have hx := h1.face
    cases x with
    | var t b e =>
      cases b with
      | true =>
        cases y with
        | var t' b' e' =>
          cases b' <;> simp [Item.face] at hx
          unfold initVars; exact same_initVars hf callF xs ys _ _ h2
        | _ => simp [Item.face] at hx
      | false =>
        cases y with
        | var t' b' e' =>
          cases b' <;> simp [Item.face] at hx
          cases h1.init _ _ _ _ rfl rfl with
          | none => unfold initVars; exact same_initVars hf callF xs ys _ _ h2
          | some he =>
            unfold initVars
            rw [← face_evalE cx hf, he]
            congr 1; funext v w
            rw [face_vset cx hf]
            congr 1; funext v w
            exact same_initVars hf callF xs ys _ _ h2
        | _ => simp [Item.face] at hx
    | func f =>
      cases y with
      | var t b e => cases b <;> simp [Item.face] at hx
      | syscall => simp [Item.face] at hx
      | func g => unfold initVars; exact same_initVars hf callF xs ys _ _ h2
    | syscall n a =>
      cases y with
      | var t b e => cases b <;> simp [Item.face] at hx
      | func => simp [Item.face] at hx
      | syscall => unfold initVars; exact same_initVars hf callF xs ys _ _ h2

/-- Starting the program does the same when all bodies do. -/
theorem same_startUp {cx : Ctx} {p q : Prog Ref} (h : Pairs (SameItem cx p) p q)
    (zi : Nat → Ref → Bool) (n : Nat) (w : State) :
    startUp (cx.withProg q) zi n w = startUp (cx.withProg p) zi n w := by
  have hf := same_face h
  unfold startUp
  rw [same_calls h]
  have hl : (cx.withProg q).slot (cx.withProg q).prog.length = (cx.withProg p).slot (cx.withProg p).prog.length := by
    rw [face_slot cx hf]
    show (cx.withProg q).slot q.length = (cx.withProg q).slot p.length
    rw [face_length hf]
  rw [hl]
  exact same_initVars hf _ p q 0 _ h

end Ccml
