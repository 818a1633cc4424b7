import Verif.Parser
import Verif.Grammar
import Verif.ParserTree
/-!
The parser accepts nothing but what the grammar describes, for token streams without unary operators
(which it treats in its own way, see C14).
-/
namespace Ccml.Only
open Ccml Ccml.Gram

/-- Tokens that end an operand. -/
def opEnd : Tok → Bool
  | .IDENT | .INT | .FLOAT | .STRING | .NONE | .RPAREN | .RBRACKET => true
  | _ => false

/-- No unary operators: no `not`, and every minus sign follows an operand.  `prev` is the type of the
token before. -/
def NoUnary : Tok → List Token → Prop
  | _, [] => True
  | prev, t :: ts => t.type ≠ .NOT ∧ (t.type = .SUB → opEnd prev = true) ∧ NoUnary t.type ts

instance decNoUnary : ∀ (prev : Tok) (ts : List Token), Decidable (NoUnary prev ts)
  | _, [] => isTrue trivial
  | prev, t :: ts =>
    have := decNoUnary t.type ts
    by unfold NoUnary; infer_instance

/-- The type of the last token. -/
def lastType : Tok → List Token → Tok
  | prev, [] => prev
  | _, t :: ts => lastType t.type ts

theorem NoUnary.drop : ∀ {us : List Token} {prev : Tok} {ts : List Token}, NoUnary prev (us ++ ts) →
    NoUnary (lastType prev us) ts
  | [], _, _, h => h
  | _ :: us, _, _, h => NoUnary.drop (us := us) h.2.2

theorem lastType_append : ∀ (us vs : List Token) (prev : Tok),
    lastType prev (us ++ vs) = lastType (lastType prev us) vs
  | [], _, _ => rfl
  | _ :: us, vs, _ => lastType_append us vs _

/-- What a run of `x` eats: from stacks `os` and `es`, and tokens with `H`, the tokens `us` are eaten. -/
def EatsIf {α : Type} (H : List Token → Prop) (x : PM α) (prev : Tok) (os : List Token) (es : List PExpr)
    (Q : α → List Token → List Token → List PExpr → Prop) : Prop :=
  ∀ s a s', H s.toks → s.ops = os → s.exps = es → NoUnary prev s.toks → x s = .ok (a, s') →
    ∃ us, s.toks = us ++ s'.toks ∧ s'.srcs = s.srcs ∧ Q a us s'.ops s'.exps

/-- Without a condition on the tokens. -/
abbrev Eats {α : Type} (x : PM α) (prev : Tok) (os : List Token) (es : List PExpr)
    (Q : α → List Token → List Token → List PExpr → Prop) : Prop :=
  EatsIf (fun _ => True) x prev os es Q

variable {α β : Type} {H : List Token → Prop} {prev : Tok} {os : List Token} {es : List PExpr}

theorem EatsIf.bind {x : PM α} {f : α → PM β} {Q : α → List Token → List Token → List PExpr → Prop}
    {R : β → List Token → List Token → List PExpr → Prop} (h : EatsIf H x prev os es Q)
    (hf : ∀ a us os' es', Q a us os' es' →
      Eats (f a) (lastType prev us) os' es' fun b vs os'' es'' => R b (us ++ vs) os'' es'') :
    EatsIf H (x >>= f) prev os es R := by
  intro s b s' hh ho he hn h2
  rw [pm_bind] at h2
  split at h2
  · cases h2
  · rename_i a s1 h1
    obtain ⟨us, k1, k2, k3⟩ := h s a s1 hh ho he hn h1
    rw [k1] at hn
    obtain ⟨vs, m1, m2, m3⟩ := hf a us _ _ k3 s1 b s' trivial rfl rfl hn.drop h2
    exact ⟨us ++ vs, by rw [k1, m1, List.append_assoc], m2.trans k2, m3⟩

theorem Eats.pure {a : α} {Q : α → List Token → List Token → List PExpr → Prop} (h : Q a [] os es) :
    Eats (Pure.pure a : PM α) prev os es Q := by
  intro s b s' _ ho he _ h2
  cases h2
  exact ⟨[], rfl, rfl, by rw [ho, he]; exact h⟩

theorem EatsIf.mono {x : PM α} {Q R : α → List Token → List Token → List PExpr → Prop}
    (h : EatsIf H x prev os es Q) (k : ∀ a us os' es', Q a us os' es' → R a us os' es') :
    EatsIf H x prev os es R :=
  fun s a s' hh ho he hn hx => let ⟨us, h1, h2, h3⟩ := h s a s' hh ho he hn hx; ⟨us, h1, h2, k _ _ _ _ h3⟩

theorem EatsIf.free {x : PM α} {Q : α → List Token → List Token → List PExpr → Prop}
    (h : Eats x prev os es Q) : EatsIf H x prev os es Q :=
  fun s a s' _ ho he hn hx => h s a s' trivial ho he hn hx

theorem fault_eats {f : Fault} {Q} : EatsIf H (pFault f : PM α) prev os es Q := by
  intro s a s' _ _ _ _ h; cases h

theorem pErrHere_eats {pre post : String} {t : Token} {Q} : EatsIf H (pErrHere pre t post : PM α) prev os es Q :=
  fun _ _ _ _ _ _ _ h => absurd h Made.errTok_ne

theorem popType_eats (ty : Tok) : Eats (popType ty) prev os es
    fun t us os' es' => us = [t] ∧ t.type = ty ∧ os' = os ∧ es' = es := by
  intro s a s' _ ho he _ h
  unfold popType at h
  split at h
  · cases h
  · rename_i t ts hs
    split at h
    · rename_i ht
      cases h
      exact ⟨[a], hs, rfl, rfl, ht, ho, he⟩
    · unfold unexpectedToken at h
      split at h <;> cases h

theorem popTok_eats : Eats popTok prev os es fun t us os' es' => us = [t] ∧ os' = os ∧ es' = es ∧
    t.type ≠ .NOT ∧ (t.type = .SUB → opEnd prev = true) := by
  intro s a s' _ ho he hn h
  unfold popTok at h
  split at h
  · cases h
  · rename_i t ts hs
    cases h
    rw [hs] at hn
    exact ⟨[a], hs, rfl, rfl, ho, he, hn.1, hn.2.1⟩

theorem popTok_head {t : Token} : EatsIf (fun l => l.head? = some t) popTok prev os es fun a us os' es' =>
    a = t ∧ us = [t] ∧ os' = os ∧ es' = es := by
  intro s a s' hh ho he hn h
  unfold popTok at h
  split at h
  · cases h
  · rename_i u ts hs
    cases h
    rw [hs] at hh
    cases hh
    exact ⟨[t], hs, rfl, rfl, rfl, ho, he⟩

theorem peek_eats {f : Token → PM α} {Q : α → List Token → List Token → List PExpr → Prop}
    (h : ∀ t, EatsIf (fun l => l.head? = some t) (f t) prev os es Q) : Eats (peekTok >>= f) prev os es Q := by
  intro s a s' _ ho he hn hx
  rw [pm_bind] at hx
  split at hx
  · cases hx
  · rename_i t s1 h1
    unfold peekTok at h1
    split at h1
    · cases h1
    · rename_i u ts hs
      cases h1
      exact h t s a s' (by rw [hs]; rfl) ho he hn hx

/-- What `found` may give. -/
def Hit (ty : Tok) (os : List Token) (es : List PExpr) (r : Option Token) (us os' : List Token)
    (es' : List PExpr) : Prop :=
  os' = os ∧ es' = es ∧ match r with
    | none => us = []
    | some t => us = [t] ∧ t.type = ty

theorem found_eats (ty : Tok) : Eats (found ty) prev os es (Hit ty os es) := by
  intro s a s' _ ho he _ h
  unfold found at h
  split at h
  · cases h
  · rename_i t ts hs
    split at h
    · rename_i ht
      cases h
      exact ⟨[t], hs, rfl, ho, he, rfl, ht⟩
    · cases h
      exact ⟨[], rfl, rfl, ho, he, rfl⟩

/-- `found` in two cases. -/
theorem found_bind {ty : Tok} {f : Option Token → PM α} {Q : α → List Token → List Token → List PExpr → Prop}
    (h1 : ∀ t, t.type = ty → Eats (f (some t)) ty os es fun b vs os' es' => Q b (t :: vs) os' es')
    (h2 : Eats (f none) prev os es Q) : Eats (found ty >>= f) prev os es Q := by
  refine (found_eats ty).bind fun r us os' es' hr => ?_
  obtain ⟨rfl, rfl, hr⟩ := hr
  cases r with
  | none => subst hr; exact h2
  | some t =>
    obtain ⟨rfl, ht⟩ := hr
    have := h1 t ht
    rw [← ht] at this
    exact this

theorem popType_bind {ty : Tok} {f : Token → PM α} {Q : α → List Token → List Token → List PExpr → Prop}
    (h : ∀ t, t.type = ty → Eats (f t) ty os es fun b vs os' es' => Q b (t :: vs) os' es') :
    Eats (popType ty >>= f) prev os es Q := by
  refine (popType_eats ty).bind fun t us os' es' hr => ?_
  obtain ⟨rfl, ht, rfl, rfl⟩ := hr
  have := h t ht
  rw [← ht] at this
  exact this

/-- `found` when the token is not there. -/
theorem not_found_bind {ty : Tok} {f : Option Token → PM α} {Q : α → List Token → List Token → List PExpr → Prop}
    (hty : ty = .NOT ∨ ty = .SUB ∧ opEnd prev = false) (h2 : Eats (f none) prev os es Q) :
    Eats (found ty >>= f) prev os es Q := by
  intro s a s' _ ho he hn hx
  rw [pm_bind] at hx
  split at hx
  · cases hx
  · rename_i r s1 h1
    unfold found at h1
    split at h1
    · cases h1
    · rename_i t ts hs
      rw [if_neg] at h1
      · cases h1
        exact h2 s a s' trivial ho he hn hx
      · intro e
        rw [hs] at hn
        rcases hty with rfl | ⟨rfl, hp⟩
        · exact hn.1 e
        · rw [hn.2.1 e] at hp; cases hp

theorem pushExp_bind {e : PExpr} {f : Unit → PM α} {Q : α → List Token → List Token → List PExpr → Prop}
    (h : Eats (f ()) prev os (e :: es) Q) : Eats (pushExp e >>= f) prev os es Q := by
  intro s a s' _ ho he hn hx
  rw [pm_bind] at hx
  exact h { s with exps := e :: s.exps } a s' trivial ho (by rw [he]) hn hx

theorem pushExp_eats {e : PExpr} {Q : Unit → List Token → List Token → List PExpr → Prop}
    (h : Q () [] os (e :: es)) : Eats (pushExp e) prev os es Q := by
  intro s a s' _ ho he hn hx
  cases hx
  exact ⟨[], rfl, rfl, by subst ho he; exact h⟩

theorem popExp_bind {e : PExpr} {g : Fault} {f : PExpr → PM α} {Q : α → List Token → List Token → List PExpr → Prop}
    (h : Eats (f e) prev os es Q) : Eats (popExp g >>= f) prev os (e :: es) Q := by
  intro s a s' _ ho he hn hx
  rw [pm_bind] at hx
  unfold popExp at hx
  rw [he] at hx
  exact h { s with exps := es } a s' trivial ho rfl hn hx

theorem popExp_eats {e : PExpr} {g : Fault} : Eats (popExp g) prev os (e :: es)
    fun a us os' es' => a = e ∧ us = [] ∧ os' = os ∧ es' = es := by
  intro s a s' _ ho he hn hx
  unfold popExp at hx
  rw [he] at hx
  cases hx
  exact ⟨[], rfl, rfl, rfl, rfl, ho, rfl⟩

/-! ### The operator stack -/

/-- A binary operator that waits for its right operand, with its left operand and the tokens of that. -/
structure Wait where
  op : Token
  l : PExpr
  ts : List Token

/-- The level of the operator on top. -/
def top : List Wait → Nat
  | [] => 0
  | x :: _ => opType x.op.type

/-- The waiting operators, the last one first: each binds tighter than the one before. -/
def Pend : List Wait → Prop
  | [] => True
  | x :: xs => level x.op.type = some (opType x.op.type) ∧ Gram.Reads (.expr (opType x.op.type) x.l) x.ts ∧
      top xs < opType x.op.type ∧ Pend xs

/-- Their tokens. -/
def flat : List Wait → List Token
  | [] => []
  | x :: xs => flat xs ++ (x.ts ++ [x.op])

theorem expr_mono {p q : Nat} {e : PExpr} {ts : List Token} (h : Gram.Reads (.expr q e) ts) (hp : p ≤ q) :
    Gram.Reads (.expr p e) ts := by
  cases h with
  | operand h => exact .operand h
  | bin ho hq hl hr => exact .bin ho (Nat.le_trans hp hq) hl hr

theorem expr_one {e : PExpr} {ts : List Token} (h : Gram.Reads (.expr 0 e) ts) : Gram.Reads (.expr 1 e) ts := by
  cases h with
  | operand h => exact .operand h
  | bin ho hq hl hr =>
    refine .bin ho ?_ hl hr
    revert ho
    rename_i q op _ _ _ _
    cases op.type <;> intro ho <;> cases ho <;> decide

theorem level_binary : ∀ t : Tok, level t = some (opType t) → t.isBinary = true := by
  intro t; cases t <;> decide

theorem level_of : ∀ t : Tok, t ≠ .NOT → 0 < opType t → level t = some (opType t) := by
  intro t; cases t <;> decide

theorem level_end : ∀ t : Tok, 0 < opType t → opEnd t = false := by
  intro t; cases t <;> decide

theorem reduceLoop_eats {prec : Nat} {low : List Token} {base : List PExpr} : ∀ (xs : List Wait) (e : PExpr)
    (us : List Token) {os' : List Token} {es' : List PExpr}, Pend xs → Gram.Reads (.expr (top xs + 1) e) us →
    Gram.Reads (.expr prec e) us →
    reduceLoop prec low.length (xs.map (·.op) ++ low) (e :: (xs.map (·.l) ++ base)) = .ok (os', es') →
    ∃ xs' e' us', os' = xs'.map (·.op) ++ low ∧ es' = e' :: (xs'.map (·.l) ++ base) ∧ Pend xs' ∧
      Gram.Reads (.expr prec e') us' ∧ (0 < prec → top xs' < prec) ∧ (prec = 0 → xs' = []) ∧
      flat xs' ++ us' = flat xs ++ us
  | [], e, us, os', es', _, _, hp, h => by
    have : reduceLoop prec low.length low (e :: base) = .ok (low, e :: base) := by
      cases low with
      | nil => rfl
      | cons o low => rw [reduceLoop, if_neg (by simp)]
    rw [List.map_nil, List.nil_append, List.map_nil, List.nil_append, this] at h
    cases h
    exact ⟨[], e, us, rfl, rfl, trivial, hp, fun h => h, fun _ => rfl, rfl⟩
  | x :: xs, e, us, os', es', hx, hr, hp, h => by
    obtain ⟨h1, h2, h3, h4⟩ := hx
    rw [List.map_cons, List.cons_append, List.map_cons, List.cons_append, reduceLoop, if_pos (by simp; omega)] at h
    split at h
    · rename_i hlt
      cases h
      exact ⟨x :: xs, e, us, rfl, rfl, ⟨h1, h2, h3, h4⟩, hp, fun _ => hlt, fun h => by omega, rfl⟩
    · rename_i hle
      have hred : reduceOp x.op (e :: x.l :: (xs.map (·.l) ++ base)) =
          .ok (.bin x.op x.l e :: (xs.map (·.l) ++ base)) := by
        unfold reduceOp
        rw [if_pos (level_binary _ h1)]
      rw [hred] at h
      have hb : ∀ p, p ≤ opType x.op.type → Gram.Reads (.expr p (.bin x.op x.l e)) (x.ts ++ x.op :: us) :=
        fun p hp => .bin h1 hp h2 hr
      obtain ⟨xs', e', us', k1, k2, k3, k4, k5, k6, k7⟩ := reduceLoop_eats xs (.bin x.op x.l e) (x.ts ++ x.op :: us)
        h4 (hb _ h3) (hb _ (by omega)) h
      refine ⟨xs', e', us', k1, k2, k3, k4, k5, k6, ?_⟩
      rw [k7, flat]
      simp

theorem opPush_bind {op : Token} {xs : List Wait} {e : PExpr} {ts low : List Token} {base : List PExpr}
    {f : Unit → PM α} {Q : α → List Token → List Token → List PExpr → Prop} (hx : Pend xs)
    (he : Gram.Reads (.opnd e) ts) (ho : level op.type = some (opType op.type)) (h0 : 0 < opType op.type)
    (h : ∀ xs', Pend xs' → flat xs' = flat xs ++ ts ++ [op] →
      Eats (f ()) prev (xs'.map (·.op) ++ low) (xs'.map (·.l) ++ base) Q) :
    Eats (opPush op low.length >>= f) prev (xs.map (·.op) ++ low) (e :: (xs.map (·.l) ++ base)) Q := by
  intro s a s' _ hos hes hn hr
  rw [pm_bind] at hr
  split at hr
  · cases hr
  · rename_i u s1 h1
    unfold opPush at h1
    rw [hos, hes] at h1
    split at h1
    · cases h1
    · rename_i os' es' hg
      cases h1
      obtain ⟨xs', e', us', rfl, rfl, k3, k4, k5, k6, k7⟩ := reduceLoop_eats xs e ts hx (.operand he) (.operand he) hg
      refine h (⟨op, e', us'⟩ :: xs') ⟨ho, k4, k5 h0, k3⟩ ?_
        { s with ops := op :: (xs'.map (·.op) ++ low), exps := e' :: (xs'.map (·.l) ++ base) } a s' trivial rfl rfl
        hn hr
      rw [flat, ← k7]
      simp

/-! ### Expressions -/

/-- What is on the stacks after an expression: waiting operators and one operand. -/
def After (xs : List Wait) (low : List Token) (base : List PExpr) (ts : List Token) (us os' : List Token)
    (es' : List PExpr) : Prop :=
  ∃ xs' e' us', os' = xs'.map (·.op) ++ low ∧ es' = e' :: (xs'.map (·.l) ++ base) ∧ Pend xs' ∧
    Gram.Reads (.opnd e') us' ∧ flat xs' ++ us' = flat xs ++ ts ++ us

/-- The statements about the functions for expressions, at one amount of fuel. -/
structure Exprs (n : Nat) : Prop where
  ex : ∀ xs low base prev, Pend xs → opEnd prev = false →
    Eats (parseExprEx n low.length) prev (xs.map (·.op) ++ low) (xs.map (·.l) ++ base)
      fun _ us os' es' => After xs low base [] us os' es'
  tail : ∀ xs low base prev e ts, Pend xs → Gram.Reads (.opnd e) ts →
    Eats (parseTail n low.length) prev (xs.map (·.op) ++ low) (e :: (xs.map (·.l) ++ base))
      fun _ us os' es' => After xs low base ts us os' es'
  post : ∀ prev os es e ts, Gram.Reads (.opnd e) ts → Eats (parsePostfix n) prev os (e :: es)
    fun _ us os' es' => os' = os ∧ ∃ e', es' = e' :: es ∧ Gram.Reads (.opnd e') (ts ++ us)
  lhs : ∀ prev os es, Eats (parseLhs n) prev os es
    fun _ us os' es' => os' = os ∧ ∃ e, es' = e :: es ∧ Gram.Reads (.opnd e) us
  expr : ∀ prev os es, opEnd prev = false → Eats (parseExpr n) prev os es
    fun e us os' es' => os' = os ∧ es' = es ∧ Gram.Reads (.whole e) us
  list : ∀ prev os es, opEnd prev = false → Eats (parseExprList n) prev os es
    fun l us os' es' => os' = os ∧ es' = es ∧ Gram.Reads (.exprs l) us
  args : ∀ prev os es, opEnd prev = false → Eats (parseCallArgs n) prev os es
    fun l us os' es' => os' = os ∧ es' = es ∧ ∃ ts r, us = ts ++ [r] ∧ r.type = .RPAREN ∧ Gram.Reads (.args l) ts

theorem literal_reads {t : Token} {e : PExpr} (h : literalNode t = some e) : Gram.Reads (.opnd e) [t] := by
  unfold literalNode at h
  split at h <;> cases h
  all_goals rename_i hk
  · exact .literal (.int t hk)
  · exact .literal (.float t hk)
  · exact .literal (.str t hk)
  · exact .literal (.none t hk)

theorem exprs : ∀ n, Exprs n
  | 0 => by
    constructor <;> intros <;>
      simp only [parseExprEx, parseTail, parsePostfix, parseLhs, parseExpr, parseExprList, parseCallArgs] <;>
      exact fault_eats
  | n + 1 => by
    have ih := exprs n
    constructor
    · intro xs low base prev hx hp
      rw [parseExprEx]
      refine not_found_bind (.inl rfl) ?_
      refine not_found_bind (.inr ⟨rfl, hp⟩) ?_
      refine (ih.lhs _ _ _).bind fun _ us os' es' h => ?_
      obtain ⟨rfl, e, rfl, he⟩ := h
      refine (ih.post _ _ _ e us he).bind fun _ vs os' es' h => ?_
      obtain ⟨rfl, e', rfl, he'⟩ := h
      refine (ih.tail xs low base _ e' (us ++ vs) hx he').mono fun _ ws os' es' h => ?_
      obtain ⟨xs', e2, us', k1, k2, k3, k4, k5⟩ := h
      exact ⟨xs', e2, us', k1, k2, k3, k4, by rw [k5]; simp⟩
    · intro xs low base prev e ts hx he
      rw [parseTail]
      intro s a s' _ hos hes hn hr
      rw [pm_bind] at hr
      split at hr
      · cases hr
      · rename_i b s1 h1
        have hb : s1 = s ∧ ∃ t us, s.toks = t :: us ∧ b = decide (opType t.type > 0) := by
          unfold isOperator at h1
          rw [pm_bind] at h1
          split at h1
          · cases h1
          · rename_i ty s2 h2
            unfold nextType at h2
            split at h2
            · cases h2
            · rename_i t us hs
              cases h2
              cases h1
              exact ⟨rfl, t, us, hs, rfl⟩
        obtain ⟨rfl, t, us, hs, rfl⟩ := hb
        by_cases hpos : opType t.type > 0
        · rw [decide_eq_true hpos, if_pos rfl] at hr
          have hnn := hn
          rw [hs] at hnn
          have hlev := level_of _ hnn.1 hpos
          refine EatsIf.bind (H := fun l => l.head? = some t) (Q := fun a us os' es' => a = t ∧ us = [t] ∧
            os' = xs.map (·.op) ++ low ∧ es' = e :: (xs.map (·.l) ++ base))
            (R := fun _ us os' es' => After xs low base ts us os' es') popTok_head ?_ s1 a s' (by rw [hs]; rfl)
            hos hes hn hr
          rintro _ _ _ _ ⟨rfl, rfl, rfl, rfl⟩
          refine opPush_bind hx he hlev hpos fun xs' hx' hf => ?_
          refine (ih.ex xs' low base _ hx' (level_end _ hpos)).mono fun _ ws os' es' h => ?_
          obtain ⟨ys, e2, us', k1, k2, k3, k4, k5⟩ := h
          exact ⟨ys, e2, us', k1, k2, k3, k4, by rw [k5, hf]; simp⟩
        · rw [decide_eq_false hpos, if_neg (by simp)] at hr
          cases hr
          exact ⟨[], rfl, rfl, xs, e, ts, hos, hes, hx, he, by simp⟩
    · intro prev os es e ts he
      rw [parsePostfix]
      refine found_bind (fun t ht => ?_) (found_bind (fun t ht => ?_) ?_)
      · refine popExp_bind ?_
        refine (ih.expr _ _ _ (by decide)).bind fun i us os' es' h => ?_
        obtain ⟨rfl, rfl, hi⟩ := h
        refine pushExp_bind (popType_bind fun r hr => ?_)
        refine (ih.post _ _ _ _ _ (.deref he ht hi hr)).mono fun _ vs os' es' h => ?_
        obtain ⟨rfl, e', rfl, h⟩ := h
        refine ⟨rfl, e', rfl, ?_⟩
        simpa using h
      · refine (ih.args _ _ _ (by decide)).bind fun as us os' es' h => ?_
        obtain ⟨rfl, rfl, us, r, rfl, hr, ha⟩ := h
        refine popExp_bind (pushExp_bind ?_)
        refine (ih.post _ _ _ _ _ (.call he ht ha hr)).mono fun _ vs os' es' h => ?_
        obtain ⟨rfl, e', rfl, h⟩ := h
        refine ⟨rfl, e', rfl, ?_⟩
        simpa using h
      · exact Eats.pure ⟨rfl, e, rfl, by simpa using he⟩
    · intro prev os es
      rw [parseLhs]
      refine found_bind (fun t ht => ?_) (found_bind (fun t ht => ?_) (found_bind (fun t ht => ?_) ?_))
      · refine (ih.list _ _ _ (by decide)).bind fun l us os' es' h => ?_
        obtain ⟨rfl, rfl, hl⟩ := h
        refine pushExp_bind (popType_bind fun r hr => Eats.pure ⟨rfl, _, rfl, ?_⟩)
        exact .arr ht hl hr
      · refine (ih.expr _ _ _ (by decide)).bind fun l us os' es' h => ?_
        obtain ⟨rfl, rfl, hl⟩ := h
        refine pushExp_bind (popType_bind fun r hr => Eats.pure ⟨rfl, _, rfl, ?_⟩)
        exact .paren ht hl hr
      · refine found_bind (fun d hd => popType_bind fun m hm => pushExp_eats ⟨rfl, _, rfl, .member ht hd hm⟩)
          (pushExp_eats ⟨rfl, _, rfl, .ident ht⟩)
      · refine popTok_eats.bind ?_
        rintro t _ _ _ ⟨rfl, rfl, rfl, _⟩
        cases hl : literalNode t with
        | some e => exact pushExp_eats ⟨rfl, e, rfl, literal_reads hl⟩
        | none => exact pErrHere_eats
    · intro prev os es hp
      rw [parseExpr]
      intro s a s' _ ho he hn hr
      rw [pm_bind] at hr
      have := (EatsIf.bind (R := fun e us os' es' => os' = os ∧ es' = es ∧ Gram.Reads (.whole e) us)
        (f := fun _ => opPopAll os.length >>= fun _ => popExp .assert) (ih.ex [] os es prev trivial hp) ?_) s a s'
        trivial ho he hn (by subst ho; exact hr)
      · exact this
      · rintro _ us os' es' ⟨xs, e, us', rfl, rfl, k3, k4, k5⟩
        intro s a s' _ ho he hn hr
        rw [pm_bind] at hr
        split at hr
        · cases hr
        · rename_i u s1 h1
          unfold opPopAll at h1
          rw [ho, he] at h1
          split at h1
          · cases h1
          · rename_i os2 es2 hg
            cases h1
            obtain ⟨ys, e', us2, rfl, rfl, m3, m4, m5, m6, m7⟩ := reduceLoop_eats xs e us' k3 (.operand k4)
              (.operand k4) hg
            cases m6 rfl
            cases hr
            refine ⟨[], rfl, rfl, rfl, rfl, ?_⟩
            have : us2 = us ++ [] := by
              have := m7.trans k5
              simpa [flat] using this
            rw [← this]
            exact .plain (expr_one m4)
    · intro prev os es hp
      rw [parseExprList]
      refine (ih.expr _ _ _ hp).bind fun e us os' es' h => ?_
      obtain ⟨rfl, rfl, he⟩ := h
      refine found_bind (fun c hc => ?_) (Eats.pure ⟨rfl, rfl, ?_⟩)
      · refine (ih.list _ _ _ (by decide)).bind fun l vs os' es' h => ?_
        obtain ⟨rfl, rfl, hl⟩ := h
        refine Eats.pure ⟨rfl, rfl, ?_⟩
        simpa using Gram.Reads.more he hc hl
      · simpa using Gram.Reads.one he
    · intro prev os es hp
      rw [parseCallArgs]
      refine found_bind (fun c hc => Eats.pure ⟨rfl, rfl, [], c, rfl, hc, .noArgs⟩) ?_
      refine (ih.list _ _ _ hp).bind fun l us os' es' h => ?_
      obtain ⟨rfl, rfl, hl⟩ := h
      exact popType_bind fun r hr => Eats.pure ⟨rfl, rfl, us, r, by simp, hr, .someArgs hl⟩

/-! ### Statements -/

theorem expr_bind {n : Nat} {f : PExpr → PM α} {Q : α → List Token → List Token → List PExpr → Prop}
    (hp : opEnd prev = false) (h : ∀ e us, Gram.Reads (.whole e) us →
      Eats (f e) (lastType prev us) os es fun b vs os' es' => Q b (us ++ vs) os' es') :
    Eats (parseExpr n >>= f) prev os es Q := by
  refine ((exprs n).expr _ _ _ hp).bind fun e us os' es' hr => ?_
  obtain ⟨rfl, rfl, he⟩ := hr
  exact h e us he

theorem expr_last {n : Nat} {f : PExpr → α} {Q : α → List Token → List Token → List PExpr → Prop}
    (hp : opEnd prev = false) (h : ∀ e us, Gram.Reads (.whole e) us → Q (f e) us os es) :
    Eats (parseExpr n >>= fun e => Pure.pure (f e)) prev os es Q :=
  expr_bind hp fun e us he => Eats.pure (by rw [List.append_nil]; exact h e us he)

/-- Statements leave the stacks alone. -/
abbrev EatsS (x : PM α) (prev : Tok) (Q : α → List Token → Prop) : Prop :=
  ∀ os es, Eats x prev os es fun a us os' es' => os' = os ∧ es' = es ∧ Q a us

theorem declVar_eats (n : Nat) {Q : Token × Option PExpr → List Token → Prop}
    (h1 : ∀ name, name.type = .IDENT → Q (name, none) [name])
    (h2 : ∀ name a e ts, name.type = .IDENT → a.type = .ASSIGN → Gram.Reads (.whole e) ts →
      Q (name, some e) (name :: a :: ts)) : EatsS (parseDeclVar n) prev Q := by
  intro os es
  unfold parseDeclVar
  refine popType_bind fun name hn => found_bind (fun a ha => ?_) (Eats.pure ⟨rfl, rfl, h1 name hn⟩)
  exact expr_last (by decide) fun e us he => ⟨rfl, rfl, h2 name a e us hn ha he⟩

theorem compound_eats (n : Nat) {t op : Token} (ht : t.type = .IDENT)
    (ho : op.type = .ADD ∨ op.type = .SUB ∨ op.type = .MUL ∨ op.type = .DIV) :
    EatsIf (fun l => l.head? = some op) (parseCompound n t) .IDENT os es
      fun s us os' es' => os' = os ∧ es' = es ∧ ReadsS (.stmt s) (t :: us) := by
  unfold parseCompound
  refine popTok_head.bind ?_
  rintro _ _ _ _ ⟨rfl, rfl, rfl, rfl⟩
  refine found_bind (fun a ha => ?_) ?_
  · exact expr_last (by decide) fun e us he => ⟨rfl, rfl, .compound ht ho ha he⟩
  · intro s a s' _ _ _ _ h
    cases h

theorem named_eats (n : Nat) {t : Token} (ht : t.type = .IDENT) :
    EatsS (parseNamed n t) .IDENT fun s us => ReadsS (.stmt s) (t :: us) := by
  intro os es
  unfold parseNamed
  refine peek_eats fun p => ?_
  split
  · rename_i hp; exact compound_eats n ht (.inl hp)
  · rename_i hp; exact compound_eats n ht (.inr (.inl hp))
  · rename_i hp; exact compound_eats n ht (.inr (.inr (.inl hp)))
  · rename_i hp; exact compound_eats n ht (.inr (.inr (.inr hp)))
  · refine EatsIf.free ?_
    unfold parseMemberAssign
    refine popType_bind fun d hd => popType_bind fun m hm => popType_bind fun a ha => ?_
    exact expr_last (by decide) fun e us he => ⟨rfl, rfl, .assignMem ht hd hm ha he⟩
  · rename_i hp
    refine popTok_head.bind ?_
    rintro _ _ _ _ ⟨rfl, rfl, rfl, rfl⟩
    unfold parseAssign
    rw [lastType, lastType, hp]
    exact expr_last (by decide) fun e us he => ⟨rfl, rfl, .assign ht hp he⟩
  · rename_i hp
    refine popTok_head.bind ?_
    rintro _ _ _ _ ⟨rfl, rfl, rfl, rfl⟩
    rw [lastType, lastType, hp]
    refine ((exprs n).args _ _ _ (by decide)).bind fun as us os' es' h => ?_
    obtain ⟨rfl, rfl, ts, r, rfl, hr, ha⟩ := h
    refine Eats.pure ⟨rfl, rfl, ?_⟩
    simpa using StmtOf.call ht hp ha hr
  · rename_i hp
    refine popTok_head.bind ?_
    rintro _ _ _ _ ⟨rfl, rfl, rfl, rfl⟩
    unfold parseArraySet
    rw [lastType, lastType, hp]
    refine expr_bind (by decide) fun i us hi => popType_bind fun r hr => popType_bind fun a ha => ?_
    refine expr_last (by decide) fun e vs he => ⟨rfl, rfl, ?_⟩
    simpa using StmtOf.assignArr ht hp hi hr ha he
  · exact pErrHere_eats

theorem return_eats (n : Nat) {t : Token} (ht : t.type = .RETURN) :
    EatsS (parseReturn n t) .RETURN fun s us => ReadsS (.stmt s) (t :: us) := by
  intro os es
  unfold parseReturn
  refine peek_eats fun p => EatsIf.free ?_
  split
  · exact Eats.pure ⟨rfl, rfl, .ret ht⟩
  · exact expr_last (by decide) fun e us he => ⟨rfl, rfl, .retVal ht he⟩

theorem condition_bind {n : Nat} {f : PExpr → PM α} {Q : α → List Token → List Token → List PExpr → Prop}
    (h : ∀ l c r e ts, l.type = .LPAREN → Gram.Reads (.whole c) ts → r.type = .RPAREN → e.type = .EOL →
      Eats (f c) .EOL os es fun b vs os' es' => Q b (l :: (ts ++ (r :: e :: vs))) os' es') :
    Eats (parseCondition n >>= f) prev os es Q := by
  unfold parseCondition
  simp only [bind_assoc, pure_bind]
  refine popType_bind fun l hl => expr_bind (by decide) fun c ts hc => popType_bind fun r hr =>
    popType_bind fun e he => ?_
  exact (h l c r e ts hl hc hr he).mono fun b vs os' es' hq => by simpa using hq

theorem forHead_bind {n : Nat} {f : Token × PExpr × PExpr → PM α}
    {Q : α → List Token → List Token → List PExpr → Prop}
    (h : ∀ l name a x o y r e ts us, l.type = .LPAREN → name.type = .IDENT → a.type = .ASSIGN →
      Gram.Reads (.whole x) ts → o.type = .TO → Gram.Reads (.whole y) us → r.type = .RPAREN → e.type = .EOL →
      Eats (f (name, x, y)) .EOL os es fun b vs os' es' =>
        Q b (l :: name :: a :: (ts ++ (o :: (us ++ (r :: e :: vs))))) os' es') :
    Eats (parseForHead n >>= f) prev os es Q := by
  unfold parseForHead
  simp only [bind_assoc, pure_bind]
  refine popType_bind fun l hl => popType_bind fun name hn => popType_bind fun a ha =>
    expr_bind (by decide) fun x ts hx => popType_bind fun o ho => expr_bind (by decide) fun y us hy =>
    popType_bind fun r hr => popType_bind fun e he => ?_
  exact (h l name a x o y r e ts us hl hn ha hx ho hy hr he).mono fun b vs os' es' hq => by simpa using hq

theorem skip_eols : ∀ (ts : List Token) (l : SrcLine) {us : List Token} {l' : SrcLine},
    skipEols.go ts l = .ok (us, l') → ∃ vs, Eols vs ∧ ts = vs ++ us ∧ ∀ t ∈ us.head?, t.type ≠ .EOL
  | [], l, us, l', h => by rw [skipEols.go] at h; cases h
  | t :: ts, l, us, l', h => by
    rw [skipEols.go] at h
    split at h
    · rename_i ht
      obtain ⟨vs, h1, h2, h3⟩ := skip_eols ts _ h
      refine ⟨t :: vs, ?_, by rw [h2]; rfl, h3⟩
      intro u hu
      rcases List.mem_cons.1 hu with rfl | hu
      · exact ht
      · exact h1 u hu
    · rename_i ht
      cases h
      refine ⟨[], (fun _ h => by cases h), rfl, ?_⟩
      rintro u hu
      cases hu
      exact ht

/-- After the ends of lines comes something else. -/
def NotEol (l : List Token) : Prop := ∀ t ∈ l.head?, t.type ≠ .EOL

theorem skip_bind {f : Unit → PM α} {Q : α → List Token → List Token → List PExpr → Prop}
    (h : ∀ vs, Eols vs → EatsIf NotEol (f ()) (lastType prev vs) os es fun b us os' es' => Q b (vs ++ us) os' es') :
    Eats (skipEols >>= f) prev os es Q := by
  intro s a s' _ ho he hn hx
  rw [pm_bind] at hx
  unfold skipEols at hx
  cases hg : skipEols.go s.toks s.line with
  | error e => rw [hg] at hx; cases hx
  | ok r =>
    obtain ⟨ts, l⟩ := r
    rw [hg] at hx
    obtain ⟨vs, k1, k2, k3⟩ := skip_eols _ _ hg
    rw [k2] at hn
    obtain ⟨us, m1, m2, m3⟩ := h vs k1 { s with toks := ts, line := l } a s' k3 ho he hn.drop hx
    refine ⟨vs ++ us, ?_, m2, m3⟩
    rw [k2, List.append_assoc, ← m1]

/-- A run that ends before something other than an end of line. -/
def Ends (x : PM α) : Prop := ∀ s a s', x s = .ok (a, s') → NotEol s'.toks

theorem Ends.bind {x : PM α} {f : α → PM β} (h : ∀ a, Ends (f a)) : Ends (x >>= f) := by
  intro s b s' h2
  rw [pm_bind] at h2
  split at h2
  · cases h2
  · exact h _ _ _ _ h2

theorem skip_ends {a : α} : Ends (skipEols >>= fun _ => (Pure.pure a : PM α)) := by
  intro s b s' hx
  rw [pm_bind] at hx
  unfold skipEols at hx
  cases hg : skipEols.go s.toks s.line with
  | error e => rw [hg] at hx; cases hx
  | ok r =>
    obtain ⟨ts, l⟩ := r
    rw [hg] at hx
    obtain ⟨vs, k1, k2, k3⟩ := skip_eols _ _ hg
    cases hx
    exact k3

theorem stmt_ends (n : Nat) : Ends (parseStmt n) := by
  cases n with
  | zero => rw [parseStmt]; intro s a s' h; cases h
  | succ n =>
    rw [parseStmt]
    exact Ends.bind fun _ => Ends.bind fun _ => Ends.bind fun _ => Ends.bind fun _ => skip_ends

/-- A statement with the blank lines around it. -/
def Lines (s : PStmt) (us : List Token) : Prop :=
  ∃ before ts e after, us = before ++ (ts ++ e :: after) ∧ Eols before ∧ ReadsS (.stmt s) ts ∧ e.type = .EOL ∧
    Eols after

theorem stmt_bind {n : Nat} {f : PStmt → PM α} {Q : α → List Token → List Token → List PExpr → Prop}
    (hs : ∀ prev, EatsS (parseStmt n) prev Lines)
    (h : ∀ s before ts e after, Eols before → ReadsS (.stmt s) ts → e.type = .EOL → Eols after →
      (H = NotEol → before = []) →
      EatsIf NotEol (f s) (lastType prev (before ++ (ts ++ e :: after))) os es
        fun b vs os' es' => Q b (before ++ (ts ++ e :: (after ++ vs))) os' es') :
    EatsIf H (parseStmt n >>= f) prev os es Q := by
  intro s b s' hh ho he hn h2
  rw [pm_bind] at h2
  split at h2
  · cases h2
  · rename_i a s1 h1
    have hend := stmt_ends n s a s1 h1
    obtain ⟨us, k1, k2, k3, k4, before, ts, e, after, rfl, m1, m2, m3, m4⟩ := hs prev os es s a s1 trivial ho he hn h1
    rw [k1] at hn
    obtain ⟨vs, g1, g2, g3⟩ := h a before ts e after m1 m2 m3 m4 (fun e => by
      subst e
      cases before with
      | nil => rfl
      | cons t before =>
        rw [k1] at hh
        exact absurd (m1 t (List.mem_cons_self ..)) (hh t rfl)) s1 b s' hend k3 k4 hn.drop h2
    exact ⟨before ++ (ts ++ e :: after) ++ vs, by rw [k1, g1]; simp, g2.trans k2, by simpa using g3⟩

/-- What ends the first part of an `if`. -/
def ThenEnd (flag : Bool) (us : List Token) : Prop :=
  match flag with
  | false => ∃ e, e.type = .END ∧ us = [e]
  | true => ∃ l m, l.type = .ELSE ∧ m.type = .EOL ∧ us = [l, m]

theorem block_body {ss : List PStmt} {ts : List Token} (h : ReadsS (.block ss) ts) : ReadsS (.body ss) ts :=
  .body (before := []) (fun _ h => by cases h) (fun _ => rfl) h

/-- The statements about the functions for statements, at one amount of fuel. -/
structure Stmts (n : Nat) : Prop where
  stmt : ∀ prev, EatsS (parseStmt n) prev Lines
  kind : ∀ t, EatsS (parseStmtKind n t) t.type fun s us => ReadsS (.stmt s) (t :: us)
  block0 : ∀ prev os es, EatsIf NotEol (parseBlock n) prev os es fun ss us os' es' => os' = os ∧ es' = es ∧
    ∃ ts e, us = ts ++ [e] ∧ e.type = .END ∧ ReadsS (.block ss) ts
  block : ∀ prev, EatsS (parseBlock n) prev fun ss us =>
    ∃ ts e, us = ts ++ [e] ∧ e.type = .END ∧ ReadsS (.body ss) ts
  thn0 : ∀ prev os es, EatsIf NotEol (parseThen n) prev os es fun r us os' es' => os' = os ∧ es' = es ∧
    ∃ ts vs, us = ts ++ vs ∧ ThenEnd r.2 vs ∧ ReadsS (.block r.1) ts
  thn : ∀ prev, EatsS (parseThen n) prev fun r us =>
    ∃ ts vs, us = ts ++ vs ∧ ThenEnd r.2 vs ∧ ReadsS (.body r.1) ts

theorem found_bindIf {ty : Tok} {f : Option Token → PM α} {Q : α → List Token → List Token → List PExpr → Prop}
    (h1 : ∀ t, t.type = ty → Eats (f (some t)) ty os es fun b vs os' es' => Q b (t :: vs) os' es')
    (h2 : EatsIf H (f none) prev os es Q) : EatsIf H (found ty >>= f) prev os es Q := by
  intro s b s' hh ho he hn hx
  rw [pm_bind] at hx
  split at hx
  · cases hx
  · rename_i a s1 hs1
    unfold found at hs1
    split at hs1
    · cases hs1
    · rename_i t ts hs
      split at hs1
      · rename_i ht
        cases hs1
        rw [hs] at hn
        obtain ⟨us, g1, g2, g3⟩ := h1 t ht { s with toks := ts, line := t.line } b s' trivial ho he (ht ▸ hn.2.2) hx
        exact ⟨t :: us, by rw [hs]; exact congrArg _ g1, g2, g3⟩
      · cases hs1
        exact h2 s b s' hh ho he hn hx

theorem stmts : ∀ n, Stmts n
  | 0 => by
    constructor <;> intros <;> simp only [parseStmt, parseStmtKind, parseBlock, parseThen]
    all_goals first
      | exact fault_eats
      | (intro os es; exact fault_eats)
  | n + 1 => by
    have ih := stmts n
    constructor
    · intro prev os es
      rw [parseStmt]
      refine skip_bind fun before hb => EatsIf.free ?_
      refine popTok_eats.bind ?_
      rintro t _ _ _ ⟨rfl, rfl, rfl, -⟩
      refine (ih.kind t _ _).bind ?_
      rintro s us _ _ ⟨rfl, rfl, hs⟩
      refine popType_bind fun e he => skip_bind fun after ha => EatsIf.free (Eats.pure ⟨rfl, rfl, ?_⟩)
      exact ⟨before, t :: us, e, after, by simp, hb, hs, he, ha⟩
    · intro t os es
      rw [parseStmtKind]
      generalize hty : t.type = ty
      cases ty
      case VAR =>
        refine (declVar_eats n (Q := fun r us => ReadsS (.stmt (.var r.1 () r.2)) (t :: us))
          (fun name hn => .var hty hn) (fun name a e ts hn ha he => .varInit hty hn ha he) _ _).bind ?_
        rintro ⟨name, e⟩ us _ _ ⟨rfl, rfl, h⟩
        exact Eats.pure ⟨rfl, rfl, by simpa using h⟩
      case IDENT => exact named_eats n hty _ _
      case IF =>
        refine condition_bind fun l c r e ts hl hc hr he => ?_
        refine (ih.thn _ _ _).bind ?_
        rintro ⟨thn, flag⟩ us _ _ ⟨rfl, rfl, bs, vs, rfl, hv, hb⟩
        cases flag with
        | true =>
          obtain ⟨els, m, h1, h2, rfl⟩ := hv
          refine (ih.block _ _ _).bind ?_
          rintro ss us _ _ ⟨rfl, rfl, ds, e2, rfl, he2, hd⟩
          refine Eats.pure ⟨rfl, rfl, ?_⟩
          simpa using StmtOf.ifElse hty hl hc hr he hb h1 h2 hd he2
        | false =>
          obtain ⟨e2, h1, rfl⟩ := hv
          refine Eats.pure ⟨rfl, rfl, ?_⟩
          simpa using StmtOf.ifS hty hl hc hr he hb h1
      case WHILE =>
        refine condition_bind fun l c r e ts hl hc hr he => ?_
        refine (ih.block _ _ _).bind ?_
        rintro ss us _ _ ⟨rfl, rfl, ds, e2, rfl, he2, hd⟩
        refine Eats.pure ⟨rfl, rfl, ?_⟩
        simpa using StmtOf.whileS hty hl hc hr he hd he2
      case FOR =>
        refine forHead_bind fun l name a x o y r e ts us hl hn ha hx ho hy hr he => ?_
        refine (ih.block _ _ _).bind ?_
        rintro ss us _ _ ⟨rfl, rfl, ds, e2, rfl, he2, hd⟩
        refine Eats.pure ⟨rfl, rfl, ?_⟩
        simpa using StmtOf.forS hty hl hn ha hx ho hy hr he hd he2
      case RETURN => exact return_eats n hty _ _
      all_goals exact pErrHere_eats
    · intro prev os es
      rw [parseBlock]
      refine found_bindIf (fun e he => Eats.pure ⟨rfl, rfl, [], e, rfl, he, .nil⟩) ?_
      refine stmt_bind ih.stmt fun s before ts e after hb hs he ha hz => ?_
      refine EatsIf.bind (ih.block0 _ _ _) ?_
      rintro ss us _ _ ⟨rfl, rfl, ds, e2, rfl, he2, hd⟩
      cases hz rfl
      exact Eats.pure ⟨rfl, rfl, ts ++ (e :: (after ++ ds)), e2, by simp, he2, .cons hs he ha hd⟩
    · intro prev os es
      rw [parseBlock]
      refine found_bindIf (fun e he => Eats.pure ⟨rfl, rfl, [], e, rfl, he, block_body .nil⟩) ?_
      refine stmt_bind ih.stmt fun s before ts e after hb hs he ha hz => ?_
      refine EatsIf.bind (ih.block0 _ _ _) ?_
      rintro ss us _ _ ⟨rfl, rfl, ds, e2, rfl, he2, hd⟩
      refine Eats.pure ⟨rfl, rfl, before ++ (ts ++ (e :: (after ++ ds))), e2, by simp, he2, ?_⟩
      exact .body hb (fun h => by cases h) (.cons hs he ha hd)
    · intro prev os es
      rw [parseThen]
      refine found_bindIf (fun e he => Eats.pure ⟨rfl, rfl, [], [e], rfl, ⟨e, he, rfl⟩, .nil⟩) ?_
      refine found_bindIf (fun e he => popType_bind fun m hm =>
        Eats.pure ⟨rfl, rfl, [], [e, m], rfl, ⟨e, m, he, hm, rfl⟩, .nil⟩) ?_
      refine stmt_bind ih.stmt fun s before ts e after hb hs he ha hz => ?_
      refine EatsIf.bind (ih.thn0 _ _ _) ?_
      rintro ⟨ss, flag⟩ us _ _ ⟨rfl, rfl, ds, vs, rfl, he2, hd⟩
      cases hz rfl
      exact Eats.pure ⟨rfl, rfl, ts ++ (e :: (after ++ ds)), vs, by simp, he2, .cons hs he ha hd⟩
    · intro prev os es
      rw [parseThen]
      refine found_bindIf (fun e he => Eats.pure ⟨rfl, rfl, [], [e], rfl, ⟨e, he, rfl⟩, block_body .nil⟩) ?_
      refine found_bindIf (fun e he => popType_bind fun m hm =>
        Eats.pure ⟨rfl, rfl, [], [e, m], rfl, ⟨e, m, he, hm, rfl⟩, block_body .nil⟩) ?_
      refine stmt_bind ih.stmt fun s before ts e after hb hs he ha hz => ?_
      refine EatsIf.bind (ih.thn0 _ _ _) ?_
      rintro ⟨ss, flag⟩ us _ _ ⟨rfl, rfl, ds, vs, rfl, he2, hd⟩
      refine Eats.pure ⟨rfl, rfl, before ++ (ts ++ (e :: (after ++ ds))), vs, by simp, he2, ?_⟩
      exact .body hb (fun h => by cases h) (.cons hs he ha hd)

/-! ### Functions and whole sources -/

theorem body_eats0 : ∀ n prev os es, EatsIf NotEol (parseBody n) prev os es fun r us os' es' =>
    os' = os ∧ es' = es ∧ ∃ ts, us = ts ++ [r.2] ∧ r.2.type = .END ∧ ReadsS (.block r.1) ts
  | 0, _, _, _ => by rw [parseBody]; exact fault_eats
  | n + 1, prev, os, es => by
    rw [parseBody]
    refine found_bindIf (fun e he => Eats.pure ⟨rfl, rfl, [], rfl, he, .nil⟩) ?_
    refine stmt_bind (stmts n).stmt fun s before ts e after hb hs he ha hz => ?_
    refine EatsIf.bind (body_eats0 n _ _ _) ?_
    rintro ⟨ss, e2⟩ us _ _ ⟨rfl, rfl, ds, rfl, he2, hd⟩
    cases hz rfl
    exact Eats.pure ⟨rfl, rfl, ts ++ (e :: (after ++ ds)), by simp, he2, .cons hs he ha hd⟩

theorem body_eats (n : Nat) (prev : Tok) : EatsS (parseBody n) prev fun r us =>
    ∃ ts, us = ts ++ [r.2] ∧ r.2.type = .END ∧ ReadsS (.body r.1) ts := by
  intro os es
  cases n with
  | zero => rw [parseBody]; exact fault_eats
  | succ n =>
    rw [parseBody]
    refine found_bindIf (fun e he => Eats.pure ⟨rfl, rfl, [], rfl, he, block_body .nil⟩) ?_
    refine stmt_bind (stmts n).stmt fun s before ts e after hb hs he ha hz => ?_
    refine EatsIf.bind (body_eats0 n _ _ _) ?_
    rintro ⟨ss, e2⟩ us _ _ ⟨rfl, rfl, ds, rfl, he2, hd⟩
    exact Eats.pure ⟨rfl, rfl, before ++ (ts ++ (e :: (after ++ ds))), by simp, he2,
      .body hb (fun h => by cases h) (.cons hs he ha hd)⟩

theorem names_eats : ∀ n prev, EatsS (parseArgNames n) prev fun as us => ReadsNames as us
  | 0, _ => by intro os es; rw [parseArgNames]; exact fault_eats
  | n + 1, prev => by
    intro os es
    rw [parseArgNames]
    refine popType_bind fun a ha => found_bind (fun c hc => ?_) (Eats.pure ⟨rfl, rfl, .one ha⟩)
    refine (names_eats n _ _ _).bind ?_
    rintro as us _ _ ⟨rfl, rfl, h⟩
    exact Eats.pure ⟨rfl, rfl, by simpa using ReadsNames.more ha hc h⟩

theorem function_eats (n : Nat) (prev : Tok) : EatsS (parseFunction n) prev fun f us => ReadsF f us := by
  intro os es
  unfold parseFunction
  refine popType_bind fun name hn => ?_
  unfold parseArgs
  simp only [bind_assoc]
  refine popType_bind fun l hl => found_bind (fun r hr => ?_) ?_
  · simp only [pure_bind]
    refine popType_bind fun e he => ?_
    refine (body_eats n _ _ _).bind ?_
    rintro ⟨b, stop⟩ us _ _ ⟨rfl, rfl, ts, rfl, hs, hb⟩
    exact Eats.pure ⟨rfl, rfl, by simpa using FuncOf.noArgs hn hl hr he hb hs⟩
  · simp only [bind_assoc, pure_bind]
    refine (names_eats n _ _ _).bind ?_
    rintro as us _ _ ⟨rfl, rfl, ha⟩
    refine popType_bind fun r hr => popType_bind fun e he => ?_
    refine (body_eats n _ _ _).bind ?_
    rintro ⟨b, stop⟩ us _ _ ⟨rfl, rfl, ts, rfl, hs, hb⟩
    exact Eats.pure ⟨rfl, rfl, by simpa using FuncOf.args hn hl ha hr he hb hs⟩

/-- The run of a computation that succeeds, in two. -/
theorem bind_ok {x : PM α} {f : α → PM β} {s s' : PState} {b : β} (h : (x >>= f) s = .ok (b, s')) :
    ∃ a s1, x s = .ok (a, s1) ∧ f a s1 = .ok (b, s') := by
  rw [pm_bind] at h
  split at h
  · cases h
  · exact ⟨_, _, by assumption, h⟩

theorem items_reads {fs : Str → Option Str} {cur : Source} : ∀ (n : Nat) (prev : Tok) (s s' : PState)
    (is : List (Item Unit)), NoUnary prev s.toks → parseItems fs cur n s = .ok (is, s') →
    s'.ops = s.ops ∧ s'.exps = s.exps ∧
      ∃ us e, s.toks = us ++ e :: s'.toks ∧ e.type = .EOF ∧ ReadsP fs cur s.srcs is s'.srcs us
  | 0, _, s, s', is, _, h => by rw [parseItems] at h; cases h
  | n + 1, prev, s, s', is, hn, h => by
    rw [parseItems] at h
    obtain ⟨r, s1, h1, h2⟩ := bind_ok h
    unfold found at h1
    split at h1
    · cases h1
    · rename_i t ts hs
      split at h1
      · rename_i ht
        cases h1
        cases h2
        exact ⟨rfl, rfl, [], t, hs, ht, .nil⟩
      · cases h1
        dsimp only at h2
        obtain ⟨u, s2, h3, h4⟩ := bind_ok h2
        unfold popTok at h3
        rw [hs] at h3
        cases h3
        rw [hs] at hn
        have hn' := hn.2.2
        -- what is left after the first token
        have next : ∀ (s2 : PState) is (us : List Token), s2.ops = s.ops → s2.exps = s.exps →
            ts = us ++ s2.toks → parseItems fs cur n s2 = .ok (is, s') →
            s'.ops = s.ops ∧ s'.exps = s.exps ∧ ∃ vs e, s.toks = t :: (us ++ vs) ++ e :: s'.toks ∧ e.type = .EOF ∧
              ReadsP fs cur s2.srcs is s'.srcs vs := by
          intro s2 is us ho he ht hp
          rw [ht] at hn'
          obtain ⟨k1, k2, vs, e, k3, k4, k5⟩ := items_reads n _ s2 s' is hn'.drop hp
          exact ⟨k1.trans ho, k2.trans he, vs, e, by rw [hs, ht, k3]; simp, k4, k5⟩
        have decl : ∀ (c : Bool), (t.type = .VAR ∨ t.type = .CONST) → (t.type == .CONST) = c →
            (parseDeclVar n >>= fun r => parseItems fs cur n >>= fun is => (Pure.pure (Item.var r.1 c r.2 :: is) : PM _))
              { s with toks := ts, line := t.line } = .ok (is, s') →
            s'.ops = s.ops ∧ s'.exps = s.exps ∧
              ∃ us e, s.toks = us ++ e :: s'.toks ∧ e.type = .EOF ∧ ReadsP fs cur s.srcs is s'.srcs us := by
          intro c hu hc hr
          obtain ⟨⟨name, e⟩, s2, g1, g2⟩ := bind_ok hr
          obtain ⟨is', s3, g3, g4⟩ := bind_ok g2
          cases g4
          obtain ⟨us, m1, m2, m3, m4, m5⟩ := declVar_eats n
            (Q := fun r us => r.1.type = .IDENT ∧ (r.2 = none ∧ us = [r.1] ∨ ∃ a e ts, a.type = .ASSIGN ∧
              Gram.Reads (.whole e) ts ∧ r.2 = some e ∧ us = r.1 :: a :: ts)) (prev := t.type)
            (fun name hn => ⟨hn, .inl ⟨rfl, rfl⟩⟩)
            (fun name a e ts hn ha he => ⟨hn, .inr ⟨a, e, ts, ha, he, rfl, rfl⟩⟩) _ _
            { s with toks := ts, line := t.line } _ _ trivial rfl rfl hn' g1
          obtain ⟨k1, k2, vs, x, k3, k4, k5⟩ := next s2 is' us m3 m4 m1 g3
          rw [show s2.srcs = s.srcs from m2] at k5
          refine ⟨k1, k2, _, x, k3, k4, ?_⟩
          subst hc
          rcases m5.2 with ⟨he, rfl⟩ | ⟨a, e', ts', ha, hw, he, rfl⟩
          · cases he
            exact .decl hu m5.1 k5
          · cases he
            simpa using FileOf.init hu m5.1 ha hw k5
        generalize hty : t.type = ty at h4
        split at h4
        · obtain ⟨k1, k2, vs, e, k3, k4, k5⟩ := next { s with toks := ts, line := t.line } _ [] rfl rfl rfl h4
          exact ⟨k1, k2, _, e, k3, k4, .eol hty k5⟩
        · exact decl false (.inl hty) (by rw [hty]; rfl) h4
        · exact decl true (.inr hty) (by rw [hty]; rfl) h4
        · obtain ⟨f, s2, g1, g2⟩ := bind_ok h4
          obtain ⟨is', s3, g3, g4⟩ := bind_ok g2
          cases g4
          obtain ⟨us, m1, m2, m3, m4, m5⟩ := function_eats n t.type _ _
            { s with toks := ts, line := t.line } _ _ trivial rfl rfl hn' g1
          obtain ⟨k1, k2, vs, x, k3, k4, k5⟩ := next s2 is' us m3 m4 m1 g3
          rw [show s2.srcs = s.srcs from m2] at k5
          exact ⟨k1, k2, _, x, k3, k4, .func hty m5 k5⟩
        · obtain ⟨_, s2, g1, g2⟩ := bind_ok h4
          unfold parseImport at g1
          obtain ⟨nm, s3, g3, g4⟩ := bind_ok g1
          obtain ⟨us, m1, m2, rfl, m5, m3, m4⟩ := popType_eats .STRING
            { s with toks := ts, line := t.line } _ _ trivial rfl rfl hn' g3
          split at g4
          · rename_i ss1 hl
            cases g4
            obtain ⟨k1, k2, vs, x, k3, k4, k5⟩ := next { s3 with srcs := ss1 } is [nm] m3 m4 m1 g2
            rw [show s3.srcs = s.srcs from m2] at hl
            exact ⟨k1, k2, _, x, k3, k4, .imp hty m5 hl k5⟩
          · exact absurd g4 Made.errTok_ne
        · obtain ⟨t, s2, g1, g2⟩ := bind_ok h4
          exact absurd g2 Made.errTok_ne

end Ccml.Only
