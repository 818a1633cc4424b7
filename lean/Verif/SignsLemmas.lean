import Verif.Signs
import Verif.GramLemmas
/-! The parser makes the trees of `Verif/Signs.lean`. -/
namespace Ccml.Gram
open Ccml

/-! ### The stacks -/

/-- What the operands and binary operators of a row do to the stacks. -/
def shunt (tide : Nat) : PExpr → List (Token × PExpr) → List Token → List PExpr → Comp (List Token × List PExpr)
  | x, [], os, es => .ok (os, x :: es)
  | x, (op, y) :: l, os, es =>
    match reduceLoop (opType op.type) tide os (x :: es) with
    | .error e => .error e
    | .ok (os', es') => shunt tide y l (op :: os') es'

/-- What the unary operators of a row do to the stacks, behind its operands: the last one first. -/
def unwind (tide : Nat) : List Token → Comp (List Token × List PExpr) → Comp (List Token × List PExpr)
  | [], st => st
  | u :: us, st =>
    match unwind tide us st with
    | .error e => .error e
    | .ok (os, es) =>
      if u.type = .NOT then
        match reduceLoop 2 tide os es with
        | .error e => .error e
        | .ok (os', es') => .ok (u :: os', es')
      else
        match es with
        | [] => .error (.fault .ub)
        | e :: es' => .ok (os, .un u e :: es')

theorem shunt_append (tide : Nat) (l : List (Token × PExpr)) (op : Token) (y : PExpr) (m : List (Token × PExpr)) :
    ∀ x os es, shunt tide x (l ++ (op, y) :: m) os es =
      match shunt tide x l os es with
      | .error e => .error e
      | .ok (os1, es1) =>
        match reduceLoop (opType op.type) tide os1 es1 with
        | .error e => .error e
        | .ok (os', es') => shunt tide y m (op :: os') es' := by
  induction l with
  | nil => intro x os es; rfl
  | cons a l ih =>
    obtain ⟨o, z⟩ := a
    intro x os es
    simp only [List.cons_append, shunt]
    cases reduceLoop (opType o.type) tide os (x :: es) with
    | error e => rfl
    | ok r => exact ih z _ _

theorem shunt_climb {p : Nat} {x e : PExpr} {l : List (Token × PExpr)} (h : Climb p x l e) :
    ∀ (above bottom : List Token) (es : List PExpr), (∀ o ∈ above, opType o.type < p) →
    ∃ new X, shunt bottom.length x l (above ++ bottom) es = .ok (new ++ (above ++ bottom), X) ∧
      (∀ o ∈ new, p ≤ opType o.type) ∧ reduceAll new X = .ok (e :: es) := by
  induction h with
  | one => intro above bottom es _; exact ⟨[], _, rfl, by simp, rfl⟩
  | @bin p q op x l y m a b ho hp _ _ iha ihb =>
    intro above bottom es hab
    obtain ⟨hq, hb, -⟩ := level_opType ho
    obtain ⟨n1, X1, e1, e2, e3⟩ := iha above bottom es (fun o h => Nat.lt_of_lt_of_le (hab o h) hp)
    obtain ⟨n2, X2, e4, e5, e6⟩ := ihb (op :: above) bottom (a :: es) (by
      intro o h; rcases List.mem_cons.1 h with rfl | h
      · omega
      · have := hab o h; omega)
    refine ⟨n2 ++ [op], X2, ?_, ?_, ?_⟩
    · rw [shunt_append, e1]
      dsimp only
      rw [hq, reduceLoop_all n1 above bottom _ _ e3 e2,
        reduceLoop_stop above bottom _ (fun o h => Nat.lt_of_lt_of_le (hab o h) hp)]
      dsimp only
      rw [List.cons_append] at e4
      rw [e4]
      simp
    · intro o h
      rcases List.mem_append.1 h with h | h
      · have := e5 o h; omega
      · cases List.mem_singleton.1 h; omega
    · rw [reduceAll_append _ _ _ _ e6]
      simp only [reduceAll, reduceOp, hb, if_true]

/-- Unary operators applied to the top of the expression stack. -/
def onTop (us : List Token) : Comp (List Token × List PExpr) → Comp (List Token × List PExpr)
  | .ok (os, e :: es) => .ok (os, wrap us e :: es)
  | st => st

theorem shunt_signLast (tide : Nat) (us : List Token) (l : List (Token × PExpr)) :
    ∀ x os es, shunt tide (signLast us x l).1 (signLast us x l).2 os es = onTop us (shunt tide x l os es) := by
  induction l with
  | nil => intro x os es; rfl
  | cons a l ih =>
    obtain ⟨o, z⟩ := a
    intro x os es
    simp only [signLast, shunt]
    cases hr : reduceLoop (opType o.type) tide os (x :: es) with
    | error e => rfl
    | ok r => exact ih z _ _

theorem shunt_ne (tide : Nat) (l : List (Token × PExpr)) :
    ∀ x os es os' es', shunt tide x l os es = .ok (os', es') → ∃ e es'', es' = e :: es'' := by
  induction l with
  | nil => intro x os es os' es' h; cases h; exact ⟨_, _, rfl⟩
  | cons a l ih =>
    obtain ⟨o, z⟩ := a
    intro x os es os' es' h
    simp only [shunt] at h
    cases hr : reduceLoop (opType o.type) tide os (x :: es) with
    | error e => rw [hr] at h; cases h
    | ok r => rw [hr] at h; exact ih z _ _ _ _ h

theorem share_not {u : Token} (h : u.type = .NOT) (us : List Token) :
    share (u :: us) = (u :: (share us).1, (share us).2) := by
  simp only [share, h, if_true]

theorem share_not' {us : List Token} : ∀ {t ts}, (share us).1 = t :: ts → t.type = .NOT := by
  induction us with
  | nil => intro t ts h; cases h
  | cons u us ih =>
    intro t ts h
    by_cases hu : u.type = .NOT
    · rw [share_not hu] at h
      cases h
      exact hu
    · simp only [share, if_neg hu] at h
      cases ho : (share us).1 with
      | nil => rw [ho] at h; cases h
      | cons v vs =>
        rw [ho] at h
        cases h
        exact ih ho

theorem share_minus {u : Token} (h : u.type ≠ .NOT) (us : List Token) :
    share (u :: us) = match (share us).1 with
      | [] => ([], u :: (share us).2)
      | t :: ts => (t :: u :: ts, (share us).2) := by
  simp only [share, if_neg h]
  cases (share us).1 <;> rfl

/-- No `not`: all unary operators go to the top of the stack. -/
theorem unwind_inner (tide : Nat) (os : List Token) (e : PExpr) (es : List PExpr) :
    ∀ us, (share us).1 = [] → unwind tide us (.ok (os, e :: es)) = .ok (os, wrap (share us).2 e :: es) := by
  intro us
  induction us with
  | nil => intro _; rfl
  | cons u us ih =>
    intro h
    by_cases hu : u.type = .NOT
    · rw [share_not hu] at h; cases h
    · rw [share_minus hu] at h ⊢
      cases ho : (share us).1 with
      | nil =>
        simp only [unwind, ih ho, if_neg hu]
        rfl
      | cons v vs => rw [ho] at h; cases h

/-- With a `not`: the last one reduces the stacks, and everything else goes below it or in front of it. -/
theorem unwind_outer {os above bottom new : List Token} {e c : PExpr} {es X E : List PExpr}
    (ha : ∀ o ∈ above, opType o.type < 2) (hn : ∀ o ∈ new, 2 ≤ opType o.type) :
    ∀ us t ts, (share us).1 = t :: ts →
      onTop (share us).2 (.ok (os, e :: es)) = .ok (new ++ (above ++ bottom), X) → reduceAll new X = .ok (c :: E) →
      unwind bottom.length us (.ok (os, e :: es)) = .ok (t :: (above ++ bottom), wrap ts c :: E) := by
  intro us
  induction us with
  | nil => intro t ts h; cases h
  | cons u us ih =>
    intro t ts h hX hr
    by_cases hu : u.type = .NOT
    · rw [share_not hu] at h hX
      cases h
      cases ho : (share us).1 with
      | nil =>
        simp only [onTop] at hX
        cases hX
        simp only [unwind, unwind_inner _ _ _ _ us ho, if_pos hu]
        rw [reduceLoop_all new above bottom _ _ hr hn, reduceLoop_stop above bottom _ ha]
        rfl
      | cons v vs =>
        simp only [unwind, ih v vs ho hX hr, if_pos hu]
        have hv : v.type = .NOT := share_not' ho
        have h1 : reduceAll [v] (wrap vs c :: E) = .ok (wrap (v :: vs) c :: E) := by
          simp only [reduceAll, reduceOp, hv, Tok.isBinary, Tok.isUnary, if_true]; rfl
        have h2 := reduceLoop_all (q := 2) [v] above bottom _ _ h1 (by
          intro o h; cases List.mem_singleton.1 h; rw [hv]; decide)
        rw [List.singleton_append] at h2
        rw [h2, reduceLoop_stop above bottom _ ha]
    · rw [share_minus hu] at h hX
      cases ho : (share us).1 with
      | nil => rw [ho] at h; cases h
      | cons v vs =>
        rw [ho] at h hX
        cases h
        simp only [unwind, ih _ _ ho hX hr, if_neg hu]
        rfl

/-- A row whose operators have all been pushed ends with its tree. -/
theorem unwind_end {us : List Token} {x c e : PExpr} {l : List (Token × PExpr)} {above bottom new : List Token}
    {es X E : List PExpr}
    (hs : shunt bottom.length (signLast (share us).2 x l).1 (signLast (share us).2 x l).2 bottom es =
      .ok (new ++ (above ++ bottom), X))
    (ha : ∀ o ∈ above, opType o.type < 2) (hn : ∀ o ∈ new, 2 ≤ opType o.type) (hr : reduceAll new X = .ok (c :: E))
    (he : reduceAll above (wrap (share us).1 c :: E) = .ok (e :: es)) :
    ∃ os' es', unwind bottom.length us (shunt bottom.length x l bottom es) = .ok (os', es') ∧
      reduceLoop 0 bottom.length os' es' = .ok (bottom, e :: es) := by
  rw [shunt_signLast] at hs
  have hfin : reduceLoop 0 bottom.length (above ++ bottom) (wrap (share us).1 c :: E) = .ok (bottom, e :: es) := by
    have h1 := reduceLoop_all (q := 0) above [] bottom _ _ he (fun _ _ => Nat.zero_le _)
    have h2 := reduceLoop_stop (q := 0) [] bottom (e :: es) (by simp)
    simp only [List.nil_append] at h1 h2
    rw [h1, h2]
  cases hsh : shunt bottom.length x l bottom es with
  | error err => rw [hsh] at hs; cases hs
  | ok r =>
    obtain ⟨os, es0⟩ := r
    obtain ⟨e0, es1, rfl⟩ := shunt_ne _ _ _ _ _ _ _ hsh
    rw [hsh] at hs
    cases ho : (share us).1 with
    | nil =>
      rw [ho] at hfin
      simp only [onTop] at hs
      cases hs
      refine ⟨_, _, unwind_inner _ _ _ _ us ho, ?_⟩
      rw [reduceLoop_all new above bottom _ _ hr (fun _ _ => Nat.zero_le _)]
      exact hfin
    | cons t ts =>
      rw [ho] at hfin
      refine ⟨_, _, unwind_outer ha hn us t ts ho hs hr, ?_⟩
      have ht : t.type = .NOT := share_not' ho
      have h1 : reduceAll [t] (wrap ts c :: E) = .ok (wrap (t :: ts) c :: E) := by
        simp only [reduceAll, reduceOp, ht, Tok.isBinary, Tok.isUnary, if_true]; rfl
      have h2 := reduceLoop_all (q := 0) [t] above bottom _ _ h1 (fun _ _ => Nat.zero_le _)
      rw [List.singleton_append] at h2
      rw [h2]
      exact hfin

theorem unwind_signed {us : List Token} {x e : PExpr} {l : List (Token × PExpr)}
    (h : Signed (share us).1 (signLast (share us).2 x l).1 (signLast (share us).2 x l).2 e)
    (bottom : List Token) (es : List PExpr) :
    ∃ os' es', unwind bottom.length us (shunt bottom.length x l bottom es) = .ok (os', es') ∧
      reduceLoop 0 bottom.length os' es' = .ok (bottom, e :: es) := by
  generalize hx : (signLast (share us).2 x l).1 = x' at h
  generalize hl : (signLast (share us).2 x l).2 = l' at h
  cases h with
  | @alone x' l' c hc =>
    obtain ⟨new, X, h1, h2, h3⟩ := shunt_climb hc [] bottom es (by simp)
    subst hx hl
    exact unwind_end (above := []) h1 (by simp) h2 h3 rfl
  | @chain op x' l1 y m a c ho ha hc =>
    obtain ⟨hq, hb, -⟩ := level_opType ho
    obtain ⟨n1, X1, e1, e2, e3⟩ := shunt_climb ha [] bottom es (by simp)
    obtain ⟨n2, X2, e4, e5, e6⟩ := shunt_climb hc [op] bottom (a :: es) (by
      intro o h; cases List.mem_singleton.1 h; omega)
    refine unwind_end (above := [op]) (new := n2) (X := X2) (c := c) (E := a :: es) ?_ (by
      intro o h; cases List.mem_singleton.1 h; omega) e5 e6 ?_
    · rw [hx, hl, shunt_append]
      rw [List.nil_append] at e1
      rw [e1]
      dsimp only
      have h4 := reduceLoop_all n1 [] bottom _ _ e3 e2
      rw [List.nil_append] at h4
      have h5 := reduceLoop_stop (q := 1) [] bottom (a :: es) (by simp)
      rw [List.nil_append] at h5
      rw [hq, h4, h5]
      exact e4
    · simp only [reduceAll, reduceOp, hb, if_true]

/-! ### The parser -/

/-- First tokens: an expression never begins with a closing parenthesis or the end of a line, and an operand not with
a unary operator either. -/
theorem writes_first {f : Piece} {ts : List Token} (h : Writes f ts) :
    match f with
    | .args _ => True
    | .opnd _ => ∃ t us, ts = t :: us ∧ t.type ≠ .RPAREN ∧ t.type ≠ .EOL ∧ t.type ≠ .NOT ∧ t.type ≠ .SUB
    | _ => ∃ t us, ts = t :: us ∧ t.type ≠ .RPAREN ∧ t.type ≠ .EOL := by
  have key : ∀ (t : Token) (us : List Token) (ty : Tok), t.type = ty → ty ≠ .RPAREN → ty ≠ .EOL → ty ≠ .NOT →
      ty ≠ .SUB → ∃ v vs, t :: us = v :: vs ∧ v.type ≠ .RPAREN ∧ v.type ≠ .EOL ∧ v.type ≠ .NOT ∧ v.type ≠ .SUB :=
    fun t us ty h h1 h2 h3 h4 => ⟨t, us, rfl, h ▸ h1, h ▸ h2, h ▸ h3, h ▸ h4⟩
  induction h with
  | literal h => cases h <;> rename_i h <;> exact key _ _ _ h (by decide) (by decide) (by decide) (by decide)
  | ident h => exact key _ _ _ h (by decide) (by decide) (by decide) (by decide)
  | member h => exact key _ _ _ h (by decide) (by decide) (by decide) (by decide)
  | arr h => exact key _ _ _ h (by decide) (by decide) (by decide) (by decide)
  | paren h => exact key _ _ _ h (by decide) (by decide) (by decide) (by decide)
  | deref _ _ _ _ ih => obtain ⟨t, us, rfl, h⟩ := ih; exact ⟨t, _, rfl, h⟩
  | call _ _ _ _ ih => obtain ⟨t, us, rfl, h⟩ := ih; exact ⟨t, _, rfl, h⟩
  | last _ ih => obtain ⟨t, us, rfl, h1, h2, -⟩ := ih; exact ⟨t, _, rfl, h1, h2⟩
  | @sign t _ _ _ ts ht _ _ =>
    rcases ht with ht | ht <;> exact ⟨t, ts, rfl, by rw [ht]; decide, by rw [ht]; decide⟩
  | next _ _ _ ih => obtain ⟨t, us, rfl, h1, h2, -⟩ := ih; exact ⟨t, _, rfl, h1, h2⟩
  | whole _ _ ih => exact ih
  | one _ ih => exact ih
  | more _ _ _ ih => obtain ⟨t, us, rfl, h⟩ := ih; exact ⟨t, _, rfl, h⟩
  | noArgs => trivial
  | someArgs => trivial

/-- What the parser does on each piece. -/
def RunsW : Piece → List Token → Prop
  | .opnd e, ts => Runs (.opnd e) ts
  | .row us x l, ts => ∀ (n : Nat) (s : PState) (rest : List Token) (tide : Nat) (os' : List Token) (es' : List PExpr),
    s.toks = ts ++ rest → Stops rest → 8 * s.toks.length + 2 ≤ n →
    unwind tide us (shunt tide x l s.ops s.exps) = .ok (os', es') →
    ∃ ln, parseExprEx n tide s = .ok ((), { s with toks := rest, line := ln, ops := os', exps := es' })
  | .whole e, ts => Takes e ts
  | .exprs es, ts => Runs (.exprs es) ts
  | .args es, ts => Runs (.args es) ts

/-- An expression is its row, with the stacks as they were in the end. -/
theorem takes_row {us : List Token} {x e : PExpr} {l : List (Token × PExpr)} {ts : List Token}
    (h : RunsW (.row us x l) ts)
    (he : Signed (share us).1 (signLast (share us).2 x l).1 (signLast (share us).2 x l).2 e) : Takes e ts := by
  intro n s rest hs hr hn
  obtain ⟨m, rfl⟩ : ∃ m, n = m + 1 := ⟨n - 1, by omega⟩
  obtain ⟨os', es', h1, h2⟩ := unwind_signed he s.ops s.exps
  obtain ⟨ln, h3⟩ := h m s rest s.ops.length os' es' hs hr (by omega) h1
  refine ⟨ln, ?_⟩
  simp only [parseExpr]
  rw [pm_bind_ok (show (get : PM PState) s = .ok (s, s) from rfl), pm_bind_ok h3]
  have hp : opPopAll s.ops.length { s with toks := rest, line := ln, ops := os', exps := es' } =
      .ok ((), { s with toks := rest, line := ln, exps := e :: s.exps }) := by
    unfold opPopAll
    dsimp only
    rw [h2]
  rw [pm_bind_ok hp]
  rfl

/-- Pushing an operator, by what it does to the stacks. -/
theorem opPush_of {op : Token} {tide : Nat} {s : PState} {os : List Token} {es : List PExpr}
    (h : reduceLoop (opType op.type) tide s.ops s.exps = .ok (os, es)) :
    opPush op tide s = .ok ((), { s with ops := op :: os, exps := es }) := by
  unfold opPush; rw [h]

theorem writes_runs {f : Piece} {ts : List Token} (h : Writes f ts) : RunsW f ts := by
  induction h with
  | literal h => exact runs_literal h
  | ident h => exact runs_ident h
  | member ht hd hm => exact runs_member ht hd hm
  | arr hl _ hr ih => exact runs_arr hl ih hr
  | paren hl _ hr ih => exact runs_paren hl ih hr
  | deref _ hl _ hr ih ihi => exact runs_deref ih hl ihi hr
  | call _ hl _ hr ih iha => exact runs_call ih hl iha hr
  | one _ ih => exact runs_one ih
  | more _ hc _ ih ihs => exact runs_more ih hc ihs
  | noArgs => exact runs_noArgs
  | someArgs h ih =>
    obtain ⟨t, us, rfl, h1, -⟩ := writes_first h
    exact runs_someArgs ⟨t, us, rfl, h1⟩ ih
  | whole _ he ih => exact takes_row ih he
  | @last x ts h ih =>
    intro n s rest tide os' es' hs hr hn hu
    obtain ⟨m, rfl⟩ : ∃ m, n = m + 1 := ⟨n - 1, by omega⟩
    obtain ⟨t, us, rfl, -, -, h1, h2⟩ := writes_first h
    obtain ⟨k, ln, hk, h3⟩ := ih m s rest hs hr.follow.noDot (by omega)
    cases hu
    refine ⟨ln, ?_⟩
    rw [ex_operand hs h1 h2, pm_bind, h3, postfix_stop hr.follow (by omega)]
    exact tail_stop hr (by simp only [hs, List.length_append, List.length_cons] at hn; omega)
  | @sign t us x l ts ht h ih =>
    intro n s rest tide os' es' hs hr hn hu
    obtain ⟨m, rfl⟩ : ∃ m, n = m + 1 := ⟨n - 1, by omega⟩
    simp only [List.cons_append] at hs
    have hlen : s.toks.length = (ts ++ rest).length + 1 := by rw [hs]; rfl
    simp only [unwind] at hu
    cases hu1 : unwind tide us (shunt tide x l s.ops s.exps) with
    | error err => rw [hu1] at hu; cases hu
    | ok r =>
      obtain ⟨os1, es1⟩ := r
      rw [hu1] at hu
      dsimp only at hu
      obtain ⟨ln, h1⟩ := ih m { s with toks := ts ++ rest, line := t.line } rest tide os1 es1 rfl hr
        (by dsimp only; omega) hu1
      refine ⟨ln, ?_⟩
      by_cases hn' : t.type = .NOT
      · rw [if_pos hn'] at hu
        have h2 : opType t.type = 2 := by rw [hn']; rfl
        simp only [parseExprEx]
        rw [pm_bind_ok (found_yes hs hn')]
        dsimp only
        rw [pm_bind_ok h1]
        cases hr2 : reduceLoop 2 tide os1 es1 with
        | error err => rw [hr2] at hu; cases hu
        | ok r =>
          rw [hr2] at hu
          cases hu
          rw [opPush_of (os := r.1) (es := r.2) (by rw [h2]; exact hr2)]
      · rw [if_neg hn'] at hu
        have ht' : t.type = .SUB := ht.resolve_left hn'
        simp only [parseExprEx]
        rw [pm_bind_ok (found_no hs hn')]
        dsimp only
        rw [pm_bind_ok (found_yes hs ht')]
        dsimp only
        rw [pm_bind_ok h1]
        cases es1 with
        | nil => cases hu
        | cons e es1 =>
          cases hu
          rw [pm_bind_ok (show popExp _ _ = .ok (e, _) from rfl)]
          rfl
  | @next us x op y l ts vs h ho hr ih ihr =>
    intro n s rest tide os' es' hs hrest hn hu
    obtain ⟨q, hq⟩ := Option.ne_none_iff_exists'.1 ho
    obtain ⟨hq, hb, hq0, hd, g1, g2⟩ := level_opType hq
    obtain ⟨m, rfl⟩ : ∃ m, n = m + 1 := ⟨n - 1, by omega⟩
    obtain ⟨t, us', rfl, -, -, h1, h2⟩ := writes_first h
    simp only [List.append_assoc, List.cons_append] at hs
    have hf : Follow (op :: (vs ++ rest)) := ⟨op, _, rfl, hd, g1, g2⟩
    obtain ⟨k, ln, hk, h3⟩ := ih m s (op :: (vs ++ rest)) hs hf.noDot (by omega)
    simp only [hs, List.length_cons, List.length_append] at hn
    obtain ⟨j, rfl⟩ : ∃ j, m = j + 1 := ⟨m - 1, by omega⟩
    simp only [shunt] at hu
    cases hr1 : reduceLoop (opType op.type) tide s.ops (x :: s.exps) with
    | error err =>
      rw [hr1] at hu
      exfalso
      clear hs ih ihr h3 hr1 h hr
      dsimp only at hu
      revert hu
      have : ∀ us, unwind tide us (.error err) = .error err := by
        intro us; induction us with
        | nil => rfl
        | cons u us ih => simp only [unwind, ih]
      rw [this]; intro hu; cases hu
    | ok r =>
      obtain ⟨os1, es1⟩ := r
      rw [hr1] at hu
      dsimp only at hu
      obtain ⟨ln2, h4⟩ := ihr j { s with toks := vs ++ rest, line := op.line, ops := op :: os1, exps := es1 } rest tide
        os' es' rfl hrest (by simp only [List.length_append]; omega) hu
      refine ⟨ln2, ?_⟩
      rw [ex_operand hs h1 h2, pm_bind, h3, postfix_stop hf (by simp only [List.length_cons] at hk; omega)]
      dsimp only
      simp only [parseTail]
      rw [pm_bind_ok (isOperator_eq (t := op) (ts := vs ++ rest) rfl)]
      rw [if_pos (by simp; omega)]
      rw [pm_bind_ok (popTok_eq (t := op) (ts := vs ++ rest) rfl)]
      rw [pm_bind_ok (opPush_of (os := os1) (es := es1) hr1)]
      exact h4

/-- All that is needed for statements. -/
theorem writes_take : TakesAll (fun e => Writes (.whole e)) (fun as => Writes (.args as)) :=
  ⟨fun h => writes_runs h, fun h => writes_first h, fun h => writes_runs h⟩

end Ccml.Gram
