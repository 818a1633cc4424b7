import Verif.Parser
/-! Invariants of the parser: the token stream is never left and the stacks never run empty. -/
namespace Ccml

theorem pm_bind {α β : Type} (x : PM α) (f : α → PM β) (s : PState) :
    (x >>= f) s = match x s with
      | .error e => .error e
      | .ok (a, s') => f a s' := by
  show (x s >>= fun p => f p.1 p.2) = _
  cases x s <;> rfl

theorem pm_bind_ok {α β : Type} {x : PM α} {f : α → PM β} {s s' : PState} {a : α}
    (h : x s = .ok (a, s')) : (x >>= f) s = f a s' := by rw [pm_bind, h]

theorem pm_pure {α : Type} (a : α) (s : PState) : (pure a : PM α) s = .ok (a, s) := rfl

namespace Safe

/-- The tokens end in their only end-of-file token. -/
def GoodToks : List Token → Prop
  | [] => False
  | [t] => t.type = .EOF
  | t :: u :: ts => t.type ≠ .EOF ∧ GoodToks (u :: ts)

theorem GoodToks.tail {t : Token} {ts : List Token} (h : GoodToks (t :: ts)) (ht : t.type ≠ .EOF) :
    GoodToks ts := by
  cases ts with
  | nil => exact absurd h ht
  | cons => exact h.2

/-- Early ends that may happen; `imp`: there is an `import` among the tokens. -/
def Allowed (imp : Prop) : Stop → Prop
  | .err _ => True
  | .fault .assert => imp
  | .fault _ => False

/-- The tokens of a state, and where an `import` may come from. -/
def Good (imp : Prop) (s : PState) : Prop :=
  GoodToks s.toks ∧ ∀ t ∈ s.toks, t.type = .IMPORT → imp

/-- An outcome that is allowed, with a condition on results. -/
def Ok {α : Type} (imp : Prop) (x : Except Stop (α × PState)) (Q : α → PState → Prop) : Prop :=
  match x with
  | .ok (a, s) => Q a s
  | .error e => Allowed imp e

variable {imp : Prop} {α β : Type}

theorem Ok.bind {x : PM α} {f : α → PM β} {s : PState} {Q : α → PState → Prop}
    {R : β → PState → Prop} (h : Ok imp (x s) Q) (hf : ∀ a s', Q a s' → Ok imp (f a s') R) :
    Ok imp ((x >>= f) s) R := by
  rw [pm_bind]
  cases hx : x s with
  | error e => rw [hx] at h; exact h
  | ok p => rw [hx] at h; exact hf p.1 p.2 h

theorem Ok.mono {x : Except Stop (α × PState)} {Q R : α → PState → Prop} (h : Ok imp x Q)
    (hq : ∀ a s, Q a s → R a s) : Ok imp x R := by
  cases x with
  | error e => exact h
  | ok p => exact hq _ _ h

/-- `s'` is `s` with the first token consumed. -/
def Next (imp : Prop) (s s' : PState) : Prop :=
  Good imp s' ∧ s'.toks.length + 1 = s.toks.length ∧ s'.ops = s.ops ∧ s'.exps = s.exps

theorem good_cons {s : PState} (h : Good imp s) : ∃ t ts, s.toks = t :: ts := by
  cases hs : s.toks with
  | nil => have := h.1; rw [hs] at this; exact this.elim
  | cons t ts => exact ⟨t, ts, rfl⟩

theorem next_of {s : PState} {t : Token} {ts : List Token} {l : SrcLine} (h : Good imp s)
    (hs : s.toks = t :: ts) (ht : t.type ≠ .EOF) : Next imp s { s with toks := ts, line := l } := by
  refine ⟨⟨?_, ?_⟩, ?_, rfl, rfl⟩
  · have := h.1; rw [hs] at this; exact this.tail ht
  · intro u hu; exact h.2 u (by rw [hs]; exact List.mem_cons_of_mem _ hu)
  · simp [hs]

theorem found_ok {s : PState} (h : Good imp s) {ty : Tok} (hty : ty ≠ .EOF) :
    Ok imp (found ty s) fun r s' => match r with
      | none => s' = s ∧ ∀ t ts, s.toks = t :: ts → t.type ≠ ty
      | some t => t.type = ty ∧ Next imp s s' := by
  obtain ⟨t, ts, hs⟩ := good_cons h
  unfold found
  rw [hs]
  by_cases ht : t.type = ty
  · simp only [ht, if_true]
    exact ⟨ht, next_of h hs (ht ▸ hty)⟩
  · simp only [ht, if_false]
    exact ⟨rfl, fun u us e => by cases e; exact ht⟩

/-- Messages about a token only fail for `import`. -/
theorem string_ok {t : Token} (ht : t.type = .IMPORT → imp) :
    (∃ x, t.string = .ok x) ∨ (t.string = .error .assert ∧ imp) := by
  unfold Token.string
  by_cases h1 : t.type = .STRING
  · exact .inl ⟨_, by rw [if_pos h1]⟩
  · rw [if_neg h1]
    by_cases h2 : t.str = []
    · rw [if_pos h2]
      by_cases h3 : t.type = .IMPORT
      · exact .inr ⟨by rw [h3]; rfl, ht h3⟩
      · left
        revert h1 h3
        cases t.type <;> simp [Tok.name]
    · exact .inl ⟨_, by rw [if_neg h2]⟩

theorem errTok_ok {l : SrcLine} {pre post : String} {t : Token} (ht : t.type = .IMPORT → imp)
    {Q : α → PState → Prop} : Ok imp (errTok l pre t post : Comp (α × PState)) Q := by
  unfold errTok
  rcases string_ok ht with ⟨x, h⟩ | ⟨h, hi⟩
  · rw [h]; trivial
  · rw [h]; exact hi

theorem popType_ok {s : PState} (h : Good imp s) {ty : Tok} (hty : ty ≠ .EOF)
    (hn : ty = .STRING → imp) (hi : ty ≠ .IMPORT) :
    Ok imp (popType ty s) fun t s' => t.type = ty ∧ Next imp s s' := by
  obtain ⟨t, ts, hs⟩ := good_cons h
  unfold popType
  rw [hs]
  by_cases ht : t.type = ty
  · simp only [ht, if_true]
    exact ⟨ht, next_of h hs (ht ▸ hty)⟩
  · simp only [ht, if_false]
    unfold unexpectedToken
    rcases string_ok (fun e => h.2 t (by rw [hs]; simp) e) with ⟨x, h'⟩ | ⟨h', hi'⟩
    · rw [h']
      by_cases h3 : ty = .STRING
      · subst h3; exact hn rfl
      · have : ∃ y, ty.name = .ok y := by
          revert h3 hi; cases ty <;> simp [Tok.name]
        obtain ⟨y, hy⟩ := this
        rw [hy]; trivial
    · rw [h']; exact hi'

theorem popTok_ok {s : PState} (h : Good imp s)
    (hne : ∀ t ts, s.toks = t :: ts → t.type ≠ .EOF) :
    Ok imp (popTok s) fun t s' => (∃ ts, s.toks = t :: ts) ∧ Next imp s s' := by
  obtain ⟨t, ts, hs⟩ := good_cons h
  unfold popTok
  rw [hs]
  exact ⟨⟨ts, rfl⟩, next_of h hs (hne t ts hs)⟩

theorem skipEols_go (ts : List Token) (l : SrcLine) (h : GoodToks ts) :
    ∃ ts' l', skipEols.go ts l = .ok (ts', l') ∧ GoodToks ts' ∧ ts'.length ≤ ts.length ∧
      ∀ t ∈ ts', t ∈ ts := by
  induction ts generalizing l with
  | nil => exact h.elim
  | cons t ts ih =>
    simp only [skipEols.go]
    by_cases ht : t.type = .EOL
    · rw [if_pos ht]
      obtain ⟨ts', l', h1, h2, h3, h4⟩ := ih t.line (h.tail (by rw [ht]; decide))
      exact ⟨ts', l', h1, h2, by simp; omega, fun u hu => List.mem_cons_of_mem _ (h4 u hu)⟩
    · rw [if_neg ht]
      exact ⟨_, _, rfl, h, Nat.le_refl _, fun _ hu => hu⟩

/-- Tokens were consumed, the stacks are as before. -/
def Le (imp : Prop) (s s' : PState) : Prop :=
  Good imp s' ∧ s'.toks.length ≤ s.toks.length ∧ s'.ops = s.ops ∧ s'.exps = s.exps

theorem skipEols_ok {s : PState} (h : Good imp s) : Ok imp (skipEols s) fun _ s' => Le imp s s' := by
  obtain ⟨ts', l', h1, h2, h3, h4⟩ := skipEols_go s.toks s.line h.1
  unfold skipEols
  rw [h1]
  exact ⟨⟨h2, fun t ht => h.2 t (h4 t ht)⟩, h3, rfl, rfl⟩

/-! ### The operator stack -/

/-- Binary operators waiting for their right operand. -/
def bins (ops : List Token) : Nat := ops.countP fun t => t.type.isBinary

theorem reduceLoop_ok (prec : Nat) {bottom : List Token} (above : List Token) (es : List PExpr)
    (h : bins above + 1 ≤ es.length) :
    ∃ above' es', reduceLoop prec bottom.length (above ++ bottom) es = .ok (above' ++ bottom, es') ∧
      es.length + bins above' = es'.length + bins above ∧ bins above' ≤ bins above ∧
      (prec = 0 → above' = []) := by
  induction above generalizing es with
  | nil =>
    refine ⟨[], es, ?_, rfl, Nat.le_refl _, fun _ => rfl⟩
    cases bottom with
    | nil => rfl
    | cons b bs => simp [reduceLoop]
  | cons o above ih =>
    simp only [List.cons_append, reduceLoop]
    rw [if_pos (by simp; omega)]
    by_cases hp : prec > opType o.type
    · rw [if_pos hp]
      exact ⟨o :: above, es, rfl, rfl, Nat.le_refl _, fun e => by omega⟩
    · rw [if_neg hp]
      have hb : bins (o :: above) = bins above + if o.type.isBinary then 1 else 0 := by
        simp [bins, List.countP_cons]
      by_cases h1 : o.type.isBinary
      · rw [if_pos h1] at hb
        match es, h with
        | [], h => simp at h
        | [x], h => simp at h; omega
        | r :: l :: es, h =>
          simp only [List.length_cons] at h
          obtain ⟨a', es', e1, e2, e3, e4⟩ := ih (.bin o l r :: es) (by simp; omega)
          refine ⟨a', es', ?_, ?_, by omega, e4⟩
          · simp only [reduceOp, h1, if_true]; exact e1
          · simp only [List.length_cons] at e2 ⊢; omega
      · rw [if_neg h1] at hb
        simp only [Nat.add_zero] at hb
        by_cases h2 : o.type.isUnary
        · match es, h with
          | [], h => simp at h
          | x :: es, h =>
            simp only [List.length_cons] at h
            obtain ⟨a', es', e1, e2, e3, e4⟩ := ih (.un o x :: es) (by simp; omega)
            refine ⟨a', es', ?_, ?_, by omega, e4⟩
            · simp only [reduceOp, h1, h2, if_true]; exact e1
            · simp only [List.length_cons] at e2 ⊢; omega
        · obtain ⟨a', es', e1, e2, e3, e4⟩ := ih es (by omega)
          refine ⟨a', es', ?_, by omega, by omega, e4⟩
          simp only [reduceOp, h1, h2]; exact e1

/-! ### Expressions -/

/-- What an expression function does: consumes at least one token, leaves the operators alone, and
takes nothing from the expressions below. -/
def Did (imp : Prop) (s s' : PState) : Prop :=
  Good imp s' ∧ s'.toks.length < s.toks.length ∧ s'.ops = s.ops ∧ s.exps.length ≤ s'.exps.length

/-- The specifications of all functions with fuel `n`. -/
structure AllOk (imp : Prop) (n : Nat) : Prop where
  ex : ∀ s tide above bottom, Good imp s → s.ops = above ++ bottom → bottom.length = tide →
    bins above ≤ s.exps.length → 8 * s.toks.length + 2 ≤ n →
    Ok imp (parseExprEx n tide s) fun _ s' => Good imp s' ∧ s'.toks.length < s.toks.length ∧
      ∃ above', s'.ops = above' ++ bottom ∧
        s.exps.length + bins above' + 1 ≤ s'.exps.length + bins above
  tail : ∀ s tide above bottom, Good imp s → s.ops = above ++ bottom → bottom.length = tide →
    bins above + 1 ≤ s.exps.length → 8 * s.toks.length + 1 ≤ n →
    Ok imp (parseTail n tide s) fun _ s' => Good imp s' ∧ s'.toks.length ≤ s.toks.length ∧
      ∃ above', s'.ops = above' ++ bottom ∧
        s.exps.length + bins above' ≤ s'.exps.length + bins above
  post : ∀ s, Good imp s → 1 ≤ s.exps.length → 8 * s.toks.length + 1 ≤ n →
    Ok imp (parsePostfix n s) fun _ s' => Good imp s' ∧ s'.toks.length ≤ s.toks.length ∧
      s'.ops = s.ops ∧ s.exps.length ≤ s'.exps.length
  lhs : ∀ s, Good imp s → 8 * s.toks.length + 1 ≤ n →
    Ok imp (parseLhs n s) fun _ s' => Good imp s' ∧ s'.toks.length < s.toks.length ∧
      s'.ops = s.ops ∧ s.exps.length + 1 ≤ s'.exps.length
  expr : ∀ s, Good imp s → 8 * s.toks.length + 3 ≤ n →
    Ok imp (parseExpr n s) fun _ s' => Did imp s s'
  list : ∀ s, Good imp s → 8 * s.toks.length + 4 ≤ n →
    Ok imp (parseExprList n s) fun _ s' => Did imp s s'
  args : ∀ s, Good imp s → 8 * s.toks.length + 5 ≤ n →
    Ok imp (parseCallArgs n s) fun _ s' => Did imp s s'

theorem popExp_ok {s : PState} {f : Fault} (h : 1 ≤ s.exps.length) :
    Ok imp (popExp f s) fun _ s' => ∃ es, s' = { s with exps := es } ∧ es.length + 1 = s.exps.length := by
  unfold popExp
  cases he : s.exps with
  | nil => rw [he] at h; simp at h
  | cons e es => exact ⟨es, rfl, rfl⟩

theorem bins_cons (t : Token) (a : List Token) :
    bins (t :: a) = bins a + if t.type.isBinary then 1 else 0 := by
  simp [bins, List.countP_cons]

theorem opPush_ok {s : PState} {above bottom : List Token} (op : Token)
    (ho : s.ops = above ++ bottom) (hx : bins above + 1 ≤ s.exps.length) :
    Ok imp (opPush op bottom.length s) fun _ s' => ∃ above' es,
      s' = { s with ops := op :: above' ++ bottom, exps := es } ∧
      s.exps.length + bins above' = es.length + bins above := by
  obtain ⟨a3, es3, e1, e2, -, -⟩ := reduceLoop_ok (opType op.type) (bottom := bottom) above s.exps hx
  unfold opPush
  rw [ho, e1]
  exact ⟨a3, es3, rfl, e2⟩

theorem pushExp_ok {s : PState} {e : PExpr} {Q : Unit → PState → Prop}
    (h : Q () { s with exps := e :: s.exps }) : Ok imp (pushExp e s) Q := h

theorem isOperator_ok {s : PState} (h : Good imp s) :
    Ok imp (isOperator s) fun b s' => s' = s ∧
      (b = true → ∀ t ts, s.toks = t :: ts → opType t.type > 0) := by
  obtain ⟨t, ts, hs⟩ := good_cons h
  unfold isOperator
  rw [pm_bind_ok (show nextType s = .ok (t.type, s) by unfold nextType; rw [hs])]
  exact ⟨rfl, fun hb u us e => by rw [hs] at e; cases e; simpa using hb⟩

theorem allOk : ∀ n, AllOk imp n := by
  intro n
  induction n with
  | zero =>
    constructor <;> intros <;> omega
  | succ n ih =>
    constructor
    · -- parseExprEx
      intro s tide above bottom hg ho hb hx hn
      simp only [parseExprEx]
      refine (found_ok hg (by decide)).bind fun r s1 h1 => ?_
      cases r with
      | some t =>
        obtain ⟨ht, hg1, hl1, ho1, he1⟩ := h1
        dsimp only
        refine (ih.ex s1 tide above bottom hg1 (ho1 ▸ ho) hb (by rw [he1]; exact hx) (by omega)).bind
          fun _ s2 h2 => ?_
        obtain ⟨hg2, hl2, a2, ho2, he2⟩ := h2
        rw [he1] at he2
        subst hb
        refine (opPush_ok t ho2 (by omega)).mono fun _ s3 h3 => ?_
        obtain ⟨a3, es3, rfl, e2⟩ := h3
        refine ⟨hg2, by show s2.toks.length < _; omega, t :: a3, rfl, ?_⟩
        rw [bins_cons, ht]
        show _ + (_ + 0) + 1 ≤ es3.length + _
        omega
      | none =>
        obtain ⟨rfl, -⟩ := h1
        dsimp only
        refine (found_ok hg (by decide)).bind fun r s2 h2 => ?_
        cases r with
        | some t =>
          obtain ⟨ht, hg1, hl1, ho1, he1⟩ := h2
          dsimp only
          refine (ih.ex s2 tide above bottom hg1 (ho1 ▸ ho) hb (by rw [he1]; exact hx) (by omega)).bind
            fun _ s3 h3 => ?_
          obtain ⟨hg3, hl3, a3, ho3, he3⟩ := h3
          rw [he1] at he3
          refine (popExp_ok (by omega)).bind fun e s4 h4 => ?_
          obtain ⟨es, rfl, hes⟩ := h4
          refine pushExp_ok ⟨hg3, by show s3.toks.length < _; omega, a3, ho3, ?_⟩
          show _ ≤ (_ :: es).length + _
          simp only [List.length_cons]
          omega
        | none =>
          obtain ⟨rfl, -⟩ := h2
          dsimp only
          refine (ih.lhs s2 hg (by omega)).bind fun _ s3 h3 => ?_
          obtain ⟨hg3, hl3, ho3, he3⟩ := h3
          refine (ih.post s3 hg3 (by omega) (by omega)).bind fun _ s4 h4 => ?_
          obtain ⟨hg4, hl4, ho4, he4⟩ := h4
          refine (ih.tail s4 tide above bottom hg4 (by rw [ho4, ho3, ho]) hb (by omega)
            (by omega)).mono fun _ s5 h5 => ?_
          obtain ⟨hg5, hl5, a5, ho5, he5⟩ := h5
          exact ⟨hg5, by omega, a5, ho5, by omega⟩
    · -- parseTail
      intro s tide above bottom hg ho hb hx hn
      simp only [parseTail]
      refine (isOperator_ok hg).bind fun b s1 h1 => ?_
      obtain ⟨rfl, hop⟩ := h1
      cases b with
      | false => exact ⟨hg, Nat.le_refl _, above, ho, Nat.le_refl _⟩
      | true =>
        rw [if_pos rfl]
        refine (popTok_ok hg fun t ts e h => by
          have := hop rfl t ts e; rw [h] at this; exact absurd this (by decide)).bind fun t s2 h2 => ?_
        obtain ⟨-, hg2, hl2, ho2, he2⟩ := h2
        subst hb
        refine (opPush_ok t (by rw [ho2, ho]) (by rw [he2]; exact hx)).bind fun _ s3 h3 => ?_
        obtain ⟨a3, es3, rfl, e3⟩ := h3
        rw [he2] at e3
        have hbc := bins_cons t a3
        have h01 : (if t.type.isBinary then 1 else 0) ≤ 1 := by split <;> omega
        refine (ih.ex { s2 with ops := t :: a3 ++ bottom, exps := es3 } _ (t :: a3) bottom hg2 rfl rfl (show bins (t :: a3) ≤ es3.length by omega)
          (show 8 * s2.toks.length + 2 ≤ n by omega)).mono fun _ s4 h4 => ?_
        obtain ⟨hg4, hl4, a4, ho4, he4⟩ := h4
        refine ⟨hg4, ?_, a4, ho4, ?_⟩
        · have : s4.toks.length < s2.toks.length := hl4
          omega
        · have : es3.length + bins a4 + 1 ≤ s4.exps.length + bins (t :: a3) := he4
          omega
    · -- parsePostfix
      intro s hg hx hn
      simp only [parsePostfix]
      refine (found_ok hg (by decide)).bind fun r s1 h1 => ?_
      cases r with
      | some t =>
        obtain ⟨ht, hg1, hl1, ho1, he1⟩ := h1
        dsimp only
        refine (popExp_ok (by rw [he1]; exact hx)).bind fun e s2 h2 => ?_
        obtain ⟨es, rfl, hes⟩ := h2
        refine (ih.expr { s1 with exps := es } hg1 (show 8 * s1.toks.length + 3 ≤ n by omega)).bind fun i s3 h3 => ?_
        obtain ⟨hg3, hl3, ho3, he3⟩ := h3
        refine Ok.bind (pushExp_ok (Q := fun _ s' => s' = { s3 with exps := .deref t e i :: s3.exps }) rfl)
          fun _ s4 h4 => ?_
        subst h4
        refine (popType_ok (ty := .RBRACKET) (s := { s3 with exps := .deref t e i :: s3.exps }) hg3 (by decide) (by nofun) (by decide)).bind fun _ s5 h5 => ?_
        obtain ⟨-, hg5, hl5, ho5, he5⟩ := h5
        have a1 : s3.toks.length < s1.toks.length := hl3
        have a2 : es.length ≤ s3.exps.length := he3
        have a3 : s5.toks.length + 1 = s3.toks.length := hl5
        have a4 : s5.exps.length = s3.exps.length + 1 := by rw [he5]; rfl
        have a5 : s3.ops = s1.ops := ho3
        have a6 : s5.ops = s3.ops := ho5
        refine (ih.post s5 hg5 (by omega) (by omega)).mono fun _ s6 h6 => ?_
        obtain ⟨hg6, hl6, ho6, he6⟩ := h6
        refine ⟨hg6, by omega, by rw [ho6, a6, a5, ho1], ?_⟩
        rw [he1] at hes
        omega
      | none =>
        obtain ⟨rfl, -⟩ := h1
        dsimp only
        refine (found_ok hg (by decide)).bind fun r s2 h2 => ?_
        cases r with
        | some t =>
          obtain ⟨ht, hg1, hl1, ho1, he1⟩ := h2
          dsimp only
          refine (ih.args s2 hg1 (by omega)).bind fun as s3 h3 => ?_
          obtain ⟨hg3, hl3, ho3, he3⟩ := h3
          rw [he1] at he3
          refine (popExp_ok (by omega)).bind fun e s4 h4 => ?_
          obtain ⟨es, rfl, hes⟩ := h4
          refine Ok.bind (pushExp_ok (Q := fun _ s' => s' = { s3 with exps := .call t e as :: es }) rfl)
            fun _ s5 h5 => ?_
          subst h5
          refine (ih.post { s3 with exps := .call t e as :: es } hg3 (Nat.le_add_left _ _) (show 8 * s3.toks.length + 1 ≤ n by omega)).mono fun _ s6 h6 => ?_
          obtain ⟨hg6, hl6, ho6, he6⟩ := h6
          have a1 : s6.toks.length ≤ s3.toks.length := hl6
          have a2 : es.length + 1 ≤ s6.exps.length := he6
          have a3 : s6.ops = s3.ops := ho6
          exact ⟨hg6, by omega, by rw [a3, ho3, ho1], by omega⟩
        | none =>
          obtain ⟨rfl, -⟩ := h2
          exact ⟨hg, Nat.le_refl _, rfl, Nat.le_refl _⟩
    · -- parseLhs
      intro s hg hn
      simp only [parseLhs]
      refine (found_ok hg (by decide)).bind fun r s1 h1 => ?_
      cases r with
      | some t =>
        obtain ⟨ht, hg1, hl1, ho1, he1⟩ := h1
        dsimp only
        refine (ih.list _ hg1 (by omega)).bind fun es s3 h3 => ?_
        obtain ⟨hg3, hl3, ho3, he3⟩ := h3
        refine Ok.bind (pushExp_ok (Q := fun _ s' => s' = { s3 with exps := .arr t es :: s3.exps }) rfl)
          fun _ s4 h4 => ?_
        subst h4
        refine (popType_ok (ty := .RBRACKET) (s := { s3 with exps := .arr t es :: s3.exps }) hg3 (by decide) (by nofun) (by decide)).bind fun _ s5 h5 => ?_
        obtain ⟨-, hg5, hl5, ho5, he5⟩ := h5
        have a3 : s5.toks.length + 1 = s3.toks.length := hl5
        have a4 : s5.exps.length = s3.exps.length + 1 := by rw [he5]; rfl
        have a6 : s5.ops = s3.ops := ho5
        rw [he1] at he3
        exact ⟨hg5, by omega, by rw [a6, ho3, ho1], by omega⟩
      | none =>
        obtain ⟨rfl, -⟩ := h1
        dsimp only
        refine (found_ok hg (by decide)).bind fun r s2 h2 => ?_
        cases r with
        | some t =>
          obtain ⟨ht, hg1, hl1, ho1, he1⟩ := h2
          dsimp only
          refine (ih.expr _ hg1 (by omega)).bind fun es s3 h3 => ?_
          obtain ⟨hg3, hl3, ho3, he3⟩ := h3
          refine Ok.bind (pushExp_ok (Q := fun _ s' => s' = { s3 with exps := es :: s3.exps }) rfl)
            fun _ s4 h4 => ?_
          subst h4
          refine (popType_ok (ty := .RPAREN) (s := { s3 with exps := es :: s3.exps }) hg3 (by decide) (by nofun) (by decide)).bind fun _ s5 h5 => ?_
          obtain ⟨-, hg5, hl5, ho5, he5⟩ := h5
          have a3 : s5.toks.length + 1 = s3.toks.length := hl5
          have a4 : s5.exps.length = s3.exps.length + 1 := by rw [he5]; rfl
          have a6 : s5.ops = s3.ops := ho5
          rw [he1] at he3
          exact ⟨hg5, by omega, by rw [a6, ho3, ho1], by omega⟩
        | none =>
          obtain ⟨rfl, -⟩ := h2
          dsimp only
          refine (found_ok hg (by decide)).bind fun r s3 h3 => ?_
          cases r with
          | some t =>
            obtain ⟨ht, hg1, hl1, ho1, he1⟩ := h3
            dsimp only
            refine (found_ok hg1 (by decide)).bind fun r s4 h4 => ?_
            cases r with
            | some d =>
              obtain ⟨-, hg4, hl4, ho4, he4⟩ := h4
              dsimp only
              refine (popType_ok hg4 (by decide) (by nofun) (by decide)).bind fun m s5 h5 => ?_
              obtain ⟨-, hg5, hl5, ho5, he5⟩ := h5
              refine pushExp_ok ⟨hg5, by show s5.toks.length < _; omega, ?_, ?_⟩
              · show s5.ops = _
                rw [ho5, ho4, ho1]
              · show _ ≤ (_ :: s5.exps).length
                rw [he5, he4, he1]; simp
            | none =>
              obtain ⟨rfl, -⟩ := h4
              dsimp only
              refine pushExp_ok ⟨hg1, by show s4.toks.length < _; omega, ho1, ?_⟩
              show _ ≤ (_ :: s4.exps).length
              rw [he1]; simp
          | none =>
            obtain ⟨rfl, -⟩ := h3
            dsimp only
            obtain ⟨t, ts, hs⟩ := good_cons hg
            rw [pm_bind_ok (show popTok s3 = .ok (t, { s3 with toks := ts, line := t.line }) by
              unfold popTok; rw [hs])]
            cases hl : literalNode t with
            | some e =>
              dsimp only
              have hne : t.type ≠ .EOF := by
                intro h; simp [literalNode, h] at hl
              obtain ⟨h1, h2, h3, h4⟩ := next_of (l := t.line) hg hs hne
              refine pushExp_ok ⟨h1, ?_, rfl, ?_⟩
              · have : ts.length + 1 = s3.toks.length := h2
                show ts.length < _
                omega
              · show _ ≤ (_ :: s3.exps).length
                simp
            | none =>
              exact errTok_ok fun e => hg.2 t (by rw [hs]; simp) e
    · -- parseExpr
      intro s hg hn
      simp only [parseExpr]
      rw [pm_bind_ok (show (get : PM PState) s = .ok (s, s) from rfl)]
      refine (ih.ex s _ [] s.ops hg rfl rfl (by simp [bins]) (by omega)).bind fun _ s1 h1 => ?_
      obtain ⟨hg1, hl1, a1, ho1, he1⟩ := h1
      obtain ⟨a3, es3, e1, e2, -, e4⟩ := reduceLoop_ok 0 (bottom := s.ops) a1 s1.exps (by
        simp only [bins, List.countP_nil] at he1 ⊢; omega)
      cases e4 rfl
      have hp : opPopAll s.ops.length s1 = .ok ((), { s1 with ops := s.ops, exps := es3 }) := by
        unfold opPopAll; rw [ho1, e1]; rfl
      rw [pm_bind_ok hp]
      simp only [bins, List.countP_nil] at he1 e2
      refine (popExp_ok (show 1 ≤ es3.length by omega)).mono fun _ s2 h2 => ?_
      obtain ⟨es, rfl, hes⟩ := h2
      have : es.length + 1 = es3.length := hes
      exact ⟨hg1, hl1, rfl, show s.exps.length ≤ es.length by omega⟩
    · -- parseExprList
      intro s hg hn
      simp only [parseExprList]
      refine (ih.expr s hg (by omega)).bind fun e s1 h1 => ?_
      obtain ⟨hg1, hl1, ho1, he1⟩ := h1
      refine (found_ok hg1 (by decide)).bind fun r s2 h2 => ?_
      cases r with
      | some t =>
        obtain ⟨-, hg2, hl2, ho2, he2⟩ := h2
        dsimp only
        refine (ih.list s2 hg2 (by omega)).bind fun es s3 h3 => ?_
        obtain ⟨hg3, hl3, ho3, he3⟩ := h3
        rw [he2] at he3
        exact ⟨hg3, by omega, by rw [ho3, ho2, ho1], by omega⟩
      | none =>
        obtain ⟨rfl, -⟩ := h2
        exact ⟨hg1, hl1, ho1, he1⟩
    · -- parseCallArgs
      intro s hg hn
      simp only [parseCallArgs]
      refine (found_ok hg (by decide)).bind fun r s1 h1 => ?_
      cases r with
      | some t =>
        obtain ⟨-, hg1, hl1, ho1, he1⟩ := h1
        exact ⟨hg1, by omega, ho1, by rw [he1]; exact Nat.le_refl _⟩
      | none =>
        obtain ⟨rfl, -⟩ := h1
        dsimp only
        refine (ih.list s1 hg (by omega)).bind fun es s3 h3 => ?_
        obtain ⟨hg3, hl3, ho3, he3⟩ := h3
        refine (popType_ok hg3 (by decide) (by nofun) (by decide)).bind fun m s5 h5 => ?_
        obtain ⟨-, hg5, hl5, ho5, he5⟩ := h5
        exact ⟨hg5, by omega, by rw [ho5, ho3], by rw [he5]; exact he3⟩

/-! ### Statements -/

/-- `Did`, allowing the function to consume nothing. -/
def DidLe (imp : Prop) (s s' : PState) : Prop :=
  Good imp s' ∧ s'.toks.length ≤ s.toks.length ∧ s'.ops = s.ops ∧ s.exps.length ≤ s'.exps.length

theorem Next.did {s s' : PState} (h : Next imp s s') : Did imp s s' :=
  ⟨h.1, by have := h.2.1; omega, h.2.2.1, by rw [h.2.2.2]; exact Nat.le_refl _⟩

theorem Le.did {s s' : PState} (h : Le imp s s') : DidLe imp s s' :=
  ⟨h.1, h.2.1, h.2.2.1, by rw [h.2.2.2]; exact Nat.le_refl _⟩

theorem Did.le {s s' : PState} (h : Did imp s s') : DidLe imp s s' :=
  ⟨h.1, Nat.le_of_lt h.2.1, h.2.2⟩

theorem DidLe.refl {s : PState} (h : Good imp s) : DidLe imp s s :=
  ⟨h, Nat.le_refl _, rfl, Nat.le_refl _⟩

theorem DidLe.trans {a b c : PState} (h : DidLe imp a b) (k : DidLe imp b c) : DidLe imp a c :=
  ⟨k.1, Nat.le_trans k.2.1 h.2.1, k.2.2.1.trans h.2.2.1, Nat.le_trans h.2.2.2 k.2.2.2⟩

theorem Did.trans {a b c : PState} (h : Did imp a b) (k : DidLe imp b c) : Did imp a c :=
  ⟨k.1, Nat.lt_of_le_of_lt k.2.1 h.2.1, k.2.2.1.trans h.2.2.1, Nat.le_trans h.2.2.2 k.2.2.2⟩

theorem DidLe.trans' {a b c : PState} (h : DidLe imp a b) (k : Did imp b c) : Did imp a c :=
  ⟨k.1, Nat.lt_of_lt_of_le k.2.1 h.2.1, k.2.2.1.trans h.2.2.1, Nat.le_trans h.2.2.2 k.2.2.2⟩

/-- `pop(type)` with what matters afterwards. -/
theorem pop_did {s : PState} (h : Good imp s) {ty : Tok} (hty : ty ≠ .EOF)
    (hn : ty ≠ .STRING) (hi : ty ≠ .IMPORT) : Ok imp (popType ty s) fun _ s' => Did imp s s' :=
  (popType_ok h hty (fun e => absurd e hn) hi).mono fun _ _ h => h.2.did

theorem found_did {s : PState} (h : Good imp s) {ty : Tok} (hty : ty ≠ .EOF) :
    Ok imp (found ty s) fun r s' => match r with
      | none => s' = s
      | some _ => Did imp s s' :=
  (found_ok h hty).mono fun r _ h => by
    cases r with
    | none => exact h.1
    | some t => exact h.2.did

theorem expr_did {n : Nat} {s : PState} (h : Good imp s) (hn : 8 * s.toks.length + 3 ≤ n) :
    Ok imp (parseExpr n s) fun _ s' => Did imp s s' := (allOk n).expr s h hn

theorem pure_ok {s : PState} {a : α} {Q : α → PState → Prop} (h : Q a s) :
    Ok imp ((pure a : PM α) s) Q := h

theorem declVar_ok {n : Nat} {s : PState} (h : Good imp s) (hn : 8 * s.toks.length ≤ n + 1) :
    Ok imp (parseDeclVar n s) fun _ s' => Did imp s s' := by
  simp only [parseDeclVar]
  refine (pop_did h (by decide) (by decide) (by decide)).bind fun _ s1 h1 => ?_
  refine (found_did h1.1 (by decide)).bind fun r s2 h2 => ?_
  cases r with
  | none => cases h2; exact pure_ok h1
  | some t =>
    have a1 := h1.2.1
    have a2 := h2.2.1
    exact (expr_did h2.1 (by omega)).bind fun _ s3 h3 => pure_ok (h1.trans (h2.trans h3.le).le)

theorem compound_ok {n : Nat} {s : PState} (t : Token) (h : Good imp s)
    (hne : ∀ t ts, s.toks = t :: ts → t.type ≠ .EOF) (hn : 8 * s.toks.length ≤ n + 1) :
    Ok imp (parseCompound n t s) fun _ s' => Did imp s s' := by
  simp only [parseCompound]
  refine (popTok_ok h hne).bind fun _ s1 h1 => ?_
  have h1 := h1.2.did
  refine (found_did h1.1 (by decide)).bind fun r s2 h2 => ?_
  cases r with
  | none => trivial
  | some t =>
    have a1 := h1.2.1
    have a2 := h2.2.1
    exact (expr_did h2.1 (by omega)).bind fun _ s3 h3 => pure_ok (h1.trans (h2.trans h3.le).le)

theorem memberAssign_ok {n : Nat} {s : PState} (t : Token) (h : Good imp s)
    (hn : 8 * s.toks.length ≤ n + 1) :
    Ok imp (parseMemberAssign n t s) fun _ s' => Did imp s s' := by
  simp only [parseMemberAssign]
  refine (pop_did h (by decide) (by decide) (by decide)).bind fun _ s1 h1 => ?_
  refine (pop_did h1.1 (by decide) (by decide) (by decide)).bind fun _ s2 h2 => ?_
  refine (pop_did h2.1 (by decide) (by decide) (by decide)).bind fun _ s3 h3 => ?_
  have a1 := h1.2.1
  have a2 := h2.2.1
  have a3 := h3.2.1
  exact (expr_did h3.1 (by omega)).bind fun _ s4 h4 =>
    pure_ok (h1.trans (h2.trans (h3.trans h4.le).le).le)

theorem arraySet_ok {n : Nat} {s : PState} (t : Token) (h : Good imp s)
    (hn : 8 * s.toks.length + 3 ≤ n) :
    Ok imp (parseArraySet n t s) fun _ s' => Did imp s s' := by
  simp only [parseArraySet]
  refine (expr_did h hn).bind fun _ s1 h1 => ?_
  refine (pop_did h1.1 (by decide) (by decide) (by decide)).bind fun _ s2 h2 => ?_
  refine (pop_did h2.1 (by decide) (by decide) (by decide)).bind fun _ s3 h3 => ?_
  have a1 := h1.2.1
  have a2 := h2.2.1
  have a3 := h3.2.1
  exact (expr_did h3.1 (by omega)).bind fun _ s4 h4 =>
    pure_ok (h1.trans (h2.trans (h3.trans h4.le).le).le)

theorem peek_ok {s : PState} (h : Good imp s) :
    Ok imp (peekTok s) fun t s' => s' = s ∧ ∃ ts, s.toks = t :: ts := by
  obtain ⟨t, ts, hs⟩ := good_cons h
  unfold peekTok
  rw [hs]
  exact ⟨rfl, ts, rfl⟩

theorem return_ok {n : Nat} {s : PState} (t : Token) (h : Good imp s)
    (hn : 8 * s.toks.length + 3 ≤ n) :
    Ok imp (parseReturn n t s) fun _ s' => DidLe imp s s' := by
  simp only [parseReturn]
  refine (peek_ok h).bind fun p s1 h1 => ?_
  obtain ⟨rfl, -⟩ := h1
  by_cases hp : p.type = .EOL
  · rw [if_pos hp]; exact pure_ok (DidLe.refl h)
  · rw [if_neg hp]
    exact (expr_did h hn).bind fun _ s2 h2 => pure_ok h2.le

theorem condition_ok {n : Nat} {s : PState} (h : Good imp s) (hn : 8 * s.toks.length ≤ n + 5) :
    Ok imp (parseCondition n s) fun _ s' => Did imp s s' := by
  simp only [parseCondition]
  refine (pop_did h (by decide) (by decide) (by decide)).bind fun _ s1 h1 => ?_
  have a1 := h1.2.1
  refine (expr_did h1.1 (by omega)).bind fun _ s2 h2 => ?_
  refine (pop_did h2.1 (by decide) (by decide) (by decide)).bind fun _ s3 h3 => ?_
  exact (pop_did h3.1 (by decide) (by decide) (by decide)).bind fun _ s4 h4 =>
    pure_ok (h1.trans (h2.trans (h3.trans h4.le).le).le)

theorem forHead_ok {n : Nat} {s : PState} (h : Good imp s) (hn : 8 * s.toks.length ≤ n + 5) :
    Ok imp (parseForHead n s) fun _ s' => Did imp s s' := by
  simp only [parseForHead]
  refine (pop_did h (by decide) (by decide) (by decide)).bind fun _ s1 h1 => ?_
  refine (pop_did h1.1 (by decide) (by decide) (by decide)).bind fun _ s2 h2 => ?_
  refine (pop_did h2.1 (by decide) (by decide) (by decide)).bind fun _ s3 h3 => ?_
  have a1 := h1.2.1
  have a2 := h2.2.1
  have a3 := h3.2.1
  refine (expr_did h3.1 (by omega)).bind fun _ s4 h4 => ?_
  refine (pop_did h4.1 (by decide) (by decide) (by decide)).bind fun _ s5 h5 => ?_
  have a4 := h4.2.1
  have a5 := h5.2.1
  refine (expr_did h5.1 (by omega)).bind fun _ s6 h6 => ?_
  refine (pop_did h6.1 (by decide) (by decide) (by decide)).bind fun _ s7 h7 => ?_
  exact (pop_did h7.1 (by decide) (by decide) (by decide)).bind fun _ s8 h8 =>
    pure_ok (h1.trans (h2.trans (h3.trans (h4.trans (h5.trans (h6.trans (h7.trans h8.le).le).le).le).le).le).le)

theorem named_ok {n : Nat} {s : PState} (t : Token) (h : Good imp s) (ht : t.type = .IMPORT → imp)
    (hn : 8 * s.toks.length + 3 ≤ n) :
    Ok imp (parseNamed n t s) fun _ s' => Did imp s s' := by
  simp only [parseNamed]
  refine (peek_ok h).bind fun p s1 h1 => ?_
  obtain ⟨rfl, ts, hs⟩ := h1
  by_cases hp : p.type = .EOF
  · rw [hp]
    exact errTok_ok ht
  have hne : ∀ t ts, s1.toks = t :: ts → t.type ≠ .EOF := by
    intro u us e; rw [hs] at e; cases e; exact hp
  cases hty : p.type
  case ADD =>
    exact compound_ok t h hne (by omega)
  case SUB =>
    exact compound_ok t h hne (by omega)
  case MUL =>
    exact compound_ok t h hne (by omega)
  case DIV =>
    exact compound_ok t h hne (by omega)
  case DOT =>
    exact memberAssign_ok t h (by omega)
  case ASSIGN =>
    refine (popTok_ok h hne).bind fun _ s2 h2 => ?_
    have h2 := h2.2.did
    have a2 := h2.2.1
    simp only [parseAssign]
    exact (expr_did h2.1 (by omega)).bind fun _ s3 h3 => pure_ok (h2.trans h3.le)
  case LPAREN =>
    refine (popTok_ok h hne).bind fun _ s2 h2 => ?_
    have h2 := h2.2.did
    have a2 := h2.2.1
    exact ((allOk n).args s2 h2.1 (by omega)).bind fun _ s3 h3 => pure_ok (h2.trans h3.le)
  case LBRACKET =>
    refine (popTok_ok h hne).bind fun _ s2 h2 => ?_
    have h2 := h2.2.did
    have a2 := h2.2.1
    exact (arraySet_ok t h2.1 (by omega)).mono fun _ s3 h3 => (h2.trans h3.le)
  all_goals
    exact errTok_ok ht

/-- The specifications of the statement functions with fuel `n`. -/
structure StmtOk (imp : Prop) (n : Nat) : Prop where
  stmt : ∀ s, Good imp s → 8 * s.toks.length + 1 ≤ n →
    Ok imp (parseStmt n s) fun _ s' => Did imp s s'
  kind : ∀ s t, Good imp s → (t.type = .IMPORT → imp) → 8 * s.toks.length + 4 ≤ n →
    Ok imp (parseStmtKind n t s) fun _ s' => DidLe imp s s'
  block : ∀ s, Good imp s → 8 * s.toks.length + 2 ≤ n →
    Ok imp (parseBlock n s) fun _ s' => Did imp s s'
  thn : ∀ s, Good imp s → 8 * s.toks.length + 2 ≤ n →
    Ok imp (parseThen n s) fun _ s' => Did imp s s'

theorem kind_eof (n : Nat) (t : Token) (s : PState) (h : t.type = .EOF) {Q : PStmt → PState → Prop} :
    Ok imp (parseStmtKind (n + 1) t s) Q := by
  simp only [parseStmtKind]
  rw [h]
  exact errTok_ok (by rw [h]; nofun)

theorem stmtOk : ∀ n, StmtOk imp n := by
  intro n
  induction n with
  | zero => constructor <;> intros <;> omega
  | succ n ih =>
    constructor
    · intro s hg hn
      simp only [parseStmt]
      refine (skipEols_ok hg).bind fun _ s1 h1 => ?_
      have h1 := h1.did
      have a1 := h1.2.1
      obtain ⟨t, ts, hs⟩ := good_cons h1.1
      rw [pm_bind_ok (show popTok s1 = .ok (t, { s1 with toks := ts, line := t.line }) by
        unfold popTok; rw [hs])]
      by_cases ht : t.type = .EOF
      · obtain ⟨m, rfl⟩ : ∃ m, n = m + 1 := ⟨n - 1, by
          have : s1.toks.length = ts.length + 1 := by rw [hs]; rfl
          omega⟩
        exact (kind_eof m t _ ht (Q := fun _ _ => False)).bind fun _ _ h => h.elim
      · have h2 := (next_of (l := t.line) h1.1 hs ht).did
        have a2 := h2.2.1
        refine (ih.kind _ t h2.1 (fun e => h1.1.2 t (by rw [hs]; simp) e) (by omega)).bind fun _ s3 h3 => ?_
        refine (pop_did h3.1 (by decide) (by decide) (by decide)).bind fun _ s4 h4 => ?_
        refine (skipEols_ok h4.1).bind fun _ s5 h5 => ?_
        exact pure_ok (h1.trans' (h2.trans (h3.trans (h4.le.trans h5.did))))
    · intro s t hg ht hn
      simp only [parseStmtKind]
      cases hty : t.type
      case VAR =>
        exact (declVar_ok hg (by omega)).bind fun _ s1 h1 => pure_ok h1.le
      case IDENT =>
        exact (named_ok t hg ht (by omega)).mono fun _ s1 h1 => h1.le
      case IF =>
        refine (condition_ok hg (by omega)).bind fun _ s1 h1 => ?_
        have a1 := h1.2.1
        refine (ih.thn s1 h1.1 (by omega)).bind fun p s2 h2 => ?_
        obtain ⟨thn, b⟩ := p
        have a2 := h2.2.1
        cases b with
        | false => exact pure_ok (h1.le.trans h2.le)
        | true =>
          exact (ih.block s2 h2.1 (by omega)).bind fun _ s3 h3 =>
            pure_ok (h1.le.trans (h2.le.trans h3.le))
      case WHILE =>
        refine (condition_ok hg (by omega)).bind fun _ s1 h1 => ?_
        have a1 := h1.2.1
        exact (ih.block s1 h1.1 (by omega)).bind fun p s2 h2 => pure_ok (h1.le.trans h2.le)
      case FOR =>
        refine (forHead_ok hg (by omega)).bind fun _ s1 h1 => ?_
        have a1 := h1.2.1
        exact (ih.block s1 h1.1 (by omega)).bind fun p s2 h2 => pure_ok (h1.le.trans h2.le)
      case RETURN =>
        exact return_ok t hg (by omega)
      all_goals
        exact errTok_ok ht
    · intro s hg hn
      simp only [parseBlock]
      refine (found_did hg (by decide)).bind fun r s1 h1 => ?_
      cases r with
      | some t => exact pure_ok h1
      | none =>
        cases h1
        refine (ih.stmt s hg (by omega)).bind fun _ s2 h2 => ?_
        have a2 := h2.2.1
        exact (ih.block s2 h2.1 (by omega)).bind fun _ s3 h3 => pure_ok (h2.trans h3.le)
    · intro s hg hn
      simp only [parseThen]
      refine (found_did hg (by decide)).bind fun r s1 h1 => ?_
      cases r with
      | some t => exact pure_ok h1
      | none =>
        cases h1
        dsimp only
        refine (found_did hg (by decide)).bind fun r s1 h1 => ?_
        cases r with
        | some t =>
          exact (pop_did h1.1 (by decide) (by decide) (by decide)).bind fun _ s2 h2 =>
            pure_ok (h1.trans h2.le)
        | none =>
          cases h1
          refine (ih.stmt s hg (by omega)).bind fun _ s2 h2 => ?_
          have a2 := h2.2.1
          exact (ih.thn s2 h2.1 (by omega)).bind fun _ s3 h3 => pure_ok (h2.trans h3.le)

theorem body_ok : ∀ (n : Nat) (s : PState), Good imp s → 8 * s.toks.length + 2 ≤ n →
    Ok imp (parseBody n s) fun _ s' => Did imp s s' := by
  intro n
  induction n with
  | zero => intros; omega
  | succ n ih =>
    intro s hg hn
    simp only [parseBody]
    refine (found_did hg (by decide)).bind fun r s1 h1 => ?_
    cases r with
    | some t => exact pure_ok h1
    | none =>
      cases h1
      refine ((stmtOk n).stmt s hg (by omega)).bind fun _ s2 h2 => ?_
      have a2 := h2.2.1
      exact (ih s2 h2.1 (by omega)).bind fun _ s3 h3 => pure_ok (h2.trans h3.le)

theorem argNames_ok : ∀ (n : Nat) (s : PState), Good imp s → s.toks.length + 1 ≤ n →
    Ok imp (parseArgNames n s) fun _ s' => Did imp s s' := by
  intro n
  induction n with
  | zero => intros; omega
  | succ n ih =>
    intro s hg hn
    simp only [parseArgNames]
    refine (pop_did hg (by decide) (by decide) (by decide)).bind fun _ s1 h1 => ?_
    refine (found_did h1.1 (by decide)).bind fun r s2 h2 => ?_
    cases r with
    | none => cases h2; exact pure_ok h1
    | some t =>
      have a1 := h1.2.1
      have a2 := h2.2.1
      exact (ih s2 h2.1 (by omega)).bind fun _ s3 h3 => pure_ok (h1.trans (h2.trans h3.le).le)

theorem args_ok {n : Nat} {s : PState} (hg : Good imp s) (hn : s.toks.length ≤ n) :
    Ok imp (parseArgs n s) fun _ s' => Did imp s s' := by
  simp only [parseArgs]
  refine (pop_did hg (by decide) (by decide) (by decide)).bind fun _ s1 h1 => ?_
  refine (found_did h1.1 (by decide)).bind fun r s2 h2 => ?_
  cases r with
  | some t => exact pure_ok (h1.trans h2.le)
  | none =>
    cases h2
    have a1 := h1.2.1
    refine (argNames_ok n s1 h1.1 (by omega)).bind fun _ s3 h3 => ?_
    exact (pop_did h3.1 (by decide) (by decide) (by decide)).bind fun _ s4 h4 =>
      pure_ok (h1.trans (h3.trans h4.le).le)

theorem function_ok {n : Nat} {s : PState} (hg : Good imp s) (hn : 8 * s.toks.length ≤ n + 8) :
    Ok imp (parseFunction n s) fun _ s' => Did imp s s' := by
  obtain ⟨t, ts, hs⟩ := good_cons hg
  simp only [parseFunction]
  refine (pop_did hg (by decide) (by decide) (by decide)).bind fun _ s1 h1 => ?_
  have a1 := h1.2.1
  obtain ⟨t', ts', hs'⟩ := good_cons h1.1
  have a1' : 1 ≤ s1.toks.length := by rw [hs']; simp
  refine (args_ok h1.1 (by omega)).bind fun _ s2 h2 => ?_
  refine (pop_did h2.1 (by decide) (by decide) (by decide)).bind fun _ s3 h3 => ?_
  have a2 := h2.2.1
  have a3 := h3.2.1
  exact (body_ok n s3 h3.1 (by omega)).bind fun _ s4 h4 =>
    pure_ok (h1.trans (h2.trans (h3.trans h4.le).le).le)

theorem import_ok {fs : Str → Option Str} {cur : Source} {s : PState} (hg : Good imp s) (hi : imp) :
    Ok imp (parseImport fs cur s) fun _ s' => Did imp s s' := by
  simp only [parseImport]
  refine (popType_ok hg (by decide) (fun _ => hi) (by decide)).bind fun t s1 h1 => ?_
  have h1 := h1.2.did
  cases hl : loadSource fs s1.srcs (cstr (importedPath cur (cstr t.str))) with
  | mk b srcs =>
    cases b with
    | true => simp only [hl]; exact h1
    | false => simp only [hl]; exact errTok_ok fun _ => hi

/-- The whole parse. -/
theorem items_ok {fs : Str → Option Str} {cur : Source} : ∀ (n : Nat) (s : PState), Good imp s →
    8 * s.toks.length + 1 ≤ n → Ok imp (parseItems fs cur n s) fun _ s' =>
      s'.toks = [] ∧ s'.ops = s.ops ∧ s.exps.length ≤ s'.exps.length := by
  intro n
  induction n with
  | zero => intros; omega
  | succ n ih =>
    intro s hg hn
    obtain ⟨t, ts, hs⟩ := good_cons hg
    simp only [parseItems]
    by_cases he : t.type = .EOF
    · rw [pm_bind_ok (show found .EOF s = .ok (some t, { s with toks := ts, line := t.line }) by
        unfold found; rw [hs]; simp [he])]
      refine pure_ok ⟨?_, rfl, Nat.le_refl _⟩
      have := hg.1
      rw [hs] at this
      cases ts with
      | nil => rfl
      | cons u us => exact absurd he this.1
    · rw [pm_bind_ok (show found .EOF s = .ok (none, s) by unfold found; rw [hs]; simp [he])]
      dsimp only
      refine (popTok_ok hg (fun u us e => by rw [hs] at e; cases e; exact he)).bind fun u s1 h1 => ?_
      obtain ⟨⟨us, hu⟩, h1⟩ := h1
      rw [hs] at hu
      cases hu
      have h1 := h1.did
      have a1 := h1.2.1
      have hti : t.type = .IMPORT → imp := fun e => hg.2 t (by rw [hs]; simp) e
      have hbad : Ok imp ((do
          let t ← popTok
          pErr t.line "unexpected token '" t "'" : PM (List (Item Unit))) s1) fun _ s' =>
          s'.toks = [] ∧ s'.ops = s.ops ∧ s.exps.length ≤ s'.exps.length := by
        obtain ⟨v, vs, hv⟩ := good_cons h1.1
        rw [pm_bind_ok (show popTok s1 = .ok (v, { s1 with toks := vs, line := v.line }) by
          unfold popTok; rw [hv])]
        exact errTok_ok fun e => h1.1.2 v (by rw [hv]; simp) e
      cases hty : t.type
      case EOL =>
        exact (ih s1 h1.1 (by omega)).mono fun _ s2 h2 =>
          ⟨h2.1, h2.2.1.trans h1.2.2.1, Nat.le_trans h1.2.2.2 h2.2.2⟩
      case VAR =>
        refine (declVar_ok h1.1 (by omega)).bind fun _ s2 h2 => ?_
        have a2 := h2.2.1
        exact (ih s2 h2.1 (by omega)).bind fun _ s3 h3 => pure_ok
          ⟨h3.1, h3.2.1.trans (h2.2.2.1.trans h1.2.2.1),
            Nat.le_trans h1.2.2.2 (Nat.le_trans h2.2.2.2 h3.2.2)⟩
      case CONST =>
        refine (declVar_ok h1.1 (by omega)).bind fun _ s2 h2 => ?_
        have a2 := h2.2.1
        exact (ih s2 h2.1 (by omega)).bind fun _ s3 h3 => pure_ok
          ⟨h3.1, h3.2.1.trans (h2.2.2.1.trans h1.2.2.1),
            Nat.le_trans h1.2.2.2 (Nat.le_trans h2.2.2.2 h3.2.2)⟩
      case FUNC =>
        refine (function_ok h1.1 (by omega)).bind fun _ s2 h2 => ?_
        have a2 := h2.2.1
        exact (ih s2 h2.1 (by omega)).bind fun _ s3 h3 => pure_ok
          ⟨h3.1, h3.2.1.trans (h2.2.2.1.trans h1.2.2.1),
            Nat.le_trans h1.2.2.2 (Nat.le_trans h2.2.2.2 h3.2.2)⟩
      case IMPORT =>
        refine (import_ok h1.1 (hti hty)).bind fun _ s2 h2 => ?_
        have a2 := h2.2.1
        exact (ih s2 h2.1 (by omega)).mono fun _ s3 h3 =>
          ⟨h3.1, h3.2.1.trans (h2.2.2.1.trans h1.2.2.1),
            Nat.le_trans h1.2.2.2 (Nat.le_trans h2.2.2.2 h3.2.2)⟩
      all_goals exact hbad

end Safe
end Ccml
