import Verif.ParserTree
import Verif.Words
/-! What the parser accepts is a phrase of the grammar of words. -/
namespace Ccml.Lang
open Ccml

/-- What a successful run of `x` eats, from tokens with `H`. -/
def EatsIf {α : Type} (H : List Token → Prop) (x : PM α) (Q : α → List Token → Prop) : Prop :=
  ∀ s a s', H s.toks → x s = .ok (a, s') → ∃ us, s.toks = us ++ s'.toks ∧ s'.srcs = s.srcs ∧ Q a us

/-- Without a condition on the tokens. -/
abbrev Eats {α : Type} (x : PM α) (Q : α → List Token → Prop) : Prop := EatsIf (fun _ => True) x Q

variable {α β : Type} {H : List Token → Prop}

theorem EatsIf.bind {x : PM α} {f : α → PM β} {Q : α → List Token → Prop} {R : β → List Token → Prop}
    (h : EatsIf H x Q) (hf : ∀ a us, Q a us → Eats (f a) fun b vs => R b (us ++ vs)) : EatsIf H (x >>= f) R := by
  intro s b s' hh h2
  rw [pm_bind] at h2
  split at h2
  · cases h2
  · rename_i a s1 h1
    obtain ⟨us, k1, k2, k3⟩ := h s a s1 hh h1
    obtain ⟨vs, m1, m2, m3⟩ := hf a us k3 s1 b s' trivial h2
    exact ⟨us ++ vs, by rw [k1, m1, List.append_assoc], m2.trans k2, m3⟩

theorem Eats.pure {a : α} {Q : α → List Token → Prop} (h : Q a []) : Eats (Pure.pure a : PM α) Q := by
  intro s b s' _ h2
  cases h2
  exact ⟨[], rfl, rfl, h⟩

theorem EatsIf.mono {x : PM α} {Q R : α → List Token → Prop} (h : EatsIf H x Q) (k : ∀ a us, Q a us → R a us) :
    EatsIf H x R :=
  fun s a s' hh hx => let ⟨us, h1, h2, h3⟩ := h s a s' hh hx; ⟨us, h1, h2, k _ _ h3⟩

theorem EatsIf.free {x : PM α} {Q : α → List Token → Prop} (h : Eats x Q) : EatsIf H x Q :=
  fun s a s' _ hx => h s a s' trivial hx

theorem fault_eats {f : Fault} {Q} : EatsIf H (pFault f : PM α) Q := by
  intro s a s' _ h; cases h

theorem pErrHere_eats {pre post : String} {t : Token} {Q} : EatsIf H (pErrHere pre t post : PM α) Q :=
  fun _ _ _ _ h => absurd h Made.errTok_ne

theorem popTok_eats : Eats popTok fun t us => us = [t] := by
  intro s a s' _ h
  unfold popTok at h
  split at h
  · cases h
  · rename_i t ts hs
    cases h
    exact ⟨[a], hs, rfl, rfl⟩

theorem popTok_head {t : Token} : EatsIf (fun l => l.head? = some t) popTok fun a us => a = t ∧ us = [t] := by
  intro s a s' hh h
  unfold popTok at h
  split at h
  · cases h
  · rename_i u ts hs
    cases h
    rw [hs] at hh
    cases hh
    exact ⟨[t], hs, rfl, rfl, rfl⟩

theorem peek_eats {f : Token → PM α} {Q : α → List Token → Prop}
    (h : ∀ t, EatsIf (fun l => l.head? = some t) (f t) Q) : Eats (peekTok >>= f) Q := by
  intro s a s' _ hx
  rw [pm_bind] at hx
  split at hx
  · cases hx
  · rename_i t s1 h1
    unfold peekTok at h1
    split at h1
    · cases h1
    · rename_i u ts hs
      cases h1
      exact h t s a s' (by rw [hs]; rfl) hx

theorem found_bind {ty : Tok} {f : Option Token → PM α} {Q : α → List Token → Prop}
    (h1 : ∀ t, t.type = ty → Eats (f (some t)) fun b vs => Q b (t :: vs)) (h2 : Eats (f none) Q) :
    Eats (found ty >>= f) Q := by
  intro s a s' _ hx
  rw [pm_bind] at hx
  unfold found at hx
  cases hs : s.toks with
  | nil => rw [hs] at hx; cases hx
  | cons t ts =>
    rw [hs] at hx
    by_cases ht : t.type = ty
    · simp only [ht, if_true] at hx
      obtain ⟨us, k1, k2, k3⟩ := h1 t ht { s with toks := ts, line := t.line } a s' trivial hx
      exact ⟨t :: us, congrArg (t :: ·) k1, k2, k3⟩
    · simp only [ht, if_false] at hx
      obtain ⟨us, k1, k2, k3⟩ := h2 s a s' trivial hx
      exact ⟨us, by rw [← hs, k1], k2, k3⟩

theorem popType_eats (ty : Tok) : Eats (popType ty) fun t us => us = [t] ∧ t.type = ty := by
  intro s a s' _ h
  unfold popType at h
  split at h
  · cases h
  · rename_i t ts hs
    split at h
    · rename_i ht
      cases h
      exact ⟨[a], hs, rfl, rfl, ht⟩
    · unfold unexpectedToken at h
      split at h <;> cases h

theorem popType_bind {ty : Tok} {f : Token → PM α} {Q : α → List Token → Prop}
    (h : ∀ t, t.type = ty → Eats (f t) fun b vs => Q b (t :: vs)) : Eats (popType ty >>= f) Q := by
  refine (popType_eats ty).bind ?_
  rintro t _ ⟨rfl, ht⟩
  exact h t ht

/-- Functions that only work on the stacks. -/
def Still (x : PM α) : Prop := ∀ s a s', x s = .ok (a, s') → s'.toks = s.toks ∧ s'.srcs = s.srcs

theorem Still.bind {x : PM α} (hx : Still x) {f : α → PM β} {Q : β → List Token → Prop} (h : ∀ a, Eats (f a) Q) :
    Eats (x >>= f) Q := by
  intro s b s' _ h2
  rw [pm_bind] at h2
  split at h2
  · cases h2
  · rename_i a s1 h1
    obtain ⟨k1, k2⟩ := hx _ _ _ h1
    obtain ⟨us, m1, m2, m3⟩ := h a s1 b s' trivial h2
    exact ⟨us, by rw [← k1, m1], m2.trans k2, m3⟩

theorem Still.eats {x : PM α} (hx : Still x) {Q : α → List Token → Prop} (h : ∀ a, Q a []) : Eats x Q := by
  intro s b s' _ h2
  obtain ⟨k1, k2⟩ := hx _ _ _ h2
  exact ⟨[], by rw [k1]; rfl, k2, h b⟩

theorem pushExp_still (e : PExpr) : Still (pushExp e) := by
  intro s a s' h; cases h; exact ⟨rfl, rfl⟩

theorem popExp_still (f : Fault) : Still (popExp f) := by
  intro s a s' h
  unfold popExp at h
  split at h <;> cases h
  exact ⟨rfl, rfl⟩

theorem opPush_still (t : Token) (n : Nat) : Still (opPush t n) := by
  intro s a s' h
  unfold opPush at h
  split at h <;> cases h
  exact ⟨rfl, rfl⟩

theorem opPopAll_still (n : Nat) : Still (opPopAll n) := by
  intro s a s' h
  unfold opPopAll at h
  split at h <;> cases h
  exact ⟨rfl, rfl⟩

theorem operator_of : ∀ t : Tok, 0 < opType t → Operator t := by
  intro t; cases t <;> simp [opType, Operator]

theorem literal_spells {t : Token} {e : PExpr} (h : literalNode t = some e) : Spells .prim [t] := by
  unfold literalNode at h
  split at h <;> cases h
  all_goals rename_i hk
  · exact .literal (.inl hk)
  · exact .literal (.inr (.inl hk))
  · exact .literal (.inr (.inr (.inl hk)))
  · exact .literal (.inr (.inr (.inr hk)))

/-- The functions for expressions, at one amount of fuel. -/
structure Exprs (n : Nat) : Prop where
  ex : ∀ tide, Eats (parseExprEx n tide) fun _ us => Spells .expr us
  tail : ∀ tide, Eats (parseTail n tide) fun _ us => us = [] ∨ ∃ op vs, us = op :: vs ∧ Operator op.type ∧ Spells .expr vs
  post : Eats (parsePostfix n) fun _ us => Spells .post us
  lhs : Eats (parseLhs n) fun _ us => Spells .prim us
  expr : Eats (parseExpr n) fun _ us => Spells .expr us
  list : Eats (parseExprList n) fun _ us => Spells .exprs us
  args : Eats (parseCallArgs n) fun _ us => ∃ ts r, us = ts ++ [r] ∧ r.type = .RPAREN ∧ Spells .args ts

theorem exprs : ∀ n, Exprs n
  | 0 => by
    constructor <;> intros <;>
      simp only [parseExprEx, parseTail, parsePostfix, parseLhs, parseExpr, parseExprList, parseCallArgs] <;>
      exact fault_eats
  | n + 1 => by
    have ih := exprs n
    constructor
    · intro tide
      rw [parseExprEx]
      refine found_bind (fun t ht => ?_) (found_bind (fun t ht => ?_) ?_)
      · refine (ih.ex tide).bind fun _ us h => ?_
        exact (opPush_still t tide).eats fun _ => by rw [List.append_nil]; exact .unary (.inl ht) h
      · refine (ih.ex tide).bind fun _ us h => ?_
        refine (popExp_still _).bind fun e => (pushExp_still _).eats fun _ => ?_
        rw [List.append_nil]; exact .unary (.inr ht) h
      · refine ih.lhs.bind fun _ us h => ih.post.bind fun _ vs h' => (ih.tail tide).mono fun _ ws hw => ?_
        rcases hw with rfl | ⟨op, xs, rfl, ho, hx⟩
        · rw [List.append_nil]; exact .operand h h'
        · exact .binary h h' ho hx
    · intro tide
      rw [parseTail]
      intro s a s' _ hr
      rw [pm_bind] at hr
      unfold isOperator at hr
      rw [pm_bind] at hr
      unfold nextType at hr
      cases hs : s.toks with
      | nil => rw [hs] at hr; cases hr
      | cons t us =>
        rw [hs] at hr
        simp only [pm_pure] at hr
        by_cases hpos : opType t.type > 0
        · rw [decide_eq_true hpos, if_pos rfl] at hr
          have := (EatsIf.bind (H := fun l => l.head? = some t) (R := fun _ us => ∃ op vs, us = op :: vs ∧
            Operator op.type ∧ Spells .expr vs) popTok_head (f := fun op => opPush op tide >>= fun _ => parseExprEx n tide) (by
              rintro _ _ ⟨rfl, rfl⟩
              refine (opPush_still _ _).bind fun _ => (ih.ex tide).mono fun _ ws h => ?_
              exact ⟨_, ws, rfl, operator_of _ hpos, h⟩)) s a s' (by rw [hs]; rfl) hr
          obtain ⟨us', k1, k2, k3⟩ := this
          exact ⟨us', by rw [← hs]; exact k1, k2, .inr k3⟩
        · rw [decide_eq_false hpos, if_neg (by simp)] at hr
          cases hr
          exact ⟨[], by rw [hs]; rfl, rfl, .inl rfl⟩
    · rw [parsePostfix]
      refine found_bind (fun t ht => ?_) (found_bind (fun t ht => ?_) ?_)
      · refine (popExp_still _).bind fun _ => ih.expr.bind fun i us hi => (pushExp_still _).bind fun _ => ?_
        refine popType_bind fun r hr => ih.post.mono fun _ vs h => ?_
        exact .index ht hi hr h
      · refine ih.args.bind ?_
        rintro as _ ⟨us, r, rfl, hr, ha⟩
        refine (popExp_still _).bind fun _ => (pushExp_still _).bind fun _ => ih.post.mono fun _ vs h => ?_
        simpa using Spells.call ht ha hr h
      · exact Eats.pure .bare
    · rw [parseLhs]
      refine found_bind (fun t ht => ?_) (found_bind (fun t ht => ?_) (found_bind (fun t ht => ?_) ?_))
      · refine ih.list.bind fun l us hl => (pushExp_still _).bind fun _ => popType_bind fun r hr => Eats.pure ?_
        exact .arr ht hl hr
      · refine ih.expr.bind fun l us hl => (pushExp_still _).bind fun _ => popType_bind fun r hr => Eats.pure ?_
        exact .paren ht hl hr
      · exact found_bind (fun d hd => popType_bind fun m hm => (pushExp_still _).eats fun _ => .member ht hd hm)
          ((pushExp_still _).eats fun _ => .ident ht)
      · refine popTok_eats.bind ?_
        rintro t _ rfl
        cases hl : literalNode t with
        | some e => exact (pushExp_still _).eats fun _ => literal_spells hl
        | none => exact pErrHere_eats
    · rw [parseExpr]
      intro s a s' _ hr
      rw [pm_bind] at hr
      exact ((ih.ex s.ops.length).bind fun _ us h => (opPopAll_still _).bind fun _ => (popExp_still _).eats fun _ => by
        rw [List.append_nil]; exact h) s a s' trivial hr
    · rw [parseExprList]
      refine ih.expr.bind fun e us he => found_bind (fun c hc => ?_) (Eats.pure ?_)
      · refine ih.list.bind fun l vs hl => Eats.pure ?_
        simpa using Spells.more he hc hl
      · simpa using Spells.one he
    · rw [parseCallArgs]
      refine found_bind (fun c hc => Eats.pure ⟨[], c, rfl, hc, .noArgs⟩) ?_
      refine ih.list.bind fun l us hl => ?_
      exact popType_bind fun r hr => Eats.pure ⟨us, r, by simp, hr, .someArgs hl⟩

/-! ### Statements -/

theorem expr_bind {n : Nat} {f : PExpr → PM α} {Q : α → List Token → Prop}
    (h : ∀ e us, Spells .expr us → Eats (f e) fun b vs => Q b (us ++ vs)) : Eats (parseExpr n >>= f) Q :=
  (exprs n).expr.bind fun e us he => h e us he

theorem expr_last {n : Nat} {f : PExpr → α} {Q : α → List Token → Prop}
    (h : ∀ e us, Spells .expr us → Q (f e) us) : Eats (parseExpr n >>= fun e => Pure.pure (f e)) Q :=
  expr_bind fun e us he => Eats.pure (by rw [List.append_nil]; exact h e us he)

/-- What a declaration looks like behind its first word. -/
def Decl (us : List Token) : Prop :=
  ∃ name, name.type = .IDENT ∧ (us = [name] ∨ ∃ a ts, a.type = .ASSIGN ∧ Spells .expr ts ∧ us = name :: a :: ts)

theorem declVar_eats (n : Nat) : Eats (parseDeclVar n) fun _ us => Decl us := by
  unfold parseDeclVar
  refine popType_bind fun name hn => found_bind (fun a ha => ?_) (Eats.pure ⟨name, hn, .inl rfl⟩)
  exact expr_last fun e us he => ⟨name, hn, .inr ⟨a, us, ha, he, rfl⟩⟩

theorem compound_eats (n : Nat) {t op : Token} (ht : t.type = .IDENT)
    (ho : op.type = .ADD ∨ op.type = .SUB ∨ op.type = .MUL ∨ op.type = .DIV) :
    EatsIf (fun l => l.head? = some op) (parseCompound n t) fun _ us => Spells .stmt (t :: us) := by
  unfold parseCompound
  refine popTok_head.bind ?_
  rintro _ _ ⟨rfl, rfl⟩
  refine found_bind (fun a ha => ?_) ?_
  · exact expr_last fun e us he => .compound ht ho ha he
  · intro s a s' _ h
    cases h

theorem named_eats (n : Nat) {t : Token} (ht : t.type = .IDENT) :
    Eats (parseNamed n t) fun _ us => Spells .stmt (t :: us) := by
  unfold parseNamed
  refine peek_eats fun p => ?_
  split
  · rename_i hp; exact compound_eats n ht (.inl hp)
  · rename_i hp; exact compound_eats n ht (.inr (.inl hp))
  · rename_i hp; exact compound_eats n ht (.inr (.inr (.inl hp)))
  · rename_i hp; exact compound_eats n ht (.inr (.inr (.inr hp)))
  · refine EatsIf.free ?_
    unfold parseMemberAssign
    refine popType_bind fun d hd => popType_bind fun m hm => popType_bind fun a ha => ?_
    exact expr_last fun e us he => .assignMem ht hd hm ha he
  · rename_i hp
    refine popTok_head.bind ?_
    rintro _ _ ⟨rfl, rfl⟩
    unfold parseAssign
    exact expr_last fun e us he => .assign ht hp he
  · rename_i hp
    refine popTok_head.bind ?_
    rintro _ _ ⟨rfl, rfl⟩
    refine (exprs n).args.bind ?_
    rintro as _ ⟨ts, r, rfl, hr, ha⟩
    refine Eats.pure ?_
    simpa using Spells.callS ht hp ha hr
  · rename_i hp
    refine popTok_head.bind ?_
    rintro _ _ ⟨rfl, rfl⟩
    unfold parseArraySet
    refine expr_bind fun i us hi => popType_bind fun r hr => popType_bind fun a ha => ?_
    refine expr_last fun e vs he => ?_
    simpa using Spells.assignArr ht hp hi hr ha he
  · exact pErrHere_eats

theorem return_eats (n : Nat) {t : Token} (ht : t.type = .RETURN) :
    Eats (parseReturn n t) fun _ us => Spells .stmt (t :: us) := by
  unfold parseReturn
  refine peek_eats fun p => EatsIf.free ?_
  split
  · exact Eats.pure (.ret ht)
  · exact expr_last fun e us he => .retVal ht he

theorem condition_bind {n : Nat} {f : PExpr → PM α} {Q : α → List Token → Prop}
    (h : ∀ l c r e ts, l.type = .LPAREN → Spells .expr ts → r.type = .RPAREN → e.type = .EOL →
      Eats (f c) fun b vs => Q b (l :: (ts ++ (r :: e :: vs)))) : Eats (parseCondition n >>= f) Q := by
  unfold parseCondition
  simp only [bind_assoc, pure_bind]
  refine popType_bind fun l hl => expr_bind fun c ts hc => popType_bind fun r hr => popType_bind fun e he => ?_
  exact (h l c r e ts hl hc hr he).mono fun b vs hq => by simpa using hq

theorem forHead_bind {n : Nat} {f : Token × PExpr × PExpr → PM α} {Q : α → List Token → Prop}
    (h : ∀ x l name a o r e ts us, l.type = .LPAREN → name.type = .IDENT → a.type = .ASSIGN →
      Spells .expr ts → o.type = .TO → Spells .expr us → r.type = .RPAREN → e.type = .EOL →
      Eats (f x) fun b vs => Q b (l :: name :: a :: (ts ++ (o :: (us ++ (r :: e :: vs)))))) :
    Eats (parseForHead n >>= f) Q := by
  unfold parseForHead
  simp only [bind_assoc, pure_bind]
  refine popType_bind fun l hl => popType_bind fun name hn => popType_bind fun a ha =>
    expr_bind fun x ts hx => popType_bind fun o ho => expr_bind fun y us hy =>
    popType_bind fun r hr => popType_bind fun e he => ?_
  exact (h _ l name a o r e ts us hl hn ha hx ho hy hr he).mono fun b vs hq => by simpa using hq

theorem skip_go : ∀ (ts : List Token) (l : SrcLine) {us : List Token} {l' : SrcLine},
    skipEols.go ts l = .ok (us, l') → ∃ vs, Blank vs ∧ ts = vs ++ us
  | [], l, us, l', h => by rw [skipEols.go] at h; cases h
  | t :: ts, l, us, l', h => by
    rw [skipEols.go] at h
    split at h
    · rename_i ht
      obtain ⟨vs, h1, h2⟩ := skip_go ts _ h
      refine ⟨t :: vs, ?_, by rw [h2]; rfl⟩
      intro u hu
      rcases List.mem_cons.1 hu with rfl | hu
      · exact ht
      · exact h1 u hu
    · cases h
      exact ⟨[], (fun _ h => by cases h), rfl⟩

theorem skip_bind {f : Unit → PM α} {Q : α → List Token → Prop}
    (h : ∀ vs, Blank vs → Eats (f ()) fun b us => Q b (vs ++ us)) : Eats (skipEols >>= f) Q := by
  intro s a s' _ hx
  rw [pm_bind] at hx
  unfold skipEols at hx
  cases hg : skipEols.go s.toks s.line with
  | error e => rw [hg] at hx; cases hx
  | ok r =>
    obtain ⟨ts, l⟩ := r
    rw [hg] at hx
    obtain ⟨vs, k1, k2⟩ := skip_go _ _ hg
    obtain ⟨us, m1, m2, m3⟩ := h vs k1 { s with toks := ts, line := l } a s' trivial hx
    refine ⟨vs ++ us, ?_, m2, m3⟩
    rw [k2, List.append_assoc, ← m1]

/-- A statement with the blank lines around it. -/
def Lines (us : List Token) : Prop :=
  ∃ before ts e after, us = before ++ (ts ++ e :: after) ∧ Blank before ∧ Spells .stmt ts ∧ e.type = .EOL ∧ Blank after

theorem Lines.cons {us vs : List Token} (h : Lines us) (hv : Spells .block vs) : Spells .block (us ++ vs) := by
  obtain ⟨before, ts, e, after, rfl, hb, hs, he, ha⟩ := h
  simpa using Spells.cons hb hs he ha hv

/-- What ends the first part of an `if`. -/
def ThenEnd (flag : Bool) (us : List Token) : Prop :=
  match flag with
  | false => ∃ e, e.type = .END ∧ us = [e]
  | true => ∃ l m, l.type = .ELSE ∧ m.type = .EOL ∧ us = [l, m]

/-- Statements up to `end`. -/
def Ended (us : List Token) : Prop := ∃ ts e, us = ts ++ [e] ∧ e.type = .END ∧ Spells .block ts

/-- The functions for statements, at one amount of fuel. -/
structure Stmts (n : Nat) : Prop where
  stmt : Eats (parseStmt n) fun _ us => Lines us
  kind : ∀ t, Eats (parseStmtKind n t) fun _ us => Spells .stmt (t :: us)
  block : Eats (parseBlock n) fun _ us => Ended us
  thn : Eats (parseThen n) fun r us => ∃ ts vs, us = ts ++ vs ∧ ThenEnd r.2 vs ∧ Spells .block ts

theorem stmts : ∀ n, Stmts n
  | 0 => by
    constructor <;> intros <;> simp only [parseStmt, parseStmtKind, parseBlock, parseThen] <;> exact fault_eats
  | n + 1 => by
    have ih := stmts n
    constructor
    · rw [parseStmt]
      refine skip_bind fun before hb => popTok_eats.bind ?_
      rintro t _ rfl
      refine (ih.kind t).bind fun _ us hs => popType_bind fun e he => skip_bind fun after ha => Eats.pure ?_
      exact ⟨before, t :: us, e, after, by simp, hb, hs, he, ha⟩
    · intro t
      rw [parseStmtKind]
      generalize hty : t.type = ty
      cases ty
      case VAR =>
        refine (declVar_eats n).bind ?_
        rintro _ us ⟨name, hn, h⟩
        refine Eats.pure ?_
        rw [List.append_nil]
        rcases h with rfl | ⟨a, ts, ha, he, rfl⟩
        · exact .var hty hn
        · exact .varInit hty hn ha he
      case IDENT => exact named_eats n hty
      case IF =>
        refine condition_bind fun l c r e ts hl hc hr he => ih.thn.bind ?_
        rintro ⟨thn, flag⟩ _ ⟨bs, vs, rfl, hv, hb⟩
        cases flag with
        | true =>
          obtain ⟨els, m, h1, h2, rfl⟩ := hv
          refine ih.block.bind ?_
          rintro ss _ ⟨ds, e2, rfl, he2, hd⟩
          refine Eats.pure ?_
          simpa using Spells.ifElse hty hl hc hr he hb h1 h2 hd he2
        | false =>
          obtain ⟨e2, h1, rfl⟩ := hv
          refine Eats.pure ?_
          simpa using Spells.ifS hty hl hc hr he hb h1
      case WHILE =>
        refine condition_bind fun l c r e ts hl hc hr he => ih.block.bind ?_
        rintro ss _ ⟨ds, e2, rfl, he2, hd⟩
        refine Eats.pure ?_
        simpa using Spells.whileS hty hl hc hr he hd he2
      case FOR =>
        refine forHead_bind fun x l name a o r e ts us hl hn ha hx ho hy hr he => ih.block.bind ?_
        rintro ss _ ⟨ds, e2, rfl, he2, hd⟩
        refine Eats.pure ?_
        simpa using Spells.forS hty hl hn ha hx ho hy hr he hd he2
      case RETURN => exact return_eats n hty
      all_goals exact pErrHere_eats
    · rw [parseBlock]
      refine found_bind (fun e he => Eats.pure ⟨[], e, rfl, he, .nil⟩) (ih.stmt.bind fun _ us hs => ih.block.bind ?_)
      rintro ss _ ⟨ds, e2, rfl, he2, hd⟩
      exact Eats.pure ⟨us ++ ds, e2, by simp, he2, hs.cons hd⟩
    · rw [parseThen]
      refine found_bind (fun e he => Eats.pure ⟨[], [e], rfl, ⟨e, he, rfl⟩, .nil⟩) (found_bind (fun e he =>
        popType_bind fun m hm => Eats.pure ⟨[], [e, m], rfl, ⟨e, m, he, hm, rfl⟩, .nil⟩)
        (ih.stmt.bind fun _ us hs => ih.thn.bind ?_))
      rintro ⟨ss, flag⟩ _ ⟨ds, vs, rfl, hv, hd⟩
      exact Eats.pure ⟨us ++ ds, vs, by simp, hv, hs.cons hd⟩

/-! ### Functions and whole sources -/

theorem body_eats : ∀ n, Eats (parseBody n) fun _ us => Ended us
  | 0 => by rw [parseBody]; exact fault_eats
  | n + 1 => by
    rw [parseBody]
    refine found_bind (fun e he => Eats.pure ⟨[], e, rfl, he, .nil⟩) ((stmts n).stmt.bind fun _ us hs => (body_eats n).bind ?_)
    rintro ⟨ss, t⟩ _ ⟨ds, e2, rfl, he2, hd⟩
    exact Eats.pure ⟨us ++ ds, e2, by simp, he2, hs.cons hd⟩

theorem names_eats : ∀ n, Eats (parseArgNames n) fun _ us => Names us
  | 0 => by rw [parseArgNames]; exact fault_eats
  | n + 1 => by
    rw [parseArgNames]
    refine popType_bind fun a ha => found_bind (fun c hc => (names_eats n).bind fun as us h => Eats.pure ?_)
      (Eats.pure (.one ha))
    simpa using Names.more ha hc h

theorem function_eats (n : Nat) : Eats (parseFunction n) fun _ us => Function us := by
  unfold parseFunction
  refine popType_bind fun name hn => ?_
  unfold parseArgs
  simp only [bind_assoc]
  refine popType_bind fun l hl => found_bind (fun r hr => ?_) ?_
  · simp only [pure_bind]
    refine popType_bind fun e he => (body_eats n).bind ?_
    rintro ⟨b, stop⟩ _ ⟨ts, e2, rfl, hs, hb⟩
    exact Eats.pure (by simpa using Function.noArgs hn hl hr he hb hs)
  · simp only [bind_assoc, pure_bind]
    refine (names_eats n).bind fun as us ha => popType_bind fun r hr => popType_bind fun e he => (body_eats n).bind ?_
    rintro ⟨b, stop⟩ _ ⟨ts, e2, rfl, hs, hb⟩
    exact Eats.pure (by simpa using Function.args hn hl ha hr he hb hs)

/-- The run of a computation that succeeds, in two. -/
theorem bind_ok {x : PM α} {f : α → PM β} {s s' : PState} {b : β} (h : (x >>= f) s = .ok (b, s')) :
    ∃ a s1, x s = .ok (a, s1) ∧ f a s1 = .ok (b, s') := by
  rw [pm_bind] at h
  split at h
  · cases h
  · exact ⟨_, _, by assumption, h⟩

theorem items_sound {fs : Str → Option Str} {cur : Source} : ∀ (n : Nat) (s s' : PState) (is : List (Item Unit)),
    parseItems fs cur n s = .ok (is, s') →
      ∃ us e, s.toks = us ++ e :: s'.toks ∧ e.type = .EOF ∧ File fs cur s.srcs s'.srcs us
  | 0, s, s', is, h => by rw [parseItems] at h; cases h
  | n + 1, s, s', is, h => by
    rw [parseItems] at h
    obtain ⟨r, s1, h1, h2⟩ := bind_ok h
    unfold found at h1
    split at h1
    · cases h1
    · rename_i t ts hs
      split at h1
      · rename_i ht
        cases h1
        cases h2
        exact ⟨[], t, hs, ht, .nil⟩
      · cases h1
        dsimp only at h2
        obtain ⟨u, s2, h3, h4⟩ := bind_ok h2
        unfold popTok at h3
        rw [hs] at h3
        cases h3
        -- what is left after the first token
        have next : ∀ (s2 : PState) is (us : List Token), ts = us ++ s2.toks → parseItems fs cur n s2 = .ok (is, s') →
            ∃ vs e, s.toks = t :: (us ++ vs) ++ e :: s'.toks ∧ e.type = .EOF ∧ File fs cur s2.srcs s'.srcs vs := by
          intro s2 is us ht hp
          obtain ⟨vs, e, k3, k4, k5⟩ := items_sound n s2 s' is hp
          exact ⟨vs, e, by rw [hs, ht, k3]; simp, k4, k5⟩
        have decl : ∀ (c : Bool), (t.type = .VAR ∨ t.type = .CONST) →
            (parseDeclVar n >>= fun r => parseItems fs cur n >>= fun is => (Pure.pure (Item.var r.1 c r.2 :: is) : PM _))
              { s with toks := ts, line := t.line } = .ok (is, s') →
            ∃ us e, s.toks = us ++ e :: s'.toks ∧ e.type = .EOF ∧ File fs cur s.srcs s'.srcs us := by
          intro c hu hr
          obtain ⟨⟨name, e⟩, s2, g1, g2⟩ := bind_ok hr
          obtain ⟨is', s3, g3, g4⟩ := bind_ok g2
          cases g4
          obtain ⟨us, m1, m2, nm, hn, m3⟩ := declVar_eats n { s with toks := ts, line := t.line } _ _ trivial g1
          obtain ⟨vs, x, k3, k4, k5⟩ := next s2 is' us m1 g3
          rw [show s2.srcs = s.srcs from m2] at k5
          refine ⟨_, x, k3, k4, ?_⟩
          rcases m3 with rfl | ⟨a, ts', ha, hw, rfl⟩
          · exact .decl hu hn k5
          · simpa using File.init hu hn ha hw k5
        generalize hty : t.type = ty at h4
        split at h4
        · obtain ⟨vs, e, k3, k4, k5⟩ := next { s with toks := ts, line := t.line } _ [] rfl h4
          exact ⟨_, e, k3, k4, .eol hty k5⟩
        · exact decl false (.inl hty) h4
        · exact decl true (.inr hty) h4
        · obtain ⟨f, s2, g1, g2⟩ := bind_ok h4
          obtain ⟨is', s3, g3, g4⟩ := bind_ok g2
          cases g4
          obtain ⟨us, m1, m2, m5⟩ := function_eats n { s with toks := ts, line := t.line } _ _ trivial g1
          obtain ⟨vs, x, k3, k4, k5⟩ := next s2 is' us m1 g3
          rw [show s2.srcs = s.srcs from m2] at k5
          exact ⟨_, x, k3, k4, .func hty m5 k5⟩
        · obtain ⟨_, s2, g1, g2⟩ := bind_ok h4
          unfold parseImport at g1
          obtain ⟨nm, s3, g3, g4⟩ := bind_ok g1
          obtain ⟨us, m1, m2, rfl, m5⟩ := popType_eats .STRING { s with toks := ts, line := t.line } _ _ trivial g3
          split at g4
          · rename_i ss1 hl
            cases g4
            obtain ⟨vs, x, k3, k4, k5⟩ := next { s3 with srcs := ss1 } is [nm] m1 g2
            rw [show s3.srcs = s.srcs from m2] at hl
            exact ⟨_, x, k3, k4, .imp hty m5 hl k5⟩
          · exact absurd g4 Made.errTok_ne
        · obtain ⟨t, s2, g1, g2⟩ := bind_ok h4
          exact absurd g2 Made.errTok_ne

end Ccml.Lang
