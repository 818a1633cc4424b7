import Verif.Bare
import Verif.ParserTree
/-!
The parser does not look at lines: from tokens that differ in nothing but lines it makes trees that
differ in nothing but lines, or reports the same message.
-/
namespace Ccml.Bare

variable {α β γ δ : Type}

/-- The same up to `f`. -/
abbrev On (f : α → β) (a b : α) : Prop := f a = f b

/-! ### Texts and sources -/

/-- Texts of the same words: the lexer makes tokens of them that differ in nothing but lines, or reports the
same message; and both are empty or none. -/
def SameText (fl : FloatOps) (a b : Str) : Prop :=
  (a = [] ↔ b = []) ∧ ∀ i, match lex fl i a, lex fl i b with
    | .ok ts, .ok us => ts.map tok = us.map tok
    | .error e, .error e' => SameStop e.toStop e'.toStop
    | _, _ => False

/-- Sources with the same path and texts of the same words. -/
def SameSource (fl : FloatOps) (a b : Source) : Prop :=
  a.path = b.path ∧ match a.data, b.data with
    | some t, some u => SameText fl t u
    | none, none => True
    | _, _ => False

/-- File systems with texts of the same words. -/
def SameFiles (fl : FloatOps) (fs fs' : Str → Option Str) : Prop :=
  ∀ p, match fs p, fs' p with
    | some t, some u => SameText fl t u
    | none, none => True
    | _, _ => False

/-- The same sources, up to spacing. -/
inductive SameSources (fl : FloatOps) : List Source → List Source → Prop
  | nil : SameSources fl [] []
  | cons {a b : Source} {as bs : List Source} : SameSource fl a b → SameSources fl as bs →
      SameSources fl (a :: as) (b :: bs)

theorem SameSources.append {fl : FloatOps} {as bs cs ds : List Source} (h : SameSources fl as bs)
    (h' : SameSources fl cs ds) : SameSources fl (as ++ cs) (bs ++ ds) := by
  induction h with
  | nil => exact h'
  | cons h _ ih => exact .cons h ih

theorem SameSources.get {fl : FloatOps} {as bs : List Source} (h : SameSources fl as bs) : ∀ i : Nat,
    (as[i]? = none ∧ bs[i]? = none) ∨ ∃ a b, as[i]? = some a ∧ bs[i]? = some b ∧ SameSource fl a b := by
  induction h with
  | nil => exact fun i => .inl ⟨rfl, rfl⟩
  | cons h _ ih =>
    intro i
    cases i with
    | zero => exact .inr ⟨_, _, rfl, rfl, h⟩
    | succ i => simpa using ih i

theorem SameSources.any {fl : FloatOps} {as bs : List Source} (h : SameSources fl as bs) (path : Str) :
    (as.any fun s => pathCmp s.path path) = bs.any fun s => pathCmp s.path path := by
  induction h with
  | nil => rfl
  | cons h _ ih => rw [List.any_cons, List.any_cons, ih, h.1]

theorem fromFile_same {fl : FloatOps} {fs fs' : Str → Option Str} (h : SameFiles fl fs fs') (path : Str) :
    (Source.fromFile fs path).1 = (Source.fromFile fs' path).1 ∧
      SameSource fl (Source.fromFile fs path).2 (Source.fromFile fs' path).2 := by
  have := h path
  unfold Source.fromFile
  generalize fs path = a at this
  generalize fs' path = b at this
  cases a with
  | none =>
    cases b with
    | none => exact ⟨rfl, rfl, trivial⟩
    | some u => exact False.elim this
  | some t =>
    cases b with
    | none => exact False.elim this
    | some u =>
      dsimp only at this ⊢
      have he := this.1
      by_cases ht : t = []
      · have hu := he.1 ht
        subst ht; subst hu
        exact ⟨rfl, rfl, trivial⟩
      · have hu : u ≠ [] := fun hu => ht (he.2 hu)
        rw [if_neg (by simpa using ht), if_neg (by simpa using hu)]
        exact ⟨rfl, rfl, this⟩

theorem loadSource_same {fl : FloatOps} {fs fs' : Str → Option Str} (h : SameFiles fl fs fs') {as bs : List Source}
    (hs : SameSources fl as bs) (path : Str) :
    (loadSource fs as path).1 = (loadSource fs' bs path).1 ∧
      SameSources fl (loadSource fs as path).2 (loadSource fs' bs path).2 := by
  unfold loadSource
  rw [hs.any]
  split
  · exact ⟨rfl, hs⟩
  · exact ⟨(fromFile_same h path).1, hs.append (.cons (fromFile_same h path).2 .nil)⟩

/-! ### States of the parser -/

/-- States that differ in nothing but lines. -/
structure Like (fl : FloatOps) (s s' : PState) : Prop where
  toks : s.toks.map tok = s'.toks.map tok
  ops : s.ops.map tok = s'.ops.map tok
  exps : exs s.exps = exs s'.exps
  srcs : SameSources fl s.srcs s'.srcs

/-- From states that differ in nothing but lines, both end alike. -/
def Par (fl : FloatOps) (R : α → β → Prop) (x : PM α) (y : PM β) : Prop :=
  ∀ s s', Like fl s s' → Both (fun r r' => R r.1 r'.1 ∧ Like fl r.2 r'.2) (x s) (y s')

variable {fl : FloatOps}

theorem Par.bind {R : α → β → Prop} {Q : γ → δ → Prop} {x : PM α} {y : PM β} {k : α → PM γ} {k' : β → PM δ}
    (h : Par fl R x y) (hk : ∀ a b, R a b → Par fl Q (k a) (k' b)) : Par fl Q (x >>= k) (y >>= k') := by
  intro s s' hs
  rw [pm_bind, pm_bind]
  rcases Both.elim (h s s' hs) with ⟨_, _, hx, hy, e⟩ | ⟨⟨a, s1⟩, ⟨b, s2⟩, hx, hy, h1, h2⟩
  · rw [hx, hy]
    exact e
  · rw [hx, hy]
    exact hk a b h1 s1 s2 h2

theorem Par.pure {R : α → β → Prop} {a : α} {b : β} (h : R a b) :
    Par fl R (Pure.pure a : PM α) (Pure.pure b : PM β) := fun _ _ hs => ⟨h, hs⟩

theorem Par.mono {R Q : α → β → Prop} {x : PM α} {y : PM β} (h : Par fl R x y) (k : ∀ a b, R a b → Q a b) :
    Par fl Q x y := by
  intro s s' hs
  rcases Both.elim (h s s' hs) with ⟨_, _, hx, hy, e⟩ | ⟨⟨a, s1⟩, ⟨b, s2⟩, hx, hy, h1, h2⟩
  · rw [hx, hy]
    exact e
  · rw [hx, hy]
    exact ⟨k a b h1, h2⟩

theorem par_fault {R : α → β → Prop} {f : Fault} : Par fl R (pFault f : PM α) (pFault f : PM β) :=
  fun _ _ _ => rfl

theorem both_err {R : α → β → Prop} {l l' : SrcLine} {pre post : String} {t t' : Token} (h : On tok t t') :
    Both R (errTok l pre t post : Comp α) (errTok l' pre t' post : Comp β) := by
  unfold errTok
  rw [show t.string = t'.string by rw [← tok_string t, h, tok_string]]
  cases t'.string <;> rfl

theorem par_err {R : α → β → Prop} {l l' : SrcLine} {pre post : String} {t t' : Token} (h : On tok t t') :
    Par fl R (pErr l pre t post : PM α) (pErr l' pre t' post : PM β) := fun _ _ _ => both_err h

theorem par_errHere {R : α → β → Prop} {pre post : String} {t t' : Token} (h : On tok t t') :
    Par fl R (pErrHere pre t post : PM α) (pErrHere pre t' post : PM β) := fun _ _ _ => both_err h

theorem On.type {t t' : Token} (h : On tok t t') : t.type = t'.type :=
  (congrArg Token.type h : (tok t).type = (tok t').type)
theorem On.str {t t' : Token} (h : On tok t t') : t.str = t'.str :=
  (congrArg Token.str h : (tok t).str = (tok t').str)
theorem On.val {t t' : Token} (h : On tok t t') : t.val = t'.val :=
  (congrArg Token.val h : (tok t).val = (tok t').val)

/-- The first token, and the others. -/
theorem toks_cases {ts us : List Token} (h : ts.map tok = us.map tok) :
    (ts = [] ∧ us = []) ∨ ∃ t u ts' us', ts = t :: ts' ∧ us = u :: us' ∧ On tok t u ∧ ts'.map tok = us'.map tok := by
  cases ts with
  | nil =>
    cases us with
    | nil => exact .inl ⟨rfl, rfl⟩
    | cons u us => cases h
  | cons t ts =>
    cases us with
    | nil => cases h
    | cons u us =>
      rw [List.map_cons, List.map_cons, List.cons.injEq] at h
      exact .inr ⟨t, u, ts, us, rfl, rfl, h.1, h.2⟩

theorem exps_cases {ts us : List PExpr} (h : exs ts = exs us) :
    (ts = [] ∧ us = []) ∨ ∃ t u ts' us', ts = t :: ts' ∧ us = u :: us' ∧ On ex t u ∧ exs ts' = exs us' := by
  cases ts with
  | nil =>
    cases us with
    | nil => exact .inl ⟨rfl, rfl⟩
    | cons u us => cases h
  | cons t ts =>
    cases us with
    | nil => cases h
    | cons u us =>
      rw [exs, exs, List.cons.injEq] at h
      exact .inr ⟨t, u, ts, us, rfl, rfl, h.1, h.2⟩

theorem par_popTok : Par fl (On tok) popTok popTok := by
  intro s s' h
  unfold popTok
  rcases toks_cases h.toks with ⟨h1, h2⟩ | ⟨t, u, ts, us, h1, h2, h3, h4⟩
  · rw [h1, h2]
    rfl
  · rw [h1, h2]
    exact ⟨h3, h4, h.ops, h.exps, h.srcs⟩

theorem par_nextType : Par fl Eq nextType nextType := by
  intro s s' h
  unfold nextType
  rcases toks_cases h.toks with ⟨h1, h2⟩ | ⟨t, u, ts, us, h1, h2, h3, h4⟩
  · rw [h1, h2]
    rfl
  · rw [h1, h2]
    exact ⟨h3.type, h⟩

theorem par_peekTok : Par fl (On tok) peekTok peekTok := by
  intro s s' h
  unfold peekTok
  rcases toks_cases h.toks with ⟨h1, h2⟩ | ⟨t, u, ts, us, h1, h2, h3, h4⟩
  · rw [h1, h2]
    rfl
  · rw [h1, h2]
    exact ⟨h3, h⟩

theorem par_found {ty : Tok} : Par fl (On (Option.map tok)) (found ty) (found ty) := by
  intro s s' h
  unfold found
  rcases toks_cases h.toks with ⟨h1, h2⟩ | ⟨t, u, ts, us, h1, h2, h3, h4⟩
  · rw [h1, h2]
    rfl
  · rw [h1, h2]
    dsimp only
    rw [← h3.type]
    split
    · exact ⟨congrArg some h3, h4, h.ops, h.exps, h.srcs⟩
    · exact ⟨rfl, h⟩

/-- What was found is the same. -/
theorem Par.found {R : α → β → Prop} {ty : Tok} {k : Option Token → PM α} {k' : Option Token → PM β}
    (h1 : ∀ t u, On tok t u → Par fl R (k (some t)) (k' (some u))) (h2 : Par fl R (k none) (k' none)) :
    Par fl R (Ccml.found ty >>= k) (Ccml.found ty >>= k') :=
  par_found.bind fun a b h => by
    cases a with
    | none =>
      cases b with
      | none => exact h2
      | some u => cases h
    | some t =>
      cases b with
      | none => cases h
      | some u => exact h1 t u (Option.some.inj h)

theorem par_popType {ty : Tok} : Par fl (On tok) (popType ty) (popType ty) := by
  intro s s' h
  unfold popType
  rcases toks_cases h.toks with ⟨h1, h2⟩ | ⟨t, u, ts, us, h1, h2, h3, h4⟩
  · rw [h1, h2]
    rfl
  · rw [h1, h2]
    dsimp only
    rw [← h3.type]
    split
    · exact ⟨h3, h4, h.ops, h.exps, h.srcs⟩
    · unfold unexpectedToken
      rw [show t.string = u.string by rw [← tok_string t, h3, tok_string]]
      cases u.string <;> cases ty.name <;> rfl

theorem skipEols_go : ∀ {ts us : List Token} {l l' : SrcLine}, ts.map tok = us.map tok →
    Both (fun r r' => r.1.map tok = r'.1.map tok) (skipEols.go ts l) (skipEols.go us l')
  | [], us, l, l', h => by
    cases us with
    | nil => rfl
    | cons => cases h
  | t :: ts, us, l, l', h => by
    cases us with
    | nil => cases h
    | cons u us =>
      have h' := h
      rw [List.map_cons, List.map_cons, List.cons.injEq] at h'
      rw [skipEols.go, skipEols.go, ← On.type h'.1]
      split
      · exact skipEols_go h'.2
      · exact h

theorem par_skipEols : Par fl (fun _ _ => True) skipEols skipEols := by
  intro s s' h
  unfold skipEols
  rcases Both.elim (skipEols_go (l := s.line) (l' := s'.line) h.toks) with ⟨_, _, hx, hy, e⟩ | ⟨⟨_, _⟩, ⟨_, _⟩, hx, hy, h1⟩
  · rw [hx, hy]
    exact e
  · rw [hx, hy]
    exact ⟨trivial, h1, h.ops, h.exps, h.srcs⟩

theorem par_pushExp {e e' : PExpr} (he : On ex e e') : Par fl (fun _ _ => True) (pushExp e) (pushExp e') :=
  fun s s' h => ⟨trivial, h.toks, h.ops, by
    show exs (e :: s.exps) = exs (e' :: s'.exps)
    rw [exs, exs, h.exps, he], h.srcs⟩

theorem par_popExp {f : Fault} : Par fl (On ex) (popExp f) (popExp f) := by
  intro s s' h
  unfold popExp
  rcases exps_cases h.exps with ⟨h1, h2⟩ | ⟨t, u, ts, us, h1, h2, h3, h4⟩
  · rw [h1, h2]
    rfl
  · rw [h1, h2]
    exact ⟨h3, h.toks, h.ops, h4, h.srcs⟩

theorem reduceOp_same {op op' : Token} (h : On tok op op') {es es' : List PExpr} (he : exs es = exs es') :
    Both (On exs) (reduceOp op es) (reduceOp op' es') := by
  unfold reduceOp
  rw [← h.type]
  rcases exps_cases he with ⟨rfl, rfl⟩ | ⟨r, r', es, es', rfl, rfl, h1, h2⟩
  · split
    · rfl
    · split <;> rfl
  · split
    · rcases exps_cases h2 with ⟨rfl, rfl⟩ | ⟨l, l', es, es', rfl, rfl, h3, h4⟩
      · rfl
      · show exs (.bin op l r :: es) = exs (.bin op' l' r' :: es')
        rw [exs, exs, ex, ex, h, h1, h3, h4]
    · split
      · show exs (.un op r :: es) = exs (.un op' r' :: es')
        rw [exs, exs, ex, ex, h, h1, h2]
      · exact he

theorem reduceLoop_same (prec tide : Nat) : ∀ {os os' : List Token} {es es' : List PExpr}, os.map tok = os'.map tok →
    exs es = exs es' → Both (fun r r' => r.1.map tok = r'.1.map tok ∧ exs r.2 = exs r'.2)
      (reduceLoop prec tide os es) (reduceLoop prec tide os' es')
  | [], os', es, es', h, he => by
    cases os' with
    | nil => exact ⟨rfl, he⟩
    | cons => cases h
  | o :: os, os', es, es', h, he => by
    cases os' with
    | nil => cases h
    | cons o' os' =>
      have h' := h
      rw [List.map_cons, List.map_cons, List.cons.injEq] at h'
      have hl : os.length = os'.length := by simpa using congrArg List.length h'.2
      rw [reduceLoop, reduceLoop, ← On.type h'.1, ← hl]
      split
      · split
        · exact ⟨h, he⟩
        · rcases Both.elim (reduceOp_same h'.1 he) with ⟨_, _, hx, hy, e⟩ | ⟨_, _, hx, hy, h1⟩
          · rw [hx, hy]
            exact e
          · rw [hx, hy]
            exact reduceLoop_same prec tide h'.2 h1
      · exact ⟨h, he⟩

theorem par_opPush {op op' : Token} (h : On tok op op') (tide : Nat) :
    Par fl (fun _ _ => True) (opPush op tide) (opPush op' tide) := by
  intro s s' hs
  unfold opPush
  rw [← h.type]
  rcases Both.elim (reduceLoop_same (opType op.type) tide hs.ops hs.exps) with
    ⟨_, _, hx, hy, e⟩ | ⟨⟨_, _⟩, ⟨_, _⟩, hx, hy, h1⟩
  · rw [hx, hy]
    exact e
  · rw [hx, hy]
    refine ⟨trivial, hs.toks, ?_, h1.2, hs.srcs⟩
    show (op :: _).map tok = (op' :: _).map tok
    rw [List.map_cons, List.map_cons, h, h1.1]

theorem par_opPopAll (tide : Nat) : Par fl (fun _ _ => True) (opPopAll tide) (opPopAll tide) := by
  intro s s' hs
  unfold opPopAll
  rcases Both.elim (reduceLoop_same 0 tide hs.ops hs.exps) with ⟨_, _, hx, hy, e⟩ | ⟨⟨_, _⟩, ⟨_, _⟩, hx, hy, h1⟩
  · rw [hx, hy]
    exact e
  · rw [hx, hy]
    exact ⟨trivial, hs.toks, h1.1, h1.2, hs.srcs⟩

theorem par_isOperator : Par fl Eq isOperator isOperator :=
  par_nextType.bind fun a b h => by subst h; exact .pure rfl

theorem literalNode_same {t u : Token} (h : On tok t u) : On (Option.map ex) (literalNode t) (literalNode u) := by
  unfold On literalNode
  rw [← h.type, ← h.val, ← h.str]
  cases t.type <;> first | rfl | simp [ex, h]

/-! ### Expressions -/

/-- The functions of the expressions do not look at lines. -/
structure ExprPar (fl : FloatOps) (n : Nat) : Prop where
  exprEx : ∀ tide, Par fl (fun _ _ => True) (parseExprEx n tide) (parseExprEx n tide)
  tail : ∀ tide, Par fl (fun _ _ => True) (parseTail n tide) (parseTail n tide)
  post : Par fl (fun _ _ => True) (parsePostfix n) (parsePostfix n)
  lhs : Par fl (fun _ _ => True) (parseLhs n) (parseLhs n)
  expr : Par fl (On ex) (parseExpr n) (parseExpr n)
  exprList : Par fl (On exs) (parseExprList n) (parseExprList n)
  callArgs : Par fl (On exs) (parseCallArgs n) (parseCallArgs n)

theorem exprPar : ∀ n, ExprPar fl n
  | 0 => ⟨fun _ => par_fault, fun _ => par_fault, par_fault, par_fault, par_fault, par_fault, par_fault⟩
  | n + 1 => by
    have ih : ExprPar fl n := exprPar n
    constructor
    · intro tide
      unfold parseExprEx
      refine .found (fun t u h => ?_) (.found (fun t u h => ?_) ?_)
      · exact (ih.exprEx tide).bind fun _ _ _ => par_opPush h tide
      · exact (ih.exprEx tide).bind fun _ _ _ => par_popExp.bind fun a b hab => par_pushExp (by
          show ex (.un t a) = ex (.un u b)
          rw [ex, ex, h, hab])
      · exact ih.lhs.bind fun _ _ _ => ih.post.bind fun _ _ _ => ih.tail tide
    · intro tide
      unfold parseTail
      refine par_isOperator.bind fun b b' h => ?_
      subst h
      cases b with
      | true => exact par_popTok.bind fun a b h => (par_opPush h tide).bind fun _ _ _ => ih.exprEx tide
      | false => exact .pure trivial
    · unfold parsePostfix
      refine .found (fun t u h => ?_) (.found (fun t u h => ?_) (.pure trivial))
      · exact par_popExp.bind fun a a' ha => ih.expr.bind fun i i' hi => (par_pushExp (by
          show ex (.deref t a i) = ex (.deref u a' i')
          rw [ex, ex, h, ha, hi])).bind fun _ _ _ => par_popType.bind fun _ _ _ => ih.post
      · exact ih.callArgs.bind fun a a' ha => par_popExp.bind fun c c' hc => (par_pushExp (by
          show ex (.call t c a) = ex (.call u c' a')
          rw [ex, ex, h, ha, hc])).bind fun _ _ _ => ih.post
    · unfold parseLhs
      refine .found (fun t u h => ?_) (.found (fun _ _ _ => ?_) (.found (fun t u h => ?_) ?_))
      · exact ih.exprList.bind fun es es' he => (par_pushExp (by
          show ex (.arr t es) = ex (.arr u es')
          rw [ex, ex, h, he])).bind fun _ _ _ => par_popType.bind fun _ _ _ => .pure trivial
      · exact ih.expr.bind fun e e' he => (par_pushExp he).bind fun _ _ _ => par_popType.bind fun _ _ _ =>
          .pure trivial
      · refine .found (fun _ _ _ => ?_) ?_
        · exact par_popType.bind fun m m' hm => par_pushExp (by
            show ex (.member t m ()) = ex (.member u m' ())
            rw [ex, ex, h, hm])
        · exact par_pushExp (by
            show ex (.ident t ()) = ex (.ident u ())
            rw [ex, ex, h])
      · refine par_popTok.bind fun t u h => ?_
        have := literalNode_same h
        generalize literalNode t = a at this ⊢
        generalize literalNode u = b at this ⊢
        cases a with
        | none =>
          cases b with
          | none => exact par_errHere h
          | some => cases this
        | some a =>
          cases b with
          | none => cases this
          | some b => exact par_pushExp (Option.some.inj this)
    · unfold parseExpr
      intro s s' hs
      have hl : s.ops.length = s'.ops.length := by simpa using congrArg List.length hs.ops
      have := ((ih.exprEx s.ops.length).bind fun _ _ _ => (par_opPopAll s.ops.length).bind fun _ _ _ =>
        par_popExp (f := .assert)) s s' hs
      rw [pm_bind, pm_bind]
      show Both _ ((parseExprEx n s.ops.length >>= fun _ => _) s) ((parseExprEx n s'.ops.length >>= fun _ => _) s')
      rw [← hl]
      exact this
    · unfold parseExprList
      refine ih.expr.bind fun e e' he => .found (fun _ _ _ => ?_) (.pure ?_)
      · exact ih.exprList.bind fun es es' hes => .pure (by
          show exs (e :: es) = exs (e' :: es')
          rw [exs, exs, he, hes])
      · show exs [e] = exs [e']
        rw [exs, exs, exs, exs, he]
    · unfold parseCallArgs
      refine .found (fun _ _ _ => .pure rfl) ?_
      exact ih.exprList.bind fun es es' hes => par_popType.bind fun _ _ _ => .pure hes

/-! ### Statements -/

/-- The name and the initial value of a declaration. -/
def Decl (a b : Token × Option PExpr) : Prop := On tok a.1 b.1 ∧ a.2.map ex = b.2.map ex

theorem par_declVar (n : Nat) : Par fl Decl (parseDeclVar n) (parseDeclVar n) := by
  unfold parseDeclVar
  refine par_popType.bind fun t u h => .found (fun _ _ _ => ?_) (.pure ⟨h, rfl⟩)
  exact (exprPar n).expr.bind fun e e' he => .pure ⟨h, congrArg some he⟩

theorem par_assign (n : Nat) {t u : Token} (h : On tok t u) : Par fl (On st) (parseAssign n t) (parseAssign n u) := by
  unfold parseAssign
  exact (exprPar n).expr.bind fun e e' he => .pure (by
    show st (.assign t () e) = st (.assign u () e')
    rw [st, st, h, he])

theorem par_compound (n : Nat) {t u : Token} (h : On tok t u) :
    Par fl (On st) (parseCompound n t) (parseCompound n u) := by
  unfold parseCompound
  refine par_popTok.bind fun o o' ho => .found (fun _ _ _ => ?_) (fun _ _ _ => rfl)
  exact (exprPar n).expr.bind fun e e' he => .pure (by
    show st (.assign t () (.bin o (.ident t ()) e)) = st (.assign u () (.bin o' (.ident u ()) e'))
    rw [st, st, ex, ex, ex, ex, h, ho, he])

theorem par_memberAssign (n : Nat) {t u : Token} (h : On tok t u) :
    Par fl (On st) (parseMemberAssign n t) (parseMemberAssign n u) := by
  unfold parseMemberAssign
  exact par_popType.bind fun _ _ _ => par_popType.bind fun m m' hm => par_popType.bind fun _ _ _ =>
    (exprPar n).expr.bind fun e e' he => .pure (by
      show st (.assignMem t m () e) = st (.assignMem u m' () e')
      rw [st, st, h, hm, he])

theorem par_arraySet (n : Nat) {t u : Token} (h : On tok t u) :
    Par fl (On st) (parseArraySet n t) (parseArraySet n u) := by
  unfold parseArraySet
  exact (exprPar n).expr.bind fun i i' hi => par_popType.bind fun _ _ _ => par_popType.bind fun _ _ _ =>
    (exprPar n).expr.bind fun e e' he => .pure (by
      show st (.assignArr t () i e) = st (.assignArr u () i' e')
      rw [st, st, h, hi, he])

theorem par_return (n : Nat) {t u : Token} (h : On tok t u) :
    Par fl (On st) (parseReturn n t) (parseReturn n u) := by
  unfold parseReturn
  refine par_peekTok.bind fun p q hp => ?_
  rw [← On.type hp]
  split
  · exact .pure (by
      show st (.ret t none) = st (.ret u none)
      rw [st, st, h])
  · exact (exprPar n).expr.bind fun e e' he => .pure (by
      show st (.ret t (some e)) = st (.ret u (some e'))
      rw [st, st, h, Option.map_some, Option.map_some, he])

theorem par_condition (n : Nat) : Par fl (On ex) (parseCondition n) (parseCondition n) := by
  unfold parseCondition
  exact par_popType.bind fun _ _ _ => (exprPar n).expr.bind fun e e' he => par_popType.bind fun _ _ _ =>
    par_popType.bind fun _ _ _ => .pure he

theorem par_forHead (n : Nat) :
    Par fl (fun a b => On tok a.1 b.1 ∧ On ex a.2.1 b.2.1 ∧ On ex a.2.2 b.2.2) (parseForHead n) (parseForHead n) := by
  unfold parseForHead
  exact par_popType.bind fun _ _ _ => par_popType.bind fun t u h => par_popType.bind fun _ _ _ =>
    (exprPar n).expr.bind fun a a' ha => par_popType.bind fun _ _ _ => (exprPar n).expr.bind fun b b' hb =>
    par_popType.bind fun _ _ _ => par_popType.bind fun _ _ _ => .pure ⟨h, ha, hb⟩

theorem par_named (n : Nat) {t u : Token} (h : On tok t u) : Par fl (On st) (parseNamed n t) (parseNamed n u) := by
  unfold parseNamed
  refine par_peekTok.bind fun p q hp => ?_
  rw [← On.type hp]
  generalize p.type = ty
  cases ty with
  | ADD => exact par_compound n h
  | SUB => exact par_compound n h
  | MUL => exact par_compound n h
  | DIV => exact par_compound n h
  | DOT => exact par_memberAssign n h
  | ASSIGN => exact par_popTok.bind fun _ _ _ => par_assign n h
  | LPAREN => exact par_popTok.bind fun c c' hc => (exprPar n).callArgs.bind fun a a' ha => .pure (by
      show st (.call c (.ident t ()) a) = st (.call c' (.ident u ()) a')
      rw [st, st, ex, ex, h, hc, ha])
  | LBRACKET => exact par_popTok.bind fun _ _ _ => par_arraySet n h
  | _ => exact par_errHere h

/-- The functions of the statements do not look at lines. -/
structure StmtPar (fl : FloatOps) (n : Nat) : Prop where
  stmt : Par fl (On st) (parseStmt n) (parseStmt n)
  kind : ∀ t u, On tok t u → Par fl (On st) (parseStmtKind n t) (parseStmtKind n u)
  block : Par fl (On bl) (parseBlock n) (parseBlock n)
  thn : Par fl (fun a b => On bl a.1 b.1 ∧ a.2 = b.2) (parseThen n) (parseThen n)

theorem stmtPar : ∀ n, StmtPar fl n
  | 0 => ⟨par_fault, fun _ _ _ => by unfold parseStmtKind; exact par_fault, par_fault, par_fault⟩
  | n + 1 => by
    have ih : StmtPar fl n := stmtPar n
    constructor
    · unfold parseStmt
      exact par_skipEols.bind fun _ _ _ => par_popTok.bind fun t u h => (ih.kind t u h).bind fun s s' hs =>
        par_popType.bind fun _ _ _ => par_skipEols.bind fun _ _ _ => .pure hs
    · intro t u h
      unfold parseStmtKind
      rw [← On.type h]
      generalize t.type = ty
      cases ty with
      | VAR => exact (par_declVar n).bind fun a b hab => .pure (by
          show st (.var a.1 () a.2) = st (.var b.1 () b.2)
          rw [st, st, hab.1, hab.2])
      | IDENT => exact par_named n h
      | IF =>
        refine (par_condition n).bind fun c c' hc => ih.thn.bind fun a b hab => ?_
        obtain ⟨a, x⟩ := a
        obtain ⟨b, y⟩ := b
        obtain ⟨h1, h2⟩ := hab
        dsimp only at h1 h2 ⊢
        subst h2
        cases x with
        | true => exact ih.block.bind fun e e' he => .pure (by
            show st (.ifS t c a true e) = st (.ifS u c' b true e')
            rw [st, st, h, hc, h1, he])
        | false => exact .pure (by
            show st (.ifS t c a false []) = st (.ifS u c' b false [])
            rw [st, st, h, hc, h1])
      | WHILE => exact (par_condition n).bind fun c c' hc => ih.block.bind fun e e' he => .pure (by
            show st (.whileS t c e) = st (.whileS u c' e')
            rw [st, st, h, hc, he])
      | FOR => exact (par_forHead n).bind fun a b hab => ih.block.bind fun e e' he => .pure (by
            show st (.forS t a.1 () a.2.1 a.2.2 e) = st (.forS u b.1 () b.2.1 b.2.2 e')
            rw [st, st, h, hab.1, hab.2.1, hab.2.2, he])
      | RETURN => exact par_return n h
      | _ => exact par_errHere h
    · unfold parseBlock
      refine .found (fun _ _ _ => .pure rfl) ?_
      exact ih.stmt.bind fun s s' hs => ih.block.bind fun b b' hb => .pure (by
        show bl (s :: b) = bl (s' :: b')
        rw [bl, bl, hs, hb])
    · unfold parseThen
      refine .found (fun _ _ _ => .pure ⟨rfl, rfl⟩) (.found (fun _ _ _ => ?_) ?_)
      · exact par_popType.bind fun _ _ _ => .pure ⟨rfl, rfl⟩
      · exact ih.stmt.bind fun s s' hs => ih.thn.bind fun b b' hb => .pure ⟨by
          show bl (s :: b.1) = bl (s' :: b'.1)
          rw [bl, bl, hs, hb.1], hb.2⟩

theorem par_body : ∀ n, Par fl (fun a b => On bl a.1 b.1 ∧ On tok a.2 b.2) (parseBody n) (parseBody n)
  | 0 => par_fault
  | n + 1 => by
    unfold parseBody
    refine .found (fun t u h => .pure ⟨rfl, h⟩) ?_
    exact (stmtPar n).stmt.bind fun s s' hs => (par_body n).bind fun b b' hb => .pure ⟨by
      show bl (s :: b.1) = bl (s' :: b'.1)
      rw [bl, bl, hs, hb.1], hb.2⟩

theorem par_argNames : ∀ n, Par fl (On (List.map tok)) (parseArgNames n) (parseArgNames n)
  | 0 => par_fault
  | n + 1 => by
    unfold parseArgNames
    refine par_popType.bind fun t u h => .found (fun _ _ _ => ?_) (.pure ?_)
    · exact (par_argNames n).bind fun a b hab => .pure (by
        show (t :: a).map tok = (u :: b).map tok
        rw [List.map_cons, List.map_cons, h, hab])
    · show [t].map tok = [u].map tok
      rw [List.map_cons, List.map_cons, h]

theorem par_args (n : Nat) : Par fl (On (List.map tok)) (parseArgs n) (parseArgs n) := by
  unfold parseArgs
  refine par_popType.bind fun _ _ _ => .found (fun _ _ _ => .pure rfl) ?_
  exact (par_argNames n).bind fun a b hab => par_popType.bind fun _ _ _ => .pure hab

theorem par_function (n : Nat) : Par fl (On fn) (parseFunction n) (parseFunction n) := by
  unfold parseFunction
  exact par_popType.bind fun t u h => (par_args n).bind fun a b hab => par_popType.bind fun _ _ _ =>
    (par_body n).bind fun c d hcd => .pure (by
      show fn ⟨t, a, c.1, c.2⟩ = fn ⟨u, b, d.1, d.2⟩
      simp only [fn]
      rw [h, hcd.1, hcd.2, show a.map tok = b.map tok from hab])

/-! ### Declarations and imports -/

theorem par_import {fs fs' : Str → Option Str} (hf : SameFiles fl fs fs') {cur cur' : Source}
    (hc : cur.path = cur'.path) : Par fl (fun _ _ => True) (parseImport fs cur) (parseImport fs' cur') := by
  unfold parseImport
  refine par_popType.bind fun t u h => ?_
  intro s s' hs
  dsimp only
  have hp : importedPath cur (cstr t.str) = importedPath cur' (cstr u.str) := by
    unfold importedPath
    rw [hc, On.str h]
  rw [← hp]
  have hl := loadSource_same hf hs.srcs (cstr (importedPath cur (cstr t.str)))
  generalize loadSource fs s.srcs _ = a at hl ⊢
  generalize loadSource fs' s'.srcs _ = b at hl ⊢
  obtain ⟨a, xs⟩ := a
  obtain ⟨b, ys⟩ := b
  obtain ⟨h1, h2⟩ := hl
  dsimp only at h1 h2
  subst h1
  cases a with
  | true => exact ⟨trivial, hs.toks, hs.ops, hs.exps, h2⟩
  | false => exact both_err h

theorem par_items {fs fs' : Str → Option Str} (hf : SameFiles fl fs fs') {cur cur' : Source}
    (hc : cur.path = cur'.path) : ∀ n, Par fl (On prog) (parseItems fs cur n) (parseItems fs' cur' n)
  | 0 => par_fault
  | n + 1 => by
    unfold parseItems
    refine .found (fun _ _ _ => .pure rfl) ?_
    refine par_popTok.bind fun t u h => ?_
    rw [← On.type h]
    generalize t.type = ty
    cases ty with
    | EOL => exact par_items hf hc n
    | VAR => exact (par_declVar n).bind fun a b hab => (par_items hf hc n).bind fun c d hcd => .pure (by
        show item (.var a.1 false a.2) :: prog c = item (.var b.1 false b.2) :: prog d
        rw [item, item, hab.1, hab.2, hcd])
    | CONST => exact (par_declVar n).bind fun a b hab => (par_items hf hc n).bind fun c d hcd => .pure (by
        show item (.var a.1 true a.2) :: prog c = item (.var b.1 true b.2) :: prog d
        rw [item, item, hab.1, hab.2, hcd])
    | FUNC => exact (par_function n).bind fun a b hab => (par_items hf hc n).bind fun c d hcd => .pure (by
        show item (.func a) :: prog c = item (.func b) :: prog d
        rw [item, item, hab, hcd])
    | IMPORT => exact (par_import hf hc).bind fun _ _ _ => par_items hf hc n
    | _ => exact par_popTok.bind fun _ _ h => par_err h

/-! ### Builds -/

theorem prog_append {D : Type} (p q : Prog D) : prog (p ++ q) = prog p ++ prog q := by simp [prog]

theorem buildSources_same {fs fs' : Str → Option Str} (hf : SameFiles fl fs fs') :
    ∀ (n i : Nat) {srcs srcs' : List Source} {left left' : List PExpr} {acc acc' : Prog Unit},
      SameSources fl srcs srcs' → exs left = exs left' → prog acc = prog acc' →
      Both (fun r r' => prog r.1 = prog r'.1 ∧ SameSources fl r.2 r'.2)
        (buildSources fs fl n i srcs left acc) (buildSources fs' fl n i srcs' left' acc')
  | 0, _, _, _, _, _, _, _, _, _, _ => rfl
  | n + 1, i, srcs, srcs', left, left', acc, acc', hs, hl, ha => by
    unfold buildSources
    rcases hs.get i with ⟨h1, h2⟩ | ⟨a, b, h1, h2, h3, h4⟩
    · rw [h1, h2]
      exact ⟨ha, hs⟩
    · rw [h1, h2]
      dsimp only
      generalize a.data = x at h4
      generalize b.data = y at h4
      cases x with
      | none =>
        cases y with
        | none => rfl
        | some => exact False.elim h4
      | some x =>
        cases y with
        | none => exact False.elim h4
        | some y =>
          have h5 := h4.2 i
          dsimp only
          generalize lex fl i x = r at h5 ⊢
          generalize lex fl i y = r' at h5 ⊢
          cases r with
          | error e =>
            cases r' with
            | error e' => exact h5
            | ok => exact False.elim h5
          | ok ts =>
            cases r' with
            | error => exact False.elim h5
            | ok us =>
              have hlen : ts.length = us.length := by simpa using congrArg List.length h5
              have := par_items hf h3 (parseFuel ts) ⟨ts, ⟨0, 0⟩, [], left, srcs⟩ ⟨us, ⟨0, 0⟩, [], left', srcs'⟩
                ⟨h5, rfl, hl, hs⟩
              dsimp only
              unfold parse
              rw [show parseFuel us = parseFuel ts by unfold parseFuel; rw [hlen]]
              rcases Both.elim this with ⟨_, _, hx, hy, e⟩ | ⟨⟨p, s⟩, ⟨q, s'⟩, hx, hy, h6, h7⟩
              · rw [hx, hy]
                exact e
              · rw [hx, hy]
                exact buildSources_same hf n (i + 1) h7.srcs h7.exps (by rw [prog_append, prog_append, ha, h6])

end Ccml.Bare
