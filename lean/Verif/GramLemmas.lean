import Verif.Grammar
import Verif.ParserSafe
/-! The parser reads everything the grammar allows. -/
namespace Ccml.Gram
open Ccml

/-! ### The functions of the token stream on a known first token -/

theorem found_yes {ty : Tok} {s : PState} {t : Token} {ts : List Token} (hs : s.toks = t :: ts)
    (ht : t.type = ty) : found ty s = .ok (some t, { s with toks := ts, line := t.line }) := by
  unfold found; rw [hs]; simp [ht]

theorem found_no {ty : Tok} {s : PState} {t : Token} {ts : List Token} (hs : s.toks = t :: ts)
    (ht : t.type ≠ ty) : found ty s = .ok (none, s) := by
  unfold found; rw [hs]; simp [ht]

theorem popTok_eq {s : PState} {t : Token} {ts : List Token} (hs : s.toks = t :: ts) :
    popTok s = .ok (t, { s with toks := ts, line := t.line }) := by unfold popTok; rw [hs]

theorem popType_eq {ty : Tok} {s : PState} {t : Token} {ts : List Token} (hs : s.toks = t :: ts)
    (ht : t.type = ty) : popType ty s = .ok (t, { s with toks := ts, line := t.line }) := by
  unfold popType; rw [hs]; simp [ht]

theorem peekTok_eq {s : PState} {t : Token} {ts : List Token} (hs : s.toks = t :: ts) :
    peekTok s = .ok (t, s) := by unfold peekTok; rw [hs]

theorem isOperator_eq {s : PState} {t : Token} {ts : List Token} (hs : s.toks = t :: ts) :
    isOperator s = .ok (decide (opType t.type > 0), s) := by
  unfold isOperator
  rw [pm_bind_ok (show nextType s = .ok (t.type, s) by unfold nextType; rw [hs])]; rfl

theorem skipEols_go_eq (es : List Token) (he : Eols es) (t : Token) (ts : List Token)
    (ht : t.type ≠ .EOL) (l : SrcLine) :
    ∃ l', skipEols.go (es ++ t :: ts) l = .ok (t :: ts, l') := by
  induction es generalizing l with
  | nil => exact ⟨l, by simp [skipEols.go, ht]⟩
  | cons u us ih =>
    obtain ⟨l', h⟩ := ih (fun v hv => he v (List.mem_cons_of_mem _ hv)) u.line
    exact ⟨l', by simp only [List.cons_append, skipEols.go, he u (by simp), if_true]; exact h⟩

theorem skipEols_eq {s : PState} {es : List Token} {t : Token} {ts : List Token} (he : Eols es)
    (hs : s.toks = es ++ t :: ts) (ht : t.type ≠ .EOL) :
    ∃ l, skipEols s = .ok ((), { s with toks := t :: ts, line := l }) := by
  obtain ⟨l, h⟩ := skipEols_go_eq es he t ts ht s.line
  refine ⟨l, ?_⟩
  unfold skipEols
  rw [hs, h]

/-! ### What follows an expression -/

/-- The token behind an operand that may be followed by an operator. -/
def Follow (ts : List Token) : Prop :=
  ∃ t us, ts = t :: us ∧ t.type ≠ .DOT ∧ t.type ≠ .LBRACKET ∧ t.type ≠ .LPAREN

/-- The token behind a whole expression. -/
def Stops (ts : List Token) : Prop :=
  ∃ t us, ts = t :: us ∧ t.type ≠ .DOT ∧ t.type ≠ .LBRACKET ∧ t.type ≠ .LPAREN ∧ opType t.type = 0

theorem Stops.follow {ts : List Token} (h : Stops ts) : Follow ts := by
  obtain ⟨t, us, h1, h2, h3, h4, -⟩ := h
  exact ⟨t, us, h1, h2, h3, h4⟩

theorem stops_of {t : Token} {ts : List Token} {ty : Tok} (h : t.type = ty) (h1 : ty ≠ .DOT)
    (h2 : ty ≠ .LBRACKET) (h3 : ty ≠ .LPAREN) (h4 : opType ty = 0) : Stops (t :: ts) :=
  ⟨t, ts, rfl, h ▸ h1, h ▸ h2, h ▸ h3, h ▸ h4⟩

theorem level_opType {ty : Tok} {q : Nat} (h : level ty = some q) :
    opType ty = q ∧ ty.isBinary = true ∧ 0 < q ∧ ty ≠ .DOT ∧ ty ≠ .LBRACKET ∧ ty ≠ .LPAREN := by
  cases ty <;> simp_all [level, opType, Tok.isBinary] <;> omega

/-- The token behind an operand, for the names. -/
def NoDot (ts : List Token) : Prop := ∃ t us, ts = t :: us ∧ t.type ≠ .DOT

theorem Follow.noDot {ts : List Token} (h : Follow ts) : NoDot ts := by
  obtain ⟨t, us, h1, h2, -⟩ := h
  exact ⟨t, us, h1, h2⟩

/-! ### The operator stack -/

/-- Reduce all of the operators. -/
def reduceAll : List Token → List PExpr → Comp (List PExpr)
  | [], es => .ok es
  | o :: os, es => match reduceOp o es with
    | .error e => .error e
    | .ok es' => reduceAll os es'

theorem reduceAll_append (a b : List Token) (es es' : List PExpr) (h : reduceAll a es = .ok es') :
    reduceAll (a ++ b) es = reduceAll b es' := by
  induction a generalizing es with
  | nil => cases h; rfl
  | cons o os ih =>
    simp only [reduceAll, List.cons_append] at h ⊢
    cases hr : reduceOp o es with
    | error e => rw [hr] at h; cases h
    | ok x => rw [hr] at h; exact ih x h

theorem reduceLoop_all {q : Nat} (new above bottom : List Token) (es es' : List PExpr)
    (h : reduceAll new es = .ok es') (hq : ∀ o ∈ new, q ≤ opType o.type) :
    reduceLoop q bottom.length (new ++ (above ++ bottom)) es =
      reduceLoop q bottom.length (above ++ bottom) es' := by
  induction new generalizing es with
  | nil => cases h; rfl
  | cons o os ih =>
    simp only [reduceAll] at h
    simp only [List.cons_append, reduceLoop]
    rw [if_pos (by simp; omega), if_neg (by have := hq o (by simp); omega)]
    cases hr : reduceOp o es with
    | error e => rw [hr] at h; cases h
    | ok x => rw [hr] at h; exact ih x h fun o ho => hq o (List.mem_cons_of_mem _ ho)

theorem reduceLoop_stop {q : Nat} (above bottom : List Token) (es : List PExpr)
    (hq : ∀ o ∈ above, opType o.type < q) :
    reduceLoop q bottom.length (above ++ bottom) es = .ok (above ++ bottom, es) := by
  cases above with
  | nil =>
    cases bottom with
    | nil => rfl
    | cons b bs => simp [reduceLoop]
  | cons o os =>
    simp only [List.cons_append, reduceLoop]
    rw [if_pos (by simp; omega), if_pos (hq o (by simp))]

theorem opPush_eq {s : PState} {op : Token} {new above bottom : List Token} {es : List PExpr}
    (ho : s.ops = new ++ (above ++ bottom)) (hr : reduceAll new s.exps = .ok es)
    (hn : ∀ o ∈ new, opType op.type ≤ opType o.type)
    (ha : ∀ o ∈ above, opType o.type < opType op.type) :
    opPush op bottom.length s = .ok ((), { s with ops := op :: (above ++ bottom), exps := es }) := by
  unfold opPush
  rw [ho, reduceLoop_all new above bottom _ _ hr hn, reduceLoop_stop above bottom es ha]

/-! ### Expressions -/

/-- What the parser does on each form. -/
def Runs : Form → List Token → Prop
  | .opnd e, ts => ∀ n (s : PState) rest, s.toks = ts ++ rest → NoDot rest →
    8 * s.toks.length + 1 ≤ n → ∃ m l, 8 * rest.length + 1 ≤ m ∧
      (parseLhs n >>= fun _ => parsePostfix n) s =
        parsePostfix m { s with toks := rest, line := l, exps := e :: s.exps }
  | .expr p e, ts => ∀ n (s : PState) rest above bottom, s.toks = ts ++ rest → Follow rest →
    s.ops = above ++ bottom → (∀ o ∈ above, opType o.type < p) → 8 * s.toks.length + 2 ≤ n →
    ∃ m l new X, 8 * rest.length + 1 ≤ m ∧
      parseExprEx n bottom.length s = parseTail m bottom.length
        { s with toks := rest, line := l, ops := new ++ s.ops, exps := X } ∧
      (∀ o ∈ new, p ≤ opType o.type) ∧ reduceAll new X = .ok (e :: s.exps)
  | .neg e, ts => ∀ n tide (s : PState) rest, s.toks = ts ++ rest → Stops rest →
    8 * s.toks.length + 2 ≤ n → ∃ l,
      parseExprEx n tide s = .ok ((), { s with toks := rest, line := l, exps := e :: s.exps })
  | .fin p e, ts => ∀ n (s : PState) rest above bottom, s.toks = ts ++ rest → Stops rest →
    s.ops = above ++ bottom → (∀ o ∈ above, opType o.type < p) → 8 * s.toks.length + 2 ≤ n →
    ∃ l new X,
      parseExprEx n bottom.length s =
        .ok ((), { s with toks := rest, line := l, ops := new ++ s.ops, exps := X }) ∧
      (∀ o ∈ new, p ≤ opType o.type) ∧ reduceAll new X = .ok (e :: s.exps)
  | .exprs es, ts => ∀ n (s : PState) rest, s.toks = ts ++ rest → Stops rest →
    (∀ t us, rest = t :: us → t.type ≠ .COMMA) → 8 * s.toks.length + 4 ≤ n →
    ∃ l, parseExprList n s = .ok (es, { s with toks := rest, line := l })
  | .args es, ts => ∀ n (s : PState) r rest, s.toks = ts ++ r :: rest → r.type = .RPAREN →
    8 * s.toks.length + 5 ≤ n →
    ∃ l, parseCallArgs n s = .ok (es, { s with toks := rest, line := l })

/-- The parser reads the tokens `ts` as the expression `e`, wherever an expression may end. -/
def Takes (e : PExpr) (ts : List Token) : Prop :=
  ∀ {n : Nat} {s : PState} {rest : List Token}, s.toks = ts ++ rest → Stops rest → 8 * s.toks.length + 3 ≤ n →
    ∃ l, parseExpr n s = .ok (e, { s with toks := rest, line := l })

theorem whole_expr {e : PExpr} {ts : List Token} (h : Runs (.whole e) ts) : Takes e ts := by
  intro n s rest hs hr hn
  obtain ⟨m, rfl⟩ : ∃ m, n = m + 1 := ⟨n - 1, by omega⟩
  obtain ⟨l, new, X, h1, h2, h3⟩ := h m s rest [] s.ops hs hr rfl (by simp) (by omega)
  refine ⟨l, ?_⟩
  simp only [parseExpr]
  rw [pm_bind_ok (show (get : PM PState) s = .ok (s, s) from rfl), pm_bind_ok h1]
  have hp : opPopAll s.ops.length { s with toks := rest, line := l, ops := new ++ s.ops, exps := X } =
      .ok ((), { s with toks := rest, line := l, exps := e :: s.exps }) := by
    unfold opPopAll
    have h5 := reduceLoop_all (q := 0) new [] s.ops X _ h3 (fun o _ => Nat.zero_le _)
    have h6 := reduceLoop_stop (q := 0) [] s.ops (e :: s.exps) (by simp)
    simp only [List.nil_append] at h5 h6
    dsimp only
    rw [h5, h6]
  rw [pm_bind_ok hp]
  rfl

theorem tail_stop {m tide : Nat} {s : PState} (hs : Stops s.toks) (hm : 1 ≤ m) :
    parseTail m tide s = .ok ((), s) := by
  obtain ⟨k, rfl⟩ : ∃ k, m = k + 1 := ⟨m - 1, by omega⟩
  obtain ⟨t, us, h, -, -, -, h0⟩ := hs
  simp only [parseTail]
  rw [pm_bind_ok (isOperator_eq h), h0]
  rfl

theorem postfix_stop {m : Nat} {s : PState} (hs : Follow s.toks) (hm : 1 ≤ m) :
    parsePostfix m s = .ok ((), s) := by
  obtain ⟨k, rfl⟩ : ∃ k, m = k + 1 := ⟨m - 1, by omega⟩
  obtain ⟨t, us, h, -, h1, h2⟩ := hs
  simp only [parsePostfix]
  rw [pm_bind_ok (found_no h h1)]
  dsimp only
  rw [pm_bind_ok (found_no h h2)]
  rfl

/-- The operand of `parse_expr_ex_`, when no unary operator comes first. -/
theorem ex_operand {n tide : Nat} {s : PState} {t : Token} {ts : List Token} (hs : s.toks = t :: ts)
    (h1 : t.type ≠ .NOT) (h2 : t.type ≠ .SUB) :
    parseExprEx (n + 1) tide s =
      ((parseLhs n >>= fun _ => parsePostfix n) >>= fun _ => parseTail n tide) s := by
  simp only [parseExprEx]
  rw [pm_bind_ok (found_no hs h1)]
  dsimp only
  rw [pm_bind_ok (found_no hs h2)]
  dsimp only
  rw [bind_assoc]

/-- The first token of an operand. -/
theorem opnd_first {f : Form} {ts : List Token} (h : Reads f ts) :
    ∀ e, f = .opnd e → ∃ t us, ts = t :: us ∧ t.type ≠ .NOT ∧ t.type ≠ .SUB := by
  induction h with
  | literal h => rintro _ -; cases h <;> rename_i h <;> exact ⟨_, _, rfl, by rw [h]; decide, by rw [h]; decide⟩
  | ident h => rintro _ -; exact ⟨_, _, rfl, by rw [h]; decide, by rw [h]; decide⟩
  | member h => rintro _ -; exact ⟨_, _, rfl, by rw [h]; decide, by rw [h]; decide⟩
  | arr h => rintro _ -; exact ⟨_, _, rfl, by rw [h]; decide, by rw [h]; decide⟩
  | paren h => rintro _ -; exact ⟨_, _, rfl, by rw [h]; decide, by rw [h]; decide⟩
  | deref _ _ _ _ ih =>
    rintro _ -
    obtain ⟨t, us, rfl, h1, h2⟩ := ih _ rfl
    exact ⟨t, _, rfl, h1, h2⟩
  | call _ _ _ _ ih =>
    rintro _ -
    obtain ⟨t, us, rfl, h1, h2⟩ := ih _ rfl
    exact ⟨t, _, rfl, h1, h2⟩
  | _ => intro _ h; cases h

/-- First tokens of expressions: never a closing bracket. -/
theorem first_ne {f : Form} {ts : List Token} (h : Reads f ts) :
    (match f with | .args _ => False | _ => True) → ∃ t us, ts = t :: us ∧ t.type ≠ .RPAREN ∧
      t.type ≠ .EOL := by
  induction h with
  | literal h =>
    intro _
    cases h with
    | int h => exact ⟨_, _, rfl, by rw [h]; decide, by rw [h]; decide⟩
    | float h => exact ⟨_, _, rfl, by rw [h]; decide, by rw [h]; decide⟩
    | str h => exact ⟨_, _, rfl, by rw [h]; decide, by rw [h]; decide⟩
    | none h => exact ⟨_, _, rfl, by rw [h]; decide, by rw [h]; decide⟩
  | ident h => intro _; exact ⟨_, _, rfl, by rw [h]; decide, by rw [h]; decide⟩
  | member h => intro _; exact ⟨_, _, rfl, by rw [h]; decide, by rw [h]; decide⟩
  | arr h => intro _; exact ⟨_, _, rfl, by rw [h]; decide, by rw [h]; decide⟩
  | paren h => intro _; exact ⟨_, _, rfl, by rw [h]; decide, by rw [h]; decide⟩
  | finNot h => intro _; exact ⟨_, _, rfl, by rw [h]; decide, by rw [h]; decide⟩
  | minus h => intro _; exact ⟨_, _, rfl, by rw [h]; decide, by rw [h]; decide⟩
  | noArgs => intro h; exact h.elim
  | someArgs => intro h; exact h.elim
  | operand _ ih => intro _; exact ih trivial
  | plain _ ih => intro _; exact ih trivial
  | finNeg _ ih => intro _; exact ih trivial
  | noMinus _ ih => intro _; exact ih trivial
  | one _ ih => intro _; exact ih trivial
  | deref _ _ _ _ ih =>
    intro _
    obtain ⟨t, us, rfl, h1, h2⟩ := ih trivial
    exact ⟨t, _, rfl, h1, h2⟩
  | call _ _ _ _ ih =>
    intro _
    obtain ⟨t, us, rfl, h1, h2⟩ := ih trivial
    exact ⟨t, _, rfl, h1, h2⟩
  | more _ _ _ ih =>
    intro _
    obtain ⟨t, us, rfl, h1, h2⟩ := ih trivial
    exact ⟨t, _, rfl, h1, h2⟩
  | bin _ _ _ _ ih =>
    intro _
    obtain ⟨t, us, rfl, h1, h2⟩ := ih trivial
    exact ⟨t, _, rfl, h1, h2⟩
  | finBin _ _ _ _ ih =>
    intro _
    obtain ⟨t, us, rfl, h1, h2⟩ := ih trivial
    exact ⟨t, _, rfl, h1, h2⟩

theorem runs_literal {t : Token} {e : PExpr} (h : Literal t e) :
    Runs (.opnd e) [t] := by
  intro n s rest hs hr hn
  obtain ⟨m, rfl⟩ : ∃ m, n = m + 1 := ⟨n - 1, by omega⟩
  simp only [hs, List.length_append, List.length_singleton] at hn
  refine ⟨m + 1, t.line, by omega, ?_⟩
  simp only [List.singleton_append] at hs
  have key : parseLhs (m + 1) s =
      .ok ((), { s with toks := rest, line := t.line, exps := e :: s.exps }) := by
    simp only [parseLhs]
    have hl : literalNode t = some e ∧ t.type ≠ .LBRACKET ∧ t.type ≠ .LPAREN ∧ t.type ≠ .IDENT := by
      cases h <;> rename_i h <;> simp [literalNode, h]
    rw [pm_bind_ok (found_no hs hl.2.1)]
    dsimp only
    rw [pm_bind_ok (found_no hs hl.2.2.1)]
    dsimp only
    rw [pm_bind_ok (found_no hs hl.2.2.2)]
    dsimp only
    rw [pm_bind_ok (popTok_eq hs), hl.1]
    rfl
  rw [pm_bind_ok key]

theorem runs_ident {t : Token} (h : t.type = .IDENT) :
    Runs (.opnd (.ident t ())) [t] := by
  intro n s rest hs hr hn
  obtain ⟨m, rfl⟩ : ∃ m, n = m + 1 := ⟨n - 1, by omega⟩
  simp only [hs, List.length_append, List.length_singleton] at hn
  refine ⟨m + 1, t.line, by omega, ?_⟩
  simp only [List.singleton_append] at hs
  have key : parseLhs (m + 1) s =
      .ok ((), { s with toks := rest, line := t.line, exps := .ident t () :: s.exps }) := by
    simp only [parseLhs]
    rw [pm_bind_ok (found_no hs (by rw [h]; decide))]
    dsimp only
    rw [pm_bind_ok (found_no hs (by rw [h]; decide))]
    dsimp only
    rw [pm_bind_ok (found_yes hs h)]
    dsimp only
    obtain ⟨u, us, hu, hd⟩ := hr
    rw [pm_bind_ok (found_no (t := u) (ts := us) hu hd)]
    rfl
  rw [pm_bind_ok key]

theorem runs_member {t d mm : Token} (ht : t.type = .IDENT) (hd : d.type = .DOT) (hm : mm.type = .IDENT) :
    Runs (.opnd (.member t mm ())) [t, d, mm] := by
  intro n s rest hs hr hn
  obtain ⟨m, rfl⟩ : ∃ m, n = m + 1 := ⟨n - 1, by omega⟩
  simp only [hs, List.length_append, List.length_cons, List.length_nil] at hn
  refine ⟨m + 1, mm.line, by omega, ?_⟩
  simp only [List.cons_append, List.nil_append] at hs
  have key : parseLhs (m + 1) s =
      .ok ((), { s with toks := rest, line := mm.line, exps := .member t mm () :: s.exps }) := by
    simp only [parseLhs]
    rw [pm_bind_ok (found_no hs (by rw [ht]; decide))]
    dsimp only
    rw [pm_bind_ok (found_no hs (by rw [ht]; decide))]
    dsimp only
    rw [pm_bind_ok (found_yes hs ht)]
    dsimp only
    rw [pm_bind_ok (found_yes (t := d) (ts := mm :: rest) rfl hd)]
    dsimp only
    rw [pm_bind_ok (popType_eq (t := mm) (ts := rest) rfl hm)]
    rfl
  rw [pm_bind_ok key]

theorem runs_arr {l r : Token} {es : List PExpr} {ts : List Token} (hl : l.type = .LBRACKET) (ih : Runs (.exprs es) ts)
    (hr : r.type = .RBRACKET) :
    Runs (.opnd (.arr l es)) (l :: (ts ++ [r])) := by
  intro n s rest hs hrest hn
  obtain ⟨m, rfl⟩ : ∃ m, n = m + 1 := ⟨n - 1, by omega⟩
  simp only [hs, List.length_append, List.length_cons, List.length_nil] at hn
  refine ⟨m + 1, r.line, by omega, ?_⟩
  simp only [List.cons_append, List.nil_append, List.append_assoc] at hs
  obtain ⟨l1, h1⟩ := ih m { s with toks := ts ++ r :: rest, line := l.line } (r :: rest) rfl
    (stops_of hr (by decide) (by decide) (by decide) rfl)
    (fun t us e => by cases e; rw [hr]; decide) (by simp; omega)
  have key : parseLhs (m + 1) s =
      .ok ((), { s with toks := rest, line := r.line, exps := .arr l es :: s.exps }) := by
    simp only [parseLhs]
    rw [pm_bind_ok (found_yes hs hl)]
    dsimp only
    rw [pm_bind_ok h1]
    rw [pm_bind_ok (show pushExp _ _ = .ok ((), _) from rfl)]
    rw [pm_bind_ok (popType_eq (t := r) (ts := rest) rfl hr)]
    rfl
  rw [pm_bind_ok key]

theorem runs_paren {l r : Token} {e : PExpr} {ts : List Token} (hl : l.type = .LPAREN) (ih : Takes e ts) (hr : r.type = .RPAREN) :
    Runs (.opnd e) (l :: (ts ++ [r])) := by
  intro n s rest hs hrest hn
  obtain ⟨m, rfl⟩ : ∃ m, n = m + 1 := ⟨n - 1, by omega⟩
  simp only [hs, List.length_append, List.length_cons, List.length_nil] at hn
  refine ⟨m + 1, r.line, by omega, ?_⟩
  simp only [List.cons_append, List.nil_append, List.append_assoc] at hs
  obtain ⟨l1, h1⟩ := ih (n := m) (s := { s with toks := ts ++ r :: rest, line := l.line })
    (rest := r :: rest) rfl (stops_of hr (by decide) (by decide) (by decide) rfl) (by simp; omega)
  have key : parseLhs (m + 1) s =
      .ok ((), { s with toks := rest, line := r.line, exps := e :: s.exps }) := by
    simp only [parseLhs]
    rw [pm_bind_ok (found_no hs (by rw [hl]; decide))]
    dsimp only
    rw [pm_bind_ok (found_yes hs hl)]
    dsimp only
    rw [pm_bind_ok h1]
    rw [pm_bind_ok (show pushExp _ _ = .ok ((), _) from rfl)]
    rw [pm_bind_ok (popType_eq (t := r) (ts := rest) rfl hr)]
    rfl
  rw [pm_bind_ok key]

theorem runs_deref {l r : Token} {e i : PExpr} {ts us : List Token} (ih : Runs (.opnd e) ts) (hl : l.type = .LBRACKET)
    (ihi : Takes i us) (hr : r.type = .RBRACKET) :
    Runs (.opnd (.deref l e i)) (ts ++ (l :: (us ++ [r]))) := by
  intro n s rest hs hrest hn
  simp only [List.append_assoc, List.cons_append, List.nil_append] at hs
  obtain ⟨m, l1, hm, h1⟩ := ih n s (l :: (us ++ r :: rest)) hs ⟨l, _, rfl, by rw [hl]; decide⟩ hn
  obtain ⟨k, rfl⟩ : ∃ k, m = k + 1 := ⟨m - 1, by omega⟩
  simp only [List.length_cons, List.length_append] at hm
  obtain ⟨l2, h2⟩ := ihi (n := k) (s := { s with toks := us ++ r :: rest, line := l.line })
    (rest := r :: rest) rfl (stops_of hr (by decide) (by decide) (by decide) rfl) (by simp; omega)
  refine ⟨k, r.line, by omega, ?_⟩
  rw [h1]
  simp only [parsePostfix]
  rw [pm_bind_ok (found_yes (t := l) (ts := us ++ r :: rest) rfl hl)]
  dsimp only
  rw [pm_bind_ok (show popExp _ _ = .ok (e, _) from rfl)]
  dsimp only
  rw [pm_bind_ok h2]
  rw [pm_bind_ok (show pushExp _ _ = .ok ((), _) from rfl)]
  rw [pm_bind_ok (popType_eq (t := r) (ts := rest) rfl hr)]

theorem runs_call {l r : Token} {e : PExpr} {as : List PExpr} {ts us : List Token} (ih : Runs (.opnd e) ts)
    (hl : l.type = .LPAREN) (iha : Runs (.args as) us) (hr : r.type = .RPAREN) :
    Runs (.opnd (.call l e as)) (ts ++ (l :: (us ++ [r]))) := by
  intro n s rest hs hrest hn
  simp only [List.append_assoc, List.cons_append, List.nil_append] at hs
  obtain ⟨m, l1, hm, h1⟩ := ih n s (l :: (us ++ r :: rest)) hs ⟨l, _, rfl, by rw [hl]; decide⟩ hn
  obtain ⟨k, rfl⟩ : ∃ k, m = k + 1 := ⟨m - 1, by omega⟩
  simp only [List.length_cons, List.length_append] at hm
  obtain ⟨l2, h2⟩ := iha k { s with toks := us ++ r :: rest, line := l.line, exps := e :: s.exps }
    r rest rfl hr (by simp; omega)
  refine ⟨k, l2, by omega, ?_⟩
  rw [h1]
  simp only [parsePostfix]
  rw [pm_bind_ok (found_no (t := l) (ts := us ++ r :: rest) rfl (by rw [hl]; decide))]
  dsimp only
  rw [pm_bind_ok (found_yes (t := l) (ts := us ++ r :: rest) rfl hl)]
  dsimp only
  rw [pm_bind_ok h2]
  rw [pm_bind_ok (show popExp _ _ = .ok (e, _) from rfl)]
  rw [pm_bind_ok (show pushExp _ _ = .ok ((), _) from rfl)]

theorem runs_one {e : PExpr} {ts : List Token} (ih : Takes e ts) :
    Runs (.exprs [e]) ts := by
  intro n s rest hs hr hc hn
  obtain ⟨m, rfl⟩ : ∃ m, n = m + 1 := ⟨n - 1, by omega⟩
  obtain ⟨l, h1⟩ := ih (n := m) hs hr (by omega)
  refine ⟨l, ?_⟩
  simp only [parseExprList]
  rw [pm_bind_ok h1]
  obtain ⟨t, us, hu, -⟩ := hr
  rw [pm_bind_ok (found_no (t := t) (ts := us) hu (hc t us hu))]
  rfl

theorem runs_more {e : PExpr} {es : List PExpr} {c : Token} {ts us : List Token} (ih : Takes e ts) (hc : c.type = .COMMA)
    (ihs : Runs (.exprs es) us) :
    Runs (.exprs (e :: es)) (ts ++ c :: us) := by
  intro n s rest hts hr hcr hn
  obtain ⟨m, rfl⟩ : ∃ m, n = m + 1 := ⟨n - 1, by omega⟩
  simp only [List.append_assoc, List.cons_append] at hts
  obtain ⟨l, h1⟩ := ih (n := m) hts (stops_of hc (by decide) (by decide) (by decide) rfl)
    (by omega)
  simp only [hts, List.length_append, List.length_cons] at hn
  obtain ⟨l2, h2⟩ := ihs m { s with toks := us ++ rest, line := c.line } rest rfl hr hcr (by simp; omega)
  refine ⟨l2, ?_⟩
  simp only [parseExprList]
  rw [pm_bind_ok h1]
  rw [pm_bind_ok (found_yes (t := c) (ts := us ++ rest) rfl hc)]
  dsimp only
  rw [pm_bind_ok h2]
  rfl

theorem runs_noArgs :
    Runs (.args []) [] := by
  intro n s r rest hs hr hn
  obtain ⟨m, rfl⟩ : ∃ m, n = m + 1 := ⟨n - 1, by omega⟩
  refine ⟨r.line, ?_⟩
  simp only [parseCallArgs]
  rw [pm_bind_ok (found_yes hs hr)]
  rfl

theorem runs_someArgs {es : List PExpr} {ts : List Token} (hf : ∃ t us, ts = t :: us ∧ t.type ≠ .RPAREN)
    (ih : Runs (.exprs es) ts) :
    Runs (.args es) ts := by
  intro n s r rest hs hr hn
  obtain ⟨m, rfl⟩ : ∃ m, n = m + 1 := ⟨n - 1, by omega⟩
  obtain ⟨t, us, rfl, ht⟩ := hf
  obtain ⟨l1, h1⟩ := ih m s (r :: rest) hs (stops_of hr (by decide) (by decide) (by decide) rfl)
    (fun t us e => by cases e; rw [hr]; decide) (by omega)
  refine ⟨r.line, ?_⟩
  simp only [parseCallArgs]
  rw [pm_bind_ok (found_no hs ht)]
  dsimp only
  rw [pm_bind_ok h1]
  rw [pm_bind_ok (popType_eq (t := r) (ts := rest) rfl hr)]
  rfl

theorem expr_runs {f : Form} {ts : List Token} (h : Reads f ts) : Runs f ts := by
  induction h with
  | @literal t e h => exact runs_literal h
  | @ident t h => exact runs_ident h
  | @member t d mm ht hd hm => exact runs_member ht hd hm
  | @arr l r es ts hl h hr ih => exact runs_arr hl ih hr
  | @paren l r e ts hl h hr ih => exact runs_paren hl (whole_expr ih) hr
  | @deref l r e i ts us h hl hi hr ih ihi => exact runs_deref ih hl (whole_expr ihi) hr
  | @call l r e as ts us h hl ha hr ih iha => exact runs_call ih hl iha hr
  | @one e ts h ih => exact runs_one (whole_expr ih)
  | @more e es c ts us h hc hs ih ihs => exact runs_more (whole_expr ih) hc ihs
  | noArgs => exact runs_noArgs
  | @someArgs es ts h ih => exact runs_someArgs ((first_ne h trivial).imp fun _ h => h.imp fun _ h => ⟨h.1, h.2.1⟩) ih
  | @operand p e ts h ih =>
    intro n s rest above bottom hs hr ho ha hn
    obtain ⟨m, rfl⟩ : ∃ m, n = m + 1 := ⟨n - 1, by omega⟩
    obtain ⟨t, us, rfl, h1, h2⟩ := opnd_first h e rfl
    obtain ⟨k, l, hk, h3⟩ := ih m s rest hs hr.noDot (by omega)
    refine ⟨m, l, [], e :: s.exps, ?_, ?_, by simp, rfl⟩
    · simp only [hs, List.length_append, List.length_cons] at hn; omega
    · rw [ex_operand hs h1 h2, pm_bind, h3, postfix_stop hr (by omega)]
      rfl
  | @bin p q op l r ts us ho hp hl hr ihl ihr =>
    intro n s rest above bottom hs hrest hops ha hn
    obtain ⟨hq, hb, hq0, hd, h1, h2⟩ := level_opType ho
    simp only [List.append_assoc, List.cons_append] at hs
    obtain ⟨m, l1, new, X, hm, e1, e2, e3⟩ := ihl n s (op :: (us ++ rest)) above bottom hs
      ⟨op, _, rfl, hd, h1, h2⟩ hops (fun o h => Nat.lt_of_lt_of_le (ha o h) hp) hn
    obtain ⟨k, rfl⟩ : ∃ k, m = k + 1 := ⟨m - 1, by omega⟩
    simp only [List.length_cons, List.length_append] at hm
    obtain ⟨m2, l2, new2, X2, hm2, e4, e5, e6⟩ := ihr k
      { s with toks := us ++ rest, line := op.line, ops := op :: (above ++ bottom), exps := l :: s.exps }
      rest (op :: above) bottom rfl hrest rfl (by
        intro o h; rcases List.mem_cons.1 h with rfl | h
        · omega
        · have := ha o h; omega) (by simp; omega)
    refine ⟨m2, l2, new2 ++ [op], X2, hm2, ?_, ?_, ?_⟩
    · rw [e1]
      simp only [parseTail]
      rw [pm_bind_ok (isOperator_eq (t := op) (ts := us ++ rest) rfl)]
      rw [if_pos (by simp; omega)]
      rw [pm_bind_ok (popTok_eq (t := op) (ts := us ++ rest) rfl)]
      rw [pm_bind_ok (opPush_eq (new := new) (above := above) (bottom := bottom) (by rw [hops]) e3
        (by rw [hq]; exact e2) (by rw [hq]; intro o h; have := ha o h; omega))]
      rw [e4]
      simp only [List.append_assoc, List.cons_append, List.nil_append, hops]
    · intro o h
      rcases List.mem_append.1 h with h | h
      · have := e5 o h; omega
      · cases List.mem_singleton.1 h; omega
    · rw [reduceAll_append _ _ _ _ e6]
      simp only [reduceAll, reduceOp, hb, if_true]
  | @plain p e ts h ih =>
    intro n s rest above bottom hs hr ho ha hn
    obtain ⟨m, l, new, X, hm, e1, e2, e3⟩ := ih n s rest above bottom hs hr.follow ho ha hn
    exact ⟨l, new, X, by rw [e1, tail_stop (by exact hr) (by omega)], e2, e3⟩
  | @finBin p q op l r ts us ho hp hl hr ihl ihr =>
    intro n s rest above bottom hs hrest hops ha hn
    obtain ⟨hq, hb, hq0, hd, h1, h2⟩ := level_opType ho
    simp only [List.append_assoc, List.cons_append] at hs
    obtain ⟨m, l1, new, X, hm, e1, e2, e3⟩ := ihl n s (op :: (us ++ rest)) above bottom hs
      ⟨op, _, rfl, hd, h1, h2⟩ hops (fun o h => Nat.lt_of_lt_of_le (ha o h) hp) hn
    obtain ⟨k, rfl⟩ : ∃ k, m = k + 1 := ⟨m - 1, by omega⟩
    simp only [List.length_cons, List.length_append] at hm
    obtain ⟨l2, new2, X2, e4, e5, e6⟩ := ihr k
      { s with toks := us ++ rest, line := op.line, ops := op :: (above ++ bottom), exps := l :: s.exps }
      rest (op :: above) bottom rfl hrest rfl (by
        intro o h; rcases List.mem_cons.1 h with rfl | h
        · omega
        · have := ha o h; omega) (by simp; omega)
    refine ⟨l2, new2 ++ [op], X2, ?_, ?_, ?_⟩
    · rw [e1]
      simp only [parseTail]
      rw [pm_bind_ok (isOperator_eq (t := op) (ts := us ++ rest) rfl)]
      rw [if_pos (by simp; omega)]
      rw [pm_bind_ok (popTok_eq (t := op) (ts := us ++ rest) rfl)]
      rw [pm_bind_ok (opPush_eq (new := new) (above := above) (bottom := bottom) (by rw [hops]) e3
        (by rw [hq]; exact e2) (by rw [hq]; intro o h; have := ha o h; omega))]
      rw [e4]
      simp only [List.append_assoc, List.cons_append, List.nil_append, hops]
    · intro o h
      rcases List.mem_append.1 h with h | h
      · have := e5 o h; omega
      · cases List.mem_singleton.1 h; omega
    · rw [reduceAll_append _ _ _ _ e6]
      simp only [reduceAll, reduceOp, hb, if_true]
  | @finNot p t e ts ht hp h ih =>
    intro n s rest above bottom hs hr ho ha hn
    obtain ⟨m, rfl⟩ : ∃ m, n = m + 1 := ⟨n - 1, by omega⟩
    simp only [List.cons_append] at hs
    have hlen : s.toks.length = (ts ++ rest).length + 1 := by rw [hs]; rfl
    obtain ⟨l, new, X, e1, e2, e3⟩ := ih m { s with toks := ts ++ rest, line := t.line } rest above bottom
      rfl hr ho (fun o h => Nat.lt_of_lt_of_le (ha o h) hp) (by dsimp only; omega)
    have h2 : opType t.type = 2 := by rw [ht]; rfl
    refine ⟨l, [t], e :: s.exps, ?_, ?_, ?_⟩
    · simp only [parseExprEx]
      rw [pm_bind_ok (found_yes hs ht)]
      dsimp only
      rw [pm_bind_ok e1]
      rw [opPush_eq (new := new) (above := above) (bottom := bottom) (by rw [ho]) e3
        (by rw [h2]; exact e2) (by rw [h2]; intro o h; have := ha o h; omega)]
      simp only [ho, List.singleton_append]
    · intro o h; cases List.mem_singleton.1 h; omega
    · simp only [reduceAll, reduceOp, ht, Tok.isBinary, Tok.isUnary, if_true]; rfl
  | @finNeg p e ts h ih =>
    intro n s rest above bottom hs hr ho ha hn
    obtain ⟨l, e1⟩ := ih n bottom.length s rest hs hr hn
    exact ⟨l, [], e :: s.exps, e1, by simp, rfl⟩
  | @noMinus e ts h ih =>
    intro n tide s rest hs hr hn
    obtain ⟨m, rfl⟩ : ∃ m, n = m + 1 := ⟨n - 1, by omega⟩
    obtain ⟨t, us, rfl, h1, h2⟩ := opnd_first h e rfl
    obtain ⟨k, l, hk, h3⟩ := ih m s rest hs hr.follow.noDot (by omega)
    refine ⟨l, ?_⟩
    rw [ex_operand hs h1 h2, pm_bind, h3, postfix_stop hr.follow (by omega)]
    exact tail_stop hr (by simp only [hs, List.length_append, List.length_cons] at hn; omega)
  | @minus t e ts ht h ih =>
    intro n tide s rest hs hr hn
    obtain ⟨m, rfl⟩ : ∃ m, n = m + 1 := ⟨n - 1, by omega⟩
    simp only [List.cons_append] at hs
    have hlen : s.toks.length = (ts ++ rest).length + 1 := by rw [hs]; rfl
    obtain ⟨l, e1⟩ := ih m tide { s with toks := ts ++ rest, line := t.line } rest rfl hr
      (by dsimp only; omega)
    refine ⟨l, ?_⟩
    simp only [parseExprEx]
    rw [pm_bind_ok (found_no hs (by rw [ht]; decide))]
    dsimp only
    rw [pm_bind_ok (found_yes hs ht)]
    dsimp only
    rw [pm_bind_ok e1]
    rw [pm_bind_ok (show popExp _ _ = .ok (e, _) from rfl)]
    rfl

/-- A whole expression, ready for use. -/
theorem whole_eq {e : PExpr} {ts : List Token} (h : Reads (.whole e) ts) {n : Nat} {s : PState}
    {rest : List Token} (hs : s.toks = ts ++ rest) (hr : Stops rest) (hn : 8 * s.toks.length + 3 ≤ n) :
    ∃ l, parseExpr n s = .ok (e, { s with toks := rest, line := l }) :=
  whole_expr (expr_runs h) hs hr hn

/-! ### Statements -/

/-- The parser reads what the grammars `W` of expressions and `A` of arguments allow. -/
structure TakesAll (W : PExpr → List Token → Prop) (A : List PExpr → List Token → Prop) : Prop where
  whole : ∀ {e ts}, W e ts → Takes e ts
  first : ∀ {e ts}, W e ts → ∃ t us, ts = t :: us ∧ t.type ≠ .RPAREN ∧ t.type ≠ .EOL
  args : ∀ {as ts}, A as ts → Runs (.args as) ts

theorem reads_take : TakesAll (fun e => Reads (.whole e)) (fun as => Reads (.args as)) :=
  ⟨fun h => whole_expr (expr_runs h), fun h => first_ne h trivial, fun h => expr_runs h⟩

section
variable {W : PExpr → List Token → Prop} {A : List PExpr → List Token → Prop}

/-- What the parser does on statements. -/
def RunsS : SForm → List Token → Prop
  | .stmt st, ts => ∃ t us, ts = t :: us ∧ t.type ≠ .EOL ∧ t.type ≠ .END ∧ t.type ≠ .ELSE ∧
    ∀ n (s : PState) k rest, s.toks = us ++ k :: rest → k.type = .EOL → 8 * s.toks.length + 4 ≤ n →
      ∃ l, parseStmtKind n t s = .ok (st, { s with toks := k :: rest, line := l })
  | .block ss, ts => (ts = [] ∨ ∃ t us, ts = t :: us ∧ t.type ≠ .EOL) ∧
    ∀ n (s : PState) before k rest, Eols before → (ss = [] → before = []) →
      s.toks = before ++ (ts ++ k :: rest) → 8 * s.toks.length + 2 ≤ n →
      (k.type = .END →
        (∃ l, parseBlock n s = .ok (ss, { s with toks := rest, line := l })) ∧
        (∃ l, parseThen n s = .ok ((ss, false), { s with toks := rest, line := l })) ∧
        (∃ l, parseBody n s = .ok ((ss, k), { s with toks := rest, line := l }))) ∧
      (k.type = .ELSE → ∀ m rest', rest = m :: rest' → m.type = .EOL →
        ∃ l, parseThen n s = .ok ((ss, true), { s with toks := rest', line := l }))
  | .body ss, ts => ∀ n (s : PState) k rest, s.toks = ts ++ k :: rest → 8 * s.toks.length + 2 ≤ n →
      (k.type = .END →
        (∃ l, parseBlock n s = .ok (ss, { s with toks := rest, line := l })) ∧
        (∃ l, parseThen n s = .ok ((ss, false), { s with toks := rest, line := l })) ∧
        (∃ l, parseBody n s = .ok ((ss, k), { s with toks := rest, line := l }))) ∧
      (k.type = .ELSE → ∀ m rest', rest = m :: rest' → m.type = .EOL →
        ∃ l, parseThen n s = .ok ((ss, true), { s with toks := rest', line := l }))

theorem stops_eol {t : Token} {ts : List Token} (h : t.type = .EOL) : Stops (t :: ts) :=
  stops_of h (by decide) (by decide) (by decide) rfl

theorem stops_rparen {t : Token} {ts : List Token} (h : t.type = .RPAREN) : Stops (t :: ts) :=
  stops_of h (by decide) (by decide) (by decide) rfl

theorem declVar_none {n : Nat} {s : PState} {name k : Token} {rest : List Token}
    (hn : name.type = .IDENT) (hs : s.toks = name :: k :: rest) (hk : k.type ≠ .ASSIGN) :
    parseDeclVar n s = .ok ((name, none), { s with toks := k :: rest, line := name.line }) := by
  simp only [parseDeclVar]
  rw [pm_bind_ok (popType_eq hs hn)]
  rw [pm_bind_ok (found_no (t := k) (ts := rest) rfl hk)]
  rfl

theorem declVar_some (hW : TakesAll W A) {n : Nat} {s : PState} {name a : Token} {e : PExpr} {ts rest : List Token}
    (hn : name.type = .IDENT) (ha : a.type = .ASSIGN) (he : W e ts)
    (hs : s.toks = name :: a :: (ts ++ rest)) (hk : Stops rest) (hn' : 8 * s.toks.length ≤ n + 1) :
    ∃ l, parseDeclVar n s = .ok ((name, some e), { s with toks := rest, line := l }) := by
  have hlen : s.toks.length = (ts ++ rest).length + 2 := by rw [hs]; rfl
  obtain ⟨l, h⟩ := hW.whole he (n := n) (s := { s with toks := ts ++ rest, line := a.line }) rfl hk
    (by dsimp only; omega)
  refine ⟨l, ?_⟩
  simp only [parseDeclVar]
  rw [pm_bind_ok (popType_eq hs hn)]
  rw [pm_bind_ok (found_yes (t := a) (ts := ts ++ rest) rfl ha)]
  dsimp only
  rw [pm_bind_ok h]
  rfl

theorem condition_eq (hW : TakesAll W A) {n : Nat} {s : PState} {l r k : Token} {c : PExpr} {ts rest : List Token}
    (hl : l.type = .LPAREN) (hc : W c ts) (hr : r.type = .RPAREN) (hk : k.type = .EOL)
    (hs : s.toks = l :: (ts ++ r :: k :: rest)) (hn : 8 * s.toks.length ≤ n + 5) :
    parseCondition n s = .ok (c, { s with toks := rest, line := k.line }) := by
  have hlen : s.toks.length = (ts ++ r :: k :: rest).length + 1 := by rw [hs]; rfl
  obtain ⟨l1, h1⟩ := hW.whole hc (n := n) (s := { s with toks := ts ++ r :: k :: rest, line := l.line })
    rfl (stops_rparen hr) (by dsimp only; omega)
  simp only [parseCondition]
  rw [pm_bind_ok (popType_eq hs hl)]
  rw [pm_bind_ok h1]
  rw [pm_bind_ok (popType_eq (t := r) (ts := k :: rest) rfl hr)]
  rw [pm_bind_ok (popType_eq (t := k) (ts := rest) rfl hk)]
  rfl

theorem forHead_eq (hW : TakesAll W A) {n : Nat} {s : PState} {l name a o r k : Token} {x y : PExpr}
    {ts us rest : List Token} (hl : l.type = .LPAREN) (hname : name.type = .IDENT)
    (ha : a.type = .ASSIGN) (hx : W x ts) (ho : o.type = .TO) (hy : W y us)
    (hr : r.type = .RPAREN) (hk : k.type = .EOL)
    (hs : s.toks = l :: name :: a :: (ts ++ o :: (us ++ r :: k :: rest)))
    (hn : 8 * s.toks.length ≤ n + 5) :
    parseForHead n s = .ok ((name, x, y), { s with toks := rest, line := k.line }) := by
  have hlen : s.toks.length = (ts ++ o :: (us ++ r :: k :: rest)).length + 3 := by rw [hs]; rfl
  obtain ⟨l1, h1⟩ := hW.whole hx (n := n)
    (s := { s with toks := ts ++ o :: (us ++ r :: k :: rest), line := a.line })
    rfl (stops_of ho (by decide) (by decide) (by decide) rfl) (by dsimp only; omega)
  have hlen2 : (ts ++ o :: (us ++ r :: k :: rest)).length ≥ (us ++ r :: k :: rest).length := by
    simp only [List.length_append, List.length_cons]; omega
  obtain ⟨l2, h2⟩ := hW.whole hy (n := n)
    (s := { s with toks := us ++ r :: k :: rest, line := o.line })
    rfl (stops_rparen hr) (by dsimp only; omega)
  simp only [parseForHead]
  rw [pm_bind_ok (popType_eq hs hl)]
  rw [pm_bind_ok (popType_eq (t := name) (ts := a :: (ts ++ o :: (us ++ r :: k :: rest))) rfl hname)]
  rw [pm_bind_ok (popType_eq (t := a) (ts := ts ++ o :: (us ++ r :: k :: rest)) rfl ha)]
  rw [pm_bind_ok h1]
  rw [pm_bind_ok (popType_eq (t := o) (ts := us ++ r :: k :: rest) rfl ho)]
  rw [pm_bind_ok h2]
  rw [pm_bind_ok (popType_eq (t := r) (ts := k :: rest) rfl hr)]
  rw [pm_bind_ok (popType_eq (t := k) (ts := rest) rfl hk)]
  rfl

/-- One statement with the ends of lines around it. -/
theorem stmt_eq {st : PStmt} {ts : List Token} (h : RunsS (.stmt st) ts) {n : Nat} {s : PState}
    {before after : List Token} {e : Token} {k : Token} {rest : List Token} (hb : Eols before)
    (he : e.type = .EOL) (ha : Eols after) (hk : k.type ≠ .EOL)
    (hs : s.toks = before ++ (ts ++ e :: (after ++ k :: rest))) (hn : 8 * s.toks.length + 1 ≤ n) :
    ∃ l, parseStmt n s = .ok (st, { s with toks := k :: rest, line := l }) := by
  obtain ⟨m, rfl⟩ : ∃ m, n = m + 1 := ⟨n - 1, by omega⟩
  obtain ⟨t, us, rfl, h1, -, -, h2⟩ := h
  simp only [List.cons_append] at hs
  obtain ⟨l1, e1⟩ := skipEols_eq hb hs h1
  have hlen : s.toks.length = before.length + ((us ++ e :: (after ++ k :: rest)).length + 1) := by
    rw [hs]; simp
  obtain ⟨l2, e2⟩ := h2 m { s with toks := us ++ e :: (after ++ k :: rest), line := t.line } e
    (after ++ k :: rest) rfl he (by dsimp only; omega)
  obtain ⟨l3, e3⟩ := skipEols_eq (s := { s with toks := after ++ k :: rest, line := e.line }) ha rfl hk
  refine ⟨l3, ?_⟩
  simp only [parseStmt]
  rw [pm_bind_ok e1]
  rw [pm_bind_ok (popTok_eq (t := t) (ts := us ++ e :: (after ++ k :: rest)) rfl)]
  rw [pm_bind_ok e2]
  rw [pm_bind_ok (popType_eq (t := e) (ts := after ++ k :: rest) rfl he)]
  rw [pm_bind_ok e3]
  rfl

theorem named_eq {n : Nat} {s : PState} {t : Token} (ht : t.type = .IDENT) :
    parseStmtKind (n + 1) t s = parseNamed n t s := by
  simp only [parseStmtKind]
  rw [ht]

theorem compound_eq (hW : TakesAll W A) {n : Nat} {s : PState} {name op a k : Token} {e : PExpr} {ts rest : List Token}
    (ha : a.type = .ASSIGN) (he : W e ts) (hs : s.toks = op :: a :: (ts ++ k :: rest))
    (hk : k.type = .EOL) (hn : 8 * s.toks.length ≤ n + 1) :
    ∃ l, parseCompound n name s =
      .ok (.assign name () (.bin op (.ident name ()) e), { s with toks := k :: rest, line := l }) := by
  have hlen : s.toks.length = (ts ++ k :: rest).length + 2 := by rw [hs]; rfl
  obtain ⟨l, h⟩ := hW.whole he (n := n) (s := { s with toks := ts ++ k :: rest, line := a.line }) rfl
    (stops_eol hk) (by dsimp only; omega)
  refine ⟨l, ?_⟩
  simp only [parseCompound]
  rw [pm_bind_ok (popTok_eq hs)]
  rw [pm_bind_ok (found_yes (t := a) (ts := ts ++ k :: rest) rfl ha)]
  dsimp only
  rw [pm_bind_ok h]
  rfl

theorem stmt_runs (hW : TakesAll W A) {f : SForm} {ts : List Token} (h : StmtOf W A f ts) : RunsS f ts := by
  induction h with
  | @var v name hv hn =>
    refine ⟨v, [name], rfl, by rw [hv]; decide, by rw [hv]; decide, by rw [hv]; decide, ?_⟩
    intro n s k rest hs hk hf
    obtain ⟨m, rfl⟩ : ∃ m, n = m + 1 := ⟨n - 1, by omega⟩
    refine ⟨name.line, ?_⟩
    simp only [parseStmtKind]
    rw [hv]
    dsimp only
    rw [pm_bind_ok (declVar_none hn hs (by rw [hk]; decide))]
    rfl
  | @varInit v name a e ts hv hn ha he =>
    refine ⟨v, _, rfl, by rw [hv]; decide, by rw [hv]; decide, by rw [hv]; decide, ?_⟩
    intro n s k rest hs hk hf
    obtain ⟨m, rfl⟩ : ∃ m, n = m + 1 := ⟨n - 1, by omega⟩
    obtain ⟨l, h⟩ := declVar_some hW (n := m) hn ha he hs (stops_eol hk) (by omega)
    refine ⟨l, ?_⟩
    simp only [parseStmtKind]
    rw [hv]
    dsimp only
    rw [pm_bind_ok h]
    rfl
  | @assign name a e ts hn ha he =>
    refine ⟨name, _, rfl, by rw [hn]; decide, by rw [hn]; decide, by rw [hn]; decide, ?_⟩
    intro n s k rest hs hk hf
    obtain ⟨m, rfl⟩ : ∃ m, n = m + 1 := ⟨n - 1, by omega⟩
    simp only [List.cons_append] at hs
    have hlen : s.toks.length = (ts ++ k :: rest).length + 1 := by rw [hs]; rfl
    obtain ⟨l, h⟩ := hW.whole he (n := m) (s := { s with toks := ts ++ k :: rest, line := a.line }) rfl
      (stops_eol hk) (by dsimp only; omega)
    refine ⟨l, ?_⟩
    rw [named_eq hn]
    simp only [parseNamed]
    rw [pm_bind_ok (peekTok_eq hs), ha]
    dsimp only
    rw [pm_bind_ok (popTok_eq hs)]
    simp only [parseAssign]
    rw [pm_bind_ok h]
    rfl
  | @compound name op a e ts hn ho ha he =>
    refine ⟨name, _, rfl, by rw [hn]; decide, by rw [hn]; decide, by rw [hn]; decide, ?_⟩
    intro n s k rest hs hk hf
    obtain ⟨m, rfl⟩ : ∃ m, n = m + 1 := ⟨n - 1, by omega⟩
    simp only [List.cons_append] at hs
    obtain ⟨l, h⟩ := compound_eq hW (n := m) (name := name) ha he hs hk (by omega)
    refine ⟨l, ?_⟩
    rw [named_eq hn]
    simp only [parseNamed]
    rw [pm_bind_ok (peekTok_eq hs)]
    rcases ho with ho | ho | ho | ho <;> rw [ho] <;> exact h
  | @assignMem name d mm a e ts hn hd hm ha he =>
    refine ⟨name, _, rfl, by rw [hn]; decide, by rw [hn]; decide, by rw [hn]; decide, ?_⟩
    intro n s k rest hs hk hf
    obtain ⟨m, rfl⟩ : ∃ m, n = m + 1 := ⟨n - 1, by omega⟩
    simp only [List.cons_append] at hs
    have hlen : s.toks.length = (ts ++ k :: rest).length + 3 := by rw [hs]; rfl
    obtain ⟨l, h⟩ := hW.whole he (n := m) (s := { s with toks := ts ++ k :: rest, line := a.line }) rfl
      (stops_eol hk) (by dsimp only; omega)
    refine ⟨l, ?_⟩
    rw [named_eq hn]
    simp only [parseNamed]
    rw [pm_bind_ok (peekTok_eq hs), hd]
    simp only [parseMemberAssign]
    rw [pm_bind_ok (popType_eq hs hd)]
    rw [pm_bind_ok (popType_eq (t := mm) (ts := a :: (ts ++ k :: rest)) rfl hm)]
    rw [pm_bind_ok (popType_eq (t := a) (ts := ts ++ k :: rest) rfl ha)]
    rw [pm_bind_ok h]
    rfl
  | @assignArr name l i r a e ts us hn hl hi hr ha he =>
    refine ⟨name, _, rfl, by rw [hn]; decide, by rw [hn]; decide, by rw [hn]; decide, ?_⟩
    intro n s k rest hs hk hf
    obtain ⟨m, rfl⟩ : ∃ m, n = m + 1 := ⟨n - 1, by omega⟩
    simp only [List.cons_append, List.append_assoc] at hs
    have hlen : s.toks.length = ts.length + (us ++ k :: rest).length + 3 := by
      rw [hs]; simp only [List.length_append, List.length_cons]; omega
    obtain ⟨l1, h1⟩ := hW.whole hi (n := m)
      (s := { s with toks := ts ++ r :: a :: (us ++ k :: rest), line := l.line }) rfl
      (stops_of hr (by decide) (by decide) (by decide) rfl)
      (by simp only [List.length_append, List.length_cons] at hlen ⊢; omega)
    obtain ⟨l2, h2⟩ := hW.whole he (n := m) (s := { s with toks := us ++ k :: rest, line := a.line }) rfl
      (stops_eol hk) (by dsimp only; omega)
    refine ⟨l2, ?_⟩
    rw [named_eq hn]
    simp only [parseNamed]
    rw [pm_bind_ok (peekTok_eq hs), hl]
    dsimp only
    rw [pm_bind_ok (popTok_eq hs)]
    simp only [parseArraySet]
    rw [pm_bind_ok h1]
    rw [pm_bind_ok (popType_eq (t := r) (ts := a :: (us ++ k :: rest)) rfl hr)]
    rw [pm_bind_ok (popType_eq (t := a) (ts := us ++ k :: rest) rfl ha)]
    rw [pm_bind_ok h2]
    rfl
  | @call name l r as ts hn hl ha hr =>
    refine ⟨name, _, rfl, by rw [hn]; decide, by rw [hn]; decide, by rw [hn]; decide, ?_⟩
    intro n s k rest hs hk hf
    obtain ⟨m, rfl⟩ : ∃ m, n = m + 1 := ⟨n - 1, by omega⟩
    simp only [List.cons_append, List.append_assoc, List.nil_append] at hs
    have hlen : s.toks.length = (ts ++ r :: k :: rest).length + 1 := by rw [hs]; rfl
    obtain ⟨l1, h1⟩ := hW.args ha m { s with toks := ts ++ r :: k :: rest, line := l.line } r (k :: rest)
      rfl hr (by dsimp only; omega)
    refine ⟨l1, ?_⟩
    rw [named_eq hn]
    simp only [parseNamed]
    rw [pm_bind_ok (peekTok_eq hs), hl]
    dsimp only
    rw [pm_bind_ok (popTok_eq hs)]
    rw [pm_bind_ok h1]
    rfl
  | @ret t ht =>
    refine ⟨t, [], rfl, by rw [ht]; decide, by rw [ht]; decide, by rw [ht]; decide, ?_⟩
    intro n s k rest hs hk hf
    obtain ⟨m, rfl⟩ : ∃ m, n = m + 1 := ⟨n - 1, by omega⟩
    refine ⟨s.line, ?_⟩
    simp only [parseStmtKind]
    rw [ht]
    simp only [parseReturn]
    rw [pm_bind_ok (peekTok_eq hs), if_pos hk]
    simp only [List.nil_append] at hs
    rw [← hs]
    rfl
  | @retVal t e ts ht he =>
    refine ⟨t, ts, rfl, by rw [ht]; decide, by rw [ht]; decide, by rw [ht]; decide, ?_⟩
    intro n s k rest hs hk hf
    obtain ⟨m, rfl⟩ : ∃ m, n = m + 1 := ⟨n - 1, by omega⟩
    obtain ⟨l, h⟩ := hW.whole he (n := m) hs (stops_eol hk) (by omega)
    obtain ⟨u, us, rfl, -, hu⟩ := hW.first he
    refine ⟨l, ?_⟩
    simp only [parseStmtKind]
    rw [ht]
    simp only [parseReturn]
    rw [pm_bind_ok (peekTok_eq hs), if_neg hu]
    rw [pm_bind_ok h]
    rfl
  | @ifS t l c r nl b e ts us ht hl hc hr hn hb he ih =>
    refine ⟨t, _, rfl, by rw [ht]; decide, by rw [ht]; decide, by rw [ht]; decide, ?_⟩
    intro n s k rest hs hk hf
    obtain ⟨m, rfl⟩ : ∃ m, n = m + 1 := ⟨n - 1, by omega⟩
    simp only [List.cons_append, List.append_assoc, List.nil_append] at hs
    have hlen : s.toks.length = ts.length + (us ++ e :: k :: rest).length + 3 := by
      rw [hs]; simp only [List.length_append, List.length_cons]; omega
    obtain ⟨-, ⟨l1, h1⟩, -⟩ := (ih m { s with toks := us ++ e :: k :: rest, line := nl.line } e (k :: rest) rfl
      (by dsimp only; omega)).1 he
    refine ⟨l1, ?_⟩
    simp only [parseStmtKind]
    rw [ht]
    dsimp only
    rw [pm_bind_ok (condition_eq hW hl hc hr hn hs (by omega))]
    rw [pm_bind_ok h1]
    rfl
  | @ifElse t l c r nl b els mm b' e ts us vs ht hl hc hr hn hb hels hm hb' he ih ih' =>
    refine ⟨t, _, rfl, by rw [ht]; decide, by rw [ht]; decide, by rw [ht]; decide, ?_⟩
    intro n s k rest hs hk hf
    obtain ⟨m, rfl⟩ : ∃ m, n = m + 1 := ⟨n - 1, by omega⟩
    simp only [List.cons_append, List.append_assoc, List.nil_append] at hs
    have hlen : s.toks.length = ts.length + us.length + (vs ++ e :: k :: rest).length + 5 := by
      rw [hs]; simp only [List.length_append, List.length_cons]; omega
    obtain ⟨l1, h1⟩ := (ih m { s with toks := us ++ els :: mm :: (vs ++ e :: k :: rest), line := nl.line }
      els (mm :: (vs ++ e :: k :: rest)) rfl
      (by simp only [List.length_append, List.length_cons] at hlen ⊢; omega)).2 hels mm _ rfl hm
    obtain ⟨⟨l2, h2⟩, -⟩ := (ih' m { s with toks := vs ++ e :: k :: rest, line := l1 } e (k :: rest) rfl
      (by dsimp only; omega)).1 he
    refine ⟨l2, ?_⟩
    simp only [parseStmtKind]
    rw [ht]
    dsimp only
    rw [pm_bind_ok (condition_eq hW hl hc hr hn hs (by omega))]
    rw [pm_bind_ok h1]
    dsimp only
    rw [if_pos rfl]
    rw [pm_bind_ok h2]
    rfl
  | @whileS t l c r nl b e ts us ht hl hc hr hn hb he ih =>
    refine ⟨t, _, rfl, by rw [ht]; decide, by rw [ht]; decide, by rw [ht]; decide, ?_⟩
    intro n s k rest hs hk hf
    obtain ⟨m, rfl⟩ : ∃ m, n = m + 1 := ⟨n - 1, by omega⟩
    simp only [List.cons_append, List.append_assoc, List.nil_append] at hs
    have hlen : s.toks.length = ts.length + (us ++ e :: k :: rest).length + 3 := by
      rw [hs]; simp only [List.length_append, List.length_cons]; omega
    obtain ⟨⟨l1, h1⟩, -⟩ := (ih m { s with toks := us ++ e :: k :: rest, line := nl.line } e (k :: rest) rfl
      (by dsimp only; omega)).1 he
    refine ⟨l1, ?_⟩
    simp only [parseStmtKind]
    rw [ht]
    dsimp only
    rw [pm_bind_ok (condition_eq hW hl hc hr hn hs (by omega))]
    rw [pm_bind_ok h1]
    rfl
  | @forS t l name a x o y r nl b e ts us vs ht hl hname ha hx ho hy hr hn hb he ih =>
    refine ⟨t, _, rfl, by rw [ht]; decide, by rw [ht]; decide, by rw [ht]; decide, ?_⟩
    intro n s k rest hs hk hf
    obtain ⟨m, rfl⟩ : ∃ m, n = m + 1 := ⟨n - 1, by omega⟩
    simp only [List.cons_append, List.append_assoc, List.nil_append] at hs
    have hlen : s.toks.length = ts.length + us.length + (vs ++ e :: k :: rest).length + 6 := by
      rw [hs]; simp only [List.length_append, List.length_cons]; omega
    obtain ⟨⟨l1, h1⟩, -⟩ := (ih m { s with toks := vs ++ e :: k :: rest, line := nl.line } e (k :: rest) rfl
      (by dsimp only; omega)).1 he
    refine ⟨l1, ?_⟩
    simp only [parseStmtKind]
    rw [ht]
    dsimp only
    rw [pm_bind_ok (forHead_eq hW hl hname ha hx ho hy hr hn hs (by omega))]
    dsimp only
    rw [pm_bind_ok h1]
    rfl
  | nil =>
    refine ⟨.inl rfl, ?_⟩
    intro n s before k rest hb h0 hs hn
    cases h0 rfl
    simp only [List.nil_append] at hs
    obtain ⟨m, rfl⟩ : ∃ m, n = m + 1 := ⟨n - 1, by omega⟩
    refine ⟨fun hk => ⟨⟨k.line, ?_⟩, ⟨k.line, ?_⟩, ⟨k.line, ?_⟩⟩, ?_⟩
    · simp only [parseBlock]; rw [pm_bind_ok (found_yes hs hk)]; rfl
    · simp only [parseThen]; rw [pm_bind_ok (found_yes hs hk)]; rfl
    · simp only [parseBody]; rw [pm_bind_ok (found_yes hs hk)]; rfl
    · intro hk mm rest' hr hm
      subst hr
      refine ⟨mm.line, ?_⟩
      simp only [parseThen]
      rw [pm_bind_ok (found_no hs (by rw [hk]; decide))]
      dsimp only
      rw [pm_bind_ok (found_yes hs hk)]
      dsimp only
      rw [pm_bind_ok (popType_eq (t := mm) (ts := rest') rfl hm)]
      rfl
  | @cons st ss ts nl after us h hn ha hs ih ihs =>
    have ih' := ih
    obtain ⟨t, ts', rfl, ht1, ht2, ht3, -⟩ := ih
    refine ⟨.inr ⟨t, _, rfl, ht1⟩, ?_⟩
    intro n s before k rest hb h0 hst hf
    obtain ⟨m, rfl⟩ : ∃ m, n = m + 1 := ⟨n - 1, by omega⟩
    -- the first token
    have hfirst : ∃ u us, s.toks = u :: us ∧ u.type ≠ .END ∧ u.type ≠ .ELSE := by
      cases before with
      | nil => exact ⟨t, _, hst, ht2, ht3⟩
      | cons b bs =>
        have := hb b (by simp)
        exact ⟨b, _, hst, by rw [this]; decide, by rw [this]; decide⟩
    obtain ⟨f, fs, hfs, hf1, hf2⟩ := hfirst
    have hst' : s.toks = before ++ ((t :: ts') ++ nl :: (after ++ (us ++ k :: rest))) := by
      rw [hst]; simp only [List.append_assoc, List.cons_append]
    have hlen : s.toks.length ≥ (us ++ k :: rest).length + 1 := by
      rw [hst']; simp only [List.length_append, List.length_cons]; omega
    obtain ⟨hu, ihs⟩ := ihs
    have hstep (hk : k.type ≠ .EOL) :
        ∃ l, parseStmt m s = .ok (st, { s with toks := us ++ k :: rest, line := l }) := by
      rcases hu with rfl | ⟨u, us', rfl, hu⟩
      · exact stmt_eq ih' hb hn ha hk hst' (by omega)
      · exact stmt_eq ih' hb hn ha hu hst' (by omega)
    constructor
    · intro hk
      obtain ⟨l1, h1⟩ := hstep (by rw [hk]; decide)
      obtain ⟨⟨l2, h2⟩, ⟨l3, h3⟩, ⟨l4, h4⟩⟩ := (ihs m { s with toks := us ++ k :: rest, line := l1 } [] k rest
        (by intro t h; cases h) (fun _ => rfl) rfl (by dsimp only; omega)).1 hk
      refine ⟨⟨l2, ?_⟩, ⟨l3, ?_⟩, ⟨l4, ?_⟩⟩
      · simp only [parseBlock]
        rw [pm_bind_ok (found_no hfs hf1)]
        dsimp only
        rw [pm_bind_ok h1, pm_bind_ok h2]
        rfl
      · simp only [parseThen]
        rw [pm_bind_ok (found_no hfs hf1)]
        dsimp only
        rw [pm_bind_ok (found_no hfs hf2)]
        dsimp only
        rw [pm_bind_ok h1, pm_bind_ok h3]
        rfl
      · simp only [parseBody]
        rw [pm_bind_ok (found_no hfs hf1)]
        dsimp only
        rw [pm_bind_ok h1, pm_bind_ok h4]
        rfl
    · intro hk mm rest' hr hm
      obtain ⟨l1, h1⟩ := hstep (by rw [hk]; decide)
      obtain ⟨l3, h3⟩ := (ihs m { s with toks := us ++ k :: rest, line := l1 } [] k rest
        (by intro t h; cases h) (fun _ => rfl) rfl (by dsimp only; omega)).2 hk mm rest' hr hm
      refine ⟨l3, ?_⟩
      simp only [parseThen]
      rw [pm_bind_ok (found_no hfs hf1)]
      dsimp only
      rw [pm_bind_ok (found_no hfs hf2)]
      dsimp only
      rw [pm_bind_ok h1, pm_bind_ok h3]
      rfl
  | @body ss before ts hb h0 h ih =>
    intro n s k rest hs hn
    exact ih.2 n s before k rest hb h0 (by rw [hs, List.append_assoc]) hn

/-! ### Functions and whole sources -/

theorem argNames_eq {as ns : List Token} (h : ReadsNames as ns) : ∀ (n : Nat) (s : PState) (r : Token)
    (rest : List Token), s.toks = ns ++ r :: rest → r.type = .RPAREN → s.toks.length + 1 ≤ n →
    ∃ l, parseArgNames n s = .ok (as, { s with toks := r :: rest, line := l }) := by
  induction h with
  | @one a h =>
    intro n s r rest hs hr hn
    obtain ⟨m, rfl⟩ : ∃ m, n = m + 1 := ⟨n - 1, by omega⟩
    refine ⟨a.line, ?_⟩
    simp only [parseArgNames]
    rw [pm_bind_ok (popType_eq hs h)]
    rw [pm_bind_ok (found_no (t := r) (ts := rest) rfl (by rw [hr]; decide))]
    rfl
  | @more a c as ts h hc hs ih =>
    intro n s r rest hts hr hn
    obtain ⟨m, rfl⟩ : ∃ m, n = m + 1 := ⟨n - 1, by omega⟩
    simp only [List.cons_append] at hts
    have hlen : s.toks.length = (ts ++ r :: rest).length + 2 := by rw [hts]; rfl
    obtain ⟨l, h1⟩ := ih m { s with toks := ts ++ r :: rest, line := c.line } r rest rfl hr
      (by dsimp only; omega)
    refine ⟨l, ?_⟩
    simp only [parseArgNames]
    rw [pm_bind_ok (popType_eq hts h)]
    rw [pm_bind_ok (found_yes (t := c) (ts := ts ++ r :: rest) rfl hc)]
    dsimp only
    rw [pm_bind_ok h1]
    rfl

theorem names_first {as ns : List Token} (h : ReadsNames as ns) :
    ∃ t us, ns = t :: us ∧ t.type ≠ .RPAREN := by
  cases h with
  | one h => exact ⟨_, _, rfl, by rw [h]; decide⟩
  | more h => exact ⟨_, _, rfl, by rw [h]; decide⟩

theorem function_eq (hW : TakesAll W A) {f : FuncDecl Unit} {ts : List Token} (h : FuncOf W A f ts) {n : Nat} {s : PState}
    {rest : List Token} (hs : s.toks = ts ++ rest) (hn : 8 * s.toks.length ≤ n + 8) :
    ∃ l, parseFunction n s = .ok (f, { s with toks := rest, line := l }) := by
  cases h with
  | @noArgs name l r nl b e ts hname hl hr hnl hb he =>
    simp only [List.cons_append, List.append_assoc, List.nil_append] at hs
    have hlen : s.toks.length = (ts ++ e :: rest).length + 4 := by rw [hs]; rfl
    obtain ⟨-, -, ⟨l1, h1⟩⟩ := (stmt_runs hW hb n { s with toks := ts ++ e :: rest, line := nl.line } e rest rfl
      (by dsimp only; omega)).1 he
    refine ⟨l1, ?_⟩
    have ha : parseArgs n { s with toks := l :: r :: nl :: (ts ++ e :: rest), line := name.line } =
        .ok ([], { s with toks := nl :: (ts ++ e :: rest), line := r.line }) := by
      simp only [parseArgs]
      rw [pm_bind_ok (popType_eq (t := l) (ts := r :: nl :: (ts ++ e :: rest)) rfl hl)]
      rw [pm_bind_ok (found_yes (t := r) (ts := nl :: (ts ++ e :: rest)) rfl hr)]
      rfl
    simp only [parseFunction]
    rw [pm_bind_ok (popType_eq hs hname)]
    rw [pm_bind_ok ha]
    rw [pm_bind_ok (popType_eq (t := nl) (ts := ts ++ e :: rest) rfl hnl)]
    rw [pm_bind_ok h1]
    rfl
  | @args name l r nl b e as ns ts hname hl ha hr hnl hb he =>
    simp only [List.cons_append, List.append_assoc, List.nil_append] at hs
    have hlen : s.toks.length = ns.length + (ts ++ e :: rest).length + 4 := by
      rw [hs]; simp only [List.length_append, List.length_cons]; omega
    obtain ⟨-, -, ⟨l1, h1⟩⟩ := (stmt_runs hW hb n { s with toks := ts ++ e :: rest, line := nl.line } e rest rfl
      (by dsimp only; omega)).1 he
    refine ⟨l1, ?_⟩
    obtain ⟨l2, h2⟩ := argNames_eq ha n
      { s with toks := ns ++ r :: nl :: (ts ++ e :: rest), line := l.line } r (nl :: (ts ++ e :: rest)) rfl hr
      (by simp only [List.length_append, List.length_cons] at hlen ⊢; omega)
    obtain ⟨t, us, hns, hne⟩ := names_first ha
    have ha : parseArgs n { s with toks := l :: (ns ++ r :: nl :: (ts ++ e :: rest)), line := name.line } =
        .ok (as, { s with toks := nl :: (ts ++ e :: rest), line := r.line }) := by
      simp only [parseArgs]
      rw [pm_bind_ok (popType_eq (t := l) (ts := ns ++ r :: nl :: (ts ++ e :: rest)) rfl hl)]
      rw [pm_bind_ok (found_no (t := t) (ts := us ++ r :: nl :: (ts ++ e :: rest))
        (show ns ++ r :: nl :: (ts ++ e :: rest) = _ by rw [hns]; rfl) hne)]
      dsimp only
      rw [pm_bind_ok h2]
      rw [pm_bind_ok (popType_eq (t := r) (ts := nl :: (ts ++ e :: rest)) rfl hr)]
      rfl
    simp only [parseFunction]
    rw [pm_bind_ok (popType_eq hs hname)]
    rw [pm_bind_ok ha]
    rw [pm_bind_ok (popType_eq (t := nl) (ts := ts ++ e :: rest) rfl hnl)]
    rw [pm_bind_ok h1]
    rfl

/-- What begins an item, or ends the source. -/
theorem prog_first {fs : Str → Option Str} {cur : Source} {ss ss' : List Source} {p : Prog Unit}
    {ts : List Token} (h : FileOf W A fs cur ss p ss' ts) {e : Token} (he : e.type = .EOF) :
    ∃ t us, ts ++ [e] = t :: us ∧ t.type ≠ .ASSIGN ∧ Stops (t :: us) := by
  have key : ∀ (t : Token) (us : List Token) (ty : Tok), t.type = ty → ty ≠ .ASSIGN → ty ≠ .DOT →
      ty ≠ .LBRACKET → ty ≠ .LPAREN → opType ty = 0 → t.type ≠ .ASSIGN ∧ Stops (t :: us) :=
    fun t us ty h h0 h1 h2 h3 h4 => ⟨h ▸ h0, stops_of h h1 h2 h3 h4⟩
  cases h with
  | nil => exact ⟨e, [], rfl, key e [] _ he (by decide) (by decide) (by decide) (by decide) rfl⟩
  | eol h => exact ⟨_, _, rfl, key _ _ _ h (by decide) (by decide) (by decide) (by decide) rfl⟩
  | decl h =>
    rcases h with h | h <;>
      exact ⟨_, _, rfl, key _ _ _ h (by decide) (by decide) (by decide) (by decide) rfl⟩
  | init h =>
    rcases h with h | h <;>
      exact ⟨_, _, rfl, key _ _ _ h (by decide) (by decide) (by decide) (by decide) rfl⟩
  | func h => exact ⟨_, _, rfl, key _ _ _ h (by decide) (by decide) (by decide) (by decide) rfl⟩
  | imp h => exact ⟨_, _, rfl, key _ _ _ h (by decide) (by decide) (by decide) (by decide) rfl⟩

theorem prog_runs (hW : TakesAll W A) {fs : Str → Option Str} {cur : Source} {ss ss' : List Source} {p : Prog Unit}
    {ts : List Token} (h : FileOf W A fs cur ss p ss' ts) {e : Token} (he : e.type = .EOF) :
    ∀ (n : Nat) (s : PState), s.toks = ts ++ [e] → s.srcs = ss → 8 * s.toks.length + 1 ≤ n →
      ∃ l, parseItems fs cur n s = .ok (p, { s with toks := [], line := l, srcs := ss' }) := by
  induction h with
  | nil =>
    intro n s hs hss hn
    obtain ⟨m, rfl⟩ : ∃ m, n = m + 1 := ⟨n - 1, by omega⟩
    refine ⟨e.line, ?_⟩
    simp only [parseItems]
    rw [pm_bind_ok (found_yes hs he), ← hss]
    rfl
  | @eol t ss p ss' ts ht h ih =>
    intro n s hs hss hn
    obtain ⟨m, rfl⟩ : ∃ m, n = m + 1 := ⟨n - 1, by omega⟩
    simp only [List.cons_append] at hs
    have hlen : s.toks.length = (ts ++ [e]).length + 1 := by rw [hs]; rfl
    obtain ⟨l, h1⟩ := ih m { s with toks := ts ++ [e], line := t.line } rfl hss (by dsimp only; omega)
    refine ⟨l, ?_⟩
    simp only [parseItems]
    rw [pm_bind_ok (found_no hs (by rw [ht]; decide))]
    dsimp only
    rw [pm_bind_ok (popTok_eq hs), ht]
    exact h1
  | @decl v name ss p ss' ts hv hn h ih =>
    intro n s hs hss hf
    obtain ⟨m, rfl⟩ : ∃ m, n = m + 1 := ⟨n - 1, by omega⟩
    simp only [List.cons_append] at hs
    have hlen : s.toks.length = (ts ++ [e]).length + 2 := by rw [hs]; rfl
    obtain ⟨l, h1⟩ := ih m { s with toks := ts ++ [e], line := name.line } rfl hss (by dsimp only; omega)
    obtain ⟨k, us, hk, hk1, -⟩ := prog_first h he
    have h2 := declVar_none (n := m) (s := { s with toks := name :: (ts ++ [e]), line := v.line }) hn
      (k := k) (rest := us) (by dsimp only; rw [hk]) hk1
    dsimp only at h2
    rw [← hk] at h2
    refine ⟨l, ?_⟩
    simp only [parseItems]
    rcases hv with hv | hv
    all_goals
      rw [pm_bind_ok (found_no hs (by rw [hv]; decide))]
      dsimp only
      rw [pm_bind_ok (popTok_eq hs), hv]
      dsimp only
      rw [pm_bind_ok h2]
      dsimp only
      rw [pm_bind_ok h1]
      rfl
  | @init v name a x ss p ss' ts us hv hn ha hx h ih =>
    intro n s hs hss hf
    obtain ⟨m, rfl⟩ : ∃ m, n = m + 1 := ⟨n - 1, by omega⟩
    simp only [List.cons_append, List.append_assoc] at hs
    have hlen : s.toks.length = ts.length + (us ++ [e]).length + 3 := by
      rw [hs]; simp only [List.length_append, List.length_cons]
    obtain ⟨k, us', hk, hk1, hk2⟩ := prog_first h he
    obtain ⟨l2, h2⟩ := declVar_some hW (n := m)
      (s := { s with toks := name :: a :: (ts ++ (us ++ [e])), line := v.line }) hn ha hx
      (rest := us ++ [e]) rfl (by rw [hk]; exact hk2)
      (by simp only [List.length_append, List.length_cons] at hlen ⊢; omega)
    obtain ⟨l, h1⟩ := ih m { s with toks := us ++ [e], line := l2 } rfl hss (by dsimp only; omega)
    refine ⟨l, ?_⟩
    simp only [parseItems]
    rcases hv with hv | hv
    all_goals
      rw [pm_bind_ok (found_no hs (by rw [hv]; decide))]
      dsimp only
      rw [pm_bind_ok (popTok_eq hs), hv]
      dsimp only
      rw [pm_bind_ok h2]
      dsimp only
      rw [pm_bind_ok h1]
      rfl
  | @func t f ss p ss' ts us ht hf h ih =>
    intro n s hs hss hn
    obtain ⟨m, rfl⟩ : ∃ m, n = m + 1 := ⟨n - 1, by omega⟩
    simp only [List.cons_append, List.append_assoc] at hs
    have hlen : s.toks.length = ts.length + (us ++ [e]).length + 1 := by
      rw [hs]; simp only [List.length_append, List.length_cons]
    obtain ⟨l2, h2⟩ := function_eq hW hf (n := m) (s := { s with toks := ts ++ (us ++ [e]), line := t.line })
      rfl (by simp only [List.length_append] at hlen ⊢; omega)
    obtain ⟨l, h1⟩ := ih m { s with toks := us ++ [e], line := l2 } rfl hss (by dsimp only; omega)
    refine ⟨l, ?_⟩
    simp only [parseItems]
    rw [pm_bind_ok (found_no hs (by rw [ht]; decide))]
    dsimp only
    rw [pm_bind_ok (popTok_eq hs), ht]
    dsimp only
    rw [pm_bind_ok h2]
    dsimp only
    rw [pm_bind_ok h1]
    rfl
  | @imp t nm ss ss1 p ss' ts ht hn hl h ih =>
    intro n s hs hss hf
    obtain ⟨m, rfl⟩ : ∃ m, n = m + 1 := ⟨n - 1, by omega⟩
    simp only [List.cons_append] at hs
    have hlen : s.toks.length = (ts ++ [e]).length + 2 := by rw [hs]; rfl
    obtain ⟨l, h1⟩ := ih m { s with toks := ts ++ [e], line := nm.line, srcs := ss1 } rfl rfl
      (by dsimp only; omega)
    have h2 : parseImport fs cur { s with toks := nm :: (ts ++ [e]), line := t.line } =
        .ok ((), { s with toks := ts ++ [e], line := nm.line, srcs := ss1 }) := by
      simp only [parseImport]
      rw [pm_bind_ok (popType_eq (t := nm) (ts := ts ++ [e]) rfl hn)]
      dsimp only
      rw [hss, hl]
    refine ⟨l, ?_⟩
    simp only [parseItems]
    rw [pm_bind_ok (found_no hs (by rw [ht]; decide))]
    dsimp only
    rw [pm_bind_ok (popTok_eq hs), ht]
    dsimp only
    rw [pm_bind_ok h2]
    exact h1

end

/-! ### Printed trees can be read -/

theorem level_le {ty : Tok} {q : Nat} (h : level ty = some q) : 1 ≤ q ∧ q ≤ 5 := by
  cases ty <;> simp_all [level] <;> omega

section
variable {pu : Tok → Token} (hpu : ∀ ty, (pu ty).type = ty)
include hpu

mutual

theorem printE_reads : (e : PExpr) → Printable e →
    Reads (.opnd e) (printE pu operandLevel e) ∧ ∀ p, Reads (.expr p e) (printE pu p e)
  | .ident t (), h => by
    simp only [printE]
    exact ⟨.ident h, fun p => .operand (.ident h)⟩
  | .int v t c, h => by
    obtain ⟨u, rfl, h1, rfl, rfl⟩ := h
    simp only [printE]
    exact ⟨.literal (.int u h1), fun p => .operand (.literal (.int u h1))⟩
  | .float v t, h => by
    obtain ⟨u, rfl, h1, rfl⟩ := h
    simp only [printE]
    exact ⟨.literal (.float u h1), fun p => .operand (.literal (.float u h1))⟩
  | .str v t, h => by
    obtain ⟨u, rfl, h1, rfl⟩ := h
    simp only [printE]
    exact ⟨.literal (.str u h1), fun p => .operand (.literal (.str u h1))⟩
  | .none t, h => by
    obtain ⟨u, rfl, h1⟩ := h
    simp only [printE]
    exact ⟨.literal (.none u h1), fun p => .operand (.literal (.none u h1))⟩
  | .member t m (), h => by
    simp only [printE]
    exact ⟨.member h.1 (hpu _) h.2, fun p => .operand (.member h.1 (hpu _) h.2)⟩
  | .arr t es, h => by
    have := Reads.arr h.1 (printEs_reads es h.2.2 h.2.1) (hpu .RBRACKET)
    simp only [printE]
    exact ⟨this, fun p => .operand this⟩
  | .deref t l i, h => by
    have := Reads.deref (printE_reads l h.2.1).1 h.1 (.plain ((printE_reads i h.2.2).2 1))
      (hpu .RBRACKET)
    simp only [printE]
    exact ⟨this, fun p => .operand this⟩
  | .call t c as, h => by
    have ha : Reads (.args as) (printEs pu as) := by
      by_cases hn : as = []
      · subst hn; simp only [printEs]; exact .noArgs
      · exact .someArgs (printEs_reads as h.2.2 hn)
    have := Reads.call (printE_reads c h.2.1).1 h.1 ha (hpu .RPAREN)
    simp only [printE]
    exact ⟨this, fun p => .operand this⟩
  | .bin op l r, h => by
    have hl := (printE_reads l h.2.1).2
    have hr := (printE_reads r h.2.2).2
    have h1 := h.1
    simp only [printE]
    cases hq : level op.type with
    | none => exact absurd hq h1
    | some q =>
      have hq' := level_le hq
      have hp := Reads.paren (hpu .LPAREN) (.plain (.bin hq hq'.1 (hl q) (hr (q + 1)))) (hpu .RPAREN)
      dsimp only
      refine ⟨?_, fun p => ?_⟩
      · rw [if_neg (by simp only [operandLevel]; omega)]
        exact hp
      · by_cases hpq : p ≤ q
        · rw [if_pos hpq]; exact .bin hq hpq (hl q) (hr (q + 1))
        · rw [if_neg hpq]; exact .operand hp
  | .un op e, h => by
    have he := (printE_reads e h.2).1
    have h1 := h.1
    have : Reads (.whole (.un op e)) (op :: printE pu operandLevel e) := by
      rcases h1 with h1 | h1
      · exact .finNot h1 (by omega) (.plain (.operand he))
      · exact .finNeg (.minus h1 (.noMinus he))
    have hp := Reads.paren (hpu .LPAREN) this (hpu .RPAREN)
    simp only [printE]
    exact ⟨hp, fun p => .operand hp⟩

theorem printEs_reads : (es : List PExpr) → PrintableList es → es ≠ [] →
    Reads (.exprs es) (printEs pu es)
  | [], _, hn => absurd rfl hn
  | [e], h, _ => by
    simp only [printEs]
    exact .one (.plain ((printE_reads e h.1).2 1))
  | e :: f :: es, h, _ => by
    have hs := printEs_reads (f :: es) h.2 (by simp)
    have he := (printE_reads e h.1).2 1
    rw [printEs]
    exact .more (.plain he) (hpu _) hs

end

theorem printE_whole {e : PExpr} (h : Printable e) : Reads (.whole e) (printE pu 1 e) :=
  .plain ((printE_reads hpu e h).2 1)

theorem printEs_args {es : List PExpr} (h : PrintableList es) : Reads (.args es) (printEs pu es) := by
  by_cases hn : es = []
  · subst hn; simp only [printEs]; exact .noArgs
  · exact .someArgs (printEs_reads hpu es h hn)

mutual

theorem printS_reads : (s : PStmt) → PrintableS s → ReadsS (.stmt s) (printS pu s)
  | .var name () none, h => by simp only [printS]; exact .var (hpu _) h
  | .var name () (some e), h => by
    simp only [printS]; exact .varInit (hpu _) h.1 (hpu _) (printE_whole hpu h.2)
  | .assign name () e, h => by
    simp only [printS]; exact .assign h.1 (hpu _) (printE_whole hpu h.2)
  | .assignArr name () i e, h => by
    simp only [printS]
    exact .assignArr h.1 (hpu _) (printE_whole hpu h.2.1) (hpu _) (hpu _) (printE_whole hpu h.2.2)
  | .assignMem name m () e, h => by
    simp only [printS]; exact .assignMem h.1 (hpu _) h.2.1 (hpu _) (printE_whole hpu h.2.2)
  | .call t c as, h => by
    obtain ⟨h1, ⟨name, rfl, h2⟩, h3⟩ := h
    simp only [printS, printE]
    exact .call h2 h1 (printEs_args hpu h3) (hpu _)
  | .ifS t c thn false els, h => by
    obtain ⟨h1, h2, h3, h4, h5⟩ := h
    cases h5 rfl
    simp only [printS]
    exact .ifS h1 (hpu _) (printE_whole hpu h2) (hpu _) (hpu _) (printB_body thn h3) (hpu _)
  | .ifS t c thn true els, h => by
    obtain ⟨h1, h2, h3, h4, -⟩ := h
    simp only [printS]
    exact .ifElse h1 (hpu _) (printE_whole hpu h2) (hpu _) (hpu _) (printB_body thn h3) (hpu _) (hpu _)
      (printB_body els h4) (hpu _)
  | .whileS t c b, h => by
    simp only [printS]
    exact .whileS h.1 (hpu _) (printE_whole hpu h.2.1) (hpu _) (hpu _) (printB_body b h.2.2) (hpu _)
  | .forS t name () x y b, h => by
    obtain ⟨h1, h2, h3, h4, h5⟩ := h
    simp only [printS]
    exact .forS h1 (hpu _) h2 (hpu _) (printE_whole hpu h3) (hpu _) (printE_whole hpu h4) (hpu _)
      (hpu _) (printB_body b h5) (hpu _)
  | .ret t none, h => by simp only [printS]; exact .ret h
  | .ret t (some e), h => by simp only [printS]; exact .retVal h.1 (printE_whole hpu h.2)

theorem printB_reads : (ss : List PStmt) → PrintableB ss → ReadsS (.block ss) (printB pu ss)
  | [], _ => by simp only [printB]; exact .nil
  | s :: ss, h => by
    simp only [printB]
    exact .cons (after := []) (printS_reads s h.1) (hpu _) (by intro t h; cases h) (printB_reads ss h.2)

theorem printB_body : (ss : List PStmt) → PrintableB ss → ReadsS (.body ss) (printB pu ss)
  | [], _ => by simp only [printB]; exact .body (before := []) (by intro t h; cases h) (fun _ => rfl) .nil
  | s :: ss, h => by
    simp only [printB]
    exact .body (before := []) (by intro t h; cases h) (fun _ => rfl)
      (.cons (after := []) (printS_reads s h.1) (hpu _) (by intro t h; cases h) (printB_reads ss h.2))

end

theorem printNames_reads (as : List Token) (h : ∀ a ∈ as, a.type = .IDENT) (hn : as ≠ []) :
    ReadsNames as (printNames pu as) := by
  induction as with
  | nil => exact absurd rfl hn
  | cons a as ih =>
    cases as with
    | nil => exact .one (h a (by simp))
    | cons b bs =>
      exact .more (h a (by simp)) (hpu _) (ih (fun x hx => h x (List.mem_cons_of_mem _ hx)) (by simp))

theorem printF_reads (f : FuncDecl Unit) (h : PrintableItem (.func f)) : ReadsF f (printF pu f) := by
  obtain ⟨h1, h2, h3, h4⟩ := h
  obtain ⟨name, as, body, stop⟩ := f
  unfold printF
  by_cases hn : as = []
  · subst hn
    exact .noArgs h1 (hpu _) (hpu _) (hpu _) (printB_body hpu body h3) h4
  · exact .args h1 (hpu _) (printNames_reads hpu as h2 hn) (hpu _) (hpu _) (printB_body hpu body h3) h4

theorem printP_reads {fs : Str → Option Str} {cur : Source} {srcs : List Source} (p : Prog Unit)
    (h : ∀ i ∈ p, PrintableItem i) : ReadsP fs cur srcs p srcs (printP pu p) := by
  induction p with
  | nil => exact .nil
  | cons i p ih =>
    have hi := h i (by simp)
    have ih := ih fun j hj => h j (List.mem_cons_of_mem _ hj)
    have he : ReadsP fs cur srcs p srcs (pu .EOL :: printP pu p) := .eol (hpu _) ih
    have hc (c : Bool) : (pu (if c then Tok.CONST else Tok.VAR)).type = .VAR ∨
        (pu (if c then Tok.CONST else Tok.VAR)).type = .CONST := by
      rw [hpu]; cases c <;> simp
    have hb (c : Bool) : ((pu (if c then Tok.CONST else Tok.VAR)).type == .CONST) = c := by
      rw [hpu]; cases c <;> rfl
    have hcat : printP pu (i :: p) = printItem pu i ++ (pu .EOL :: printP pu p) := by
      simp [printP]
    rw [hcat]
    cases i with
    | var name c e =>
      cases e with
      | none =>
        have := FileOf.decl (hc c) hi he
        rw [hb] at this
        exact this
      | some e =>
        have := FileOf.init (hc c) hi.1 (hpu .ASSIGN) (printE_whole hpu hi.2) he
        rw [hb] at this
        exact this
    | func f => exact .func (hpu _) (printF_reads hpu f hi) he
    | syscall => exact hi.elim

end

end Ccml.Gram
