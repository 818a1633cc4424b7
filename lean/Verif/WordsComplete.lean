import Verif.ParserSafe
import Verif.WordsSound
/-! The parser accepts every phrase of the grammar of words. -/
namespace Ccml.Lang
open Ccml

variable {α β : Type}

/-- Tokens that end in their only end-of-file token. -/
abbrev Whole (s : PState) : Prop := Safe.Good True s

/-- What is known about a run that succeeds. -/
theorem got {x : PM α} {s s' : PState} {a : α} {Q : α → PState → Prop} (h : Safe.Ok True (x s) Q)
    (hx : x s = .ok (a, s')) : Q a s' := by
  rw [hx] at h; exact h

theorem found_hit {s : PState} {t : Token} {ts : List Token} {ty : Tok} (hs : s.toks = t :: ts) (ht : t.type = ty) :
    found ty s = .ok (some t, { s with toks := ts, line := t.line }) := by
  unfold found; rw [hs]; simp [ht]

theorem found_miss {s : PState} {t : Token} {ts : List Token} {ty : Tok} (hs : s.toks = t :: ts) (ht : t.type ≠ ty) :
    found ty s = .ok (none, s) := by
  unfold found; rw [hs]; simp [ht]

theorem popType_hit {s : PState} {t : Token} {ts : List Token} {ty : Tok} (hs : s.toks = t :: ts) (ht : t.type = ty) :
    popType ty s = .ok (t, { s with toks := ts, line := t.line }) := by
  unfold popType; rw [hs]; simp [ht]

theorem popTok_hit {s : PState} {t : Token} {ts : List Token} (hs : s.toks = t :: ts) :
    popTok s = .ok (t, { s with toks := ts, line := t.line }) := by
  unfold popTok; rw [hs]

theorem peek_hit {s : PState} {t : Token} {ts : List Token} (hs : s.toks = t :: ts) : peekTok s = .ok (t, s) := by
  unfold peekTok; rw [hs]

theorem Whole.step {s : PState} {t : Token} {ts : List Token} {l : SrcLine} (h : Whole s) (hs : s.toks = t :: ts)
    (ht : t.type ≠ .EOF) : Whole { s with toks := ts, line := l } := (Safe.next_of h hs ht).1

/-- A successful step of a sequence. -/
theorem then_ok {x : PM α} {f : α → PM β} {s s1 : PState} {a : α} {rest : List Token} (h : x s = .ok (a, s1))
    (hf : ∃ b s', f a s1 = .ok (b, s') ∧ s'.toks = rest) : ∃ b s', (x >>= f) s = .ok (b, s') ∧ s'.toks = rest := by
  rw [pm_bind_ok h]; exact hf

/-! ### First tokens and what may follow -/

/-- Tokens that begin an operand. -/
def beginsPrim : Tok → Bool
  | .INT | .FLOAT | .STRING | .NONE | .IDENT | .LBRACKET | .LPAREN => true
  | _ => false

theorem prim_first {ts : List Token} (h : Spells .prim ts) : ∃ t us, ts = t :: us ∧ beginsPrim t.type = true := by
  cases h with
  | literal h => exact ⟨_, _, rfl, by rcases h with h | h | h | h <;> rw [h] <;> rfl⟩
  | ident h => exact ⟨_, _, rfl, by rw [h]; rfl⟩
  | member h => exact ⟨_, _, rfl, by rw [h]; rfl⟩
  | arr h => exact ⟨_, _, rfl, by rw [h]; rfl⟩
  | paren h => exact ⟨_, _, rfl, by rw [h]; rfl⟩

/-- Tokens that begin an expression. -/
def beginsExpr (t : Tok) : Bool := beginsPrim t || t == .NOT || t == .SUB

theorem expr_first {ts : List Token} (h : Spells .expr ts) : ∃ t us, ts = t :: us ∧ beginsExpr t.type = true := by
  cases h with
  | unary h => exact ⟨_, _, rfl, by rcases h with h | h <;> rw [h] <;> rfl⟩
  | operand h _ =>
    obtain ⟨t, us, rfl, hb⟩ := prim_first h
    exact ⟨t, _, rfl, by rw [beginsExpr, hb]; rfl⟩
  | binary h _ _ _ =>
    obtain ⟨t, us, rfl, hb⟩ := prim_first h
    exact ⟨t, _, rfl, by rw [beginsExpr, hb]; rfl⟩

theorem exprs_first {ts : List Token} (h : Spells .exprs ts) : ∃ t us, ts = t :: us ∧ beginsExpr t.type = true := by
  cases h with
  | one h => exact expr_first h
  | more h _ _ =>
    obtain ⟨t, us, rfl, hb⟩ := expr_first h
    exact ⟨t, _, rfl, hb⟩

/-- Tokens that begin a statement. -/
def beginsStmt : Tok → Bool
  | .VAR | .IDENT | .IF | .WHILE | .FOR | .RETURN => true
  | _ => false

theorem stmt_first {ts : List Token} (h : Spells .stmt ts) : ∃ t us, ts = t :: us ∧ beginsStmt t.type = true := by
  cases h <;> rename_i h _ <;> first
    | exact ⟨_, _, rfl, by rw [h]; rfl⟩
    | skip
  all_goals simp_all
  all_goals simp_all [beginsStmt]

/-- What cannot go on an expression. -/
def Stops (l : List Token) : Prop :=
  ∀ t ∈ l.head?, opType t.type = 0 ∧ t.type ≠ .LPAREN ∧ t.type ≠ .LBRACKET ∧ t.type ≠ .DOT

theorem stops_cons {t : Token} {ts : List Token} {ty : Tok} (h : t.type = ty) (h1 : opType ty = 0)
    (h2 : ty ≠ .LPAREN ∧ ty ≠ .LBRACKET ∧ ty ≠ .DOT) : Stops (t :: ts) := by
  intro u hu
  cases hu
  rw [h]
  exact ⟨h1, h2⟩

/-- What cannot go on an operand. -/
def NoPost (l : List Token) : Prop := ∀ t ∈ l.head?, t.type ≠ .LPAREN ∧ t.type ≠ .LBRACKET ∧ t.type ≠ .DOT

theorem Stops.noPost {l : List Token} (h : Stops l) : NoPost l := fun t ht => (h t ht).2

theorem op_noPost {t : Token} {ts : List Token} (h : Operator t.type) : NoPost (t :: ts) := by
  intro u hu
  cases hu
  revert h
  cases t.type <;> simp [Operator]

theorem op_pos {t : Tok} (h : Operator t) : 0 < opType t := by
  revert h
  cases t <;> simp [Operator, opType]

/-- What follows a name is no dot. -/
theorem post_noDot {us rest : List Token} (h : Spells .post us) (hr : NoPost rest) :
    ∀ t ∈ (us ++ rest).head?, t.type ≠ .DOT := by
  cases h with
  | bare => exact fun t ht => (hr t ht).2.2
  | index hl =>
    intro t ht
    cases ht
    rw [hl]; decide
  | call hl =>
    intro t ht
    cases ht
    rw [hl]; decide

/-! ### The operator stack -/

theorem opPush_run {s : PState} {above bottom : List Token} (op : Token) (ho : s.ops = above ++ bottom)
    (hx : Safe.bins above + 1 ≤ s.exps.length) :
    ∃ s', opPush op bottom.length s = .ok ((), s') ∧ s'.toks = s.toks ∧ ∃ above' es,
      s' = { s with ops := op :: above' ++ bottom, exps := es } ∧
      s.exps.length + Safe.bins above' = es.length + Safe.bins above := by
  obtain ⟨a3, es3, e1, e2, -, -⟩ := Safe.reduceLoop_ok (opType op.type) (bottom := bottom) above s.exps hx
  unfold opPush
  rw [ho, e1]
  exact ⟨_, rfl, rfl, a3, es3, rfl, e2⟩

theorem popExp_run {s : PState} {f : Fault} (h : 1 ≤ s.exps.length) :
    ∃ e es, popExp f s = .ok (e, { s with exps := es }) ∧ es.length + 1 = s.exps.length := by
  unfold popExp
  cases he : s.exps with
  | nil => rw [he] at h; simp at h
  | cons e es => exact ⟨e, es, rfl, rfl⟩

/-! ### Expressions -/

/-- The functions for expressions with fuel `n`. -/
structure Runs (n : Nat) : Prop where
  ex : ∀ s above bottom ts rest, Whole s → s.ops = above ++ bottom → Safe.bins above ≤ s.exps.length →
    8 * s.toks.length + 2 ≤ n → s.toks = ts ++ rest → Spells .expr ts → Stops rest →
    ∃ s', parseExprEx n bottom.length s = .ok ((), s') ∧ s'.toks = rest
  tail : ∀ s above bottom rest, Whole s → s.ops = above ++ bottom → Safe.bins above + 1 ≤ s.exps.length →
    8 * s.toks.length + 1 ≤ n →
    (s.toks = rest ∨ ∃ op ts, s.toks = op :: (ts ++ rest) ∧ Operator op.type ∧ Spells .expr ts) → Stops rest →
    ∃ s', parseTail n bottom.length s = .ok ((), s') ∧ s'.toks = rest
  post : ∀ s ts rest, Whole s → 1 ≤ s.exps.length → 8 * s.toks.length + 1 ≤ n → s.toks = ts ++ rest →
    Spells .post ts → NoPost rest → ∃ s', parsePostfix n s = .ok ((), s') ∧ s'.toks = rest
  lhs : ∀ s ts rest, Whole s → 8 * s.toks.length + 1 ≤ n → s.toks = ts ++ rest → Spells .prim ts →
    (∀ t ∈ rest.head?, t.type ≠ .DOT) → ∃ s', parseLhs n s = .ok ((), s') ∧ s'.toks = rest
  expr : ∀ s ts rest, Whole s → 8 * s.toks.length + 3 ≤ n → s.toks = ts ++ rest → Spells .expr ts → Stops rest →
    ∃ e s', parseExpr n s = .ok (e, s') ∧ s'.toks = rest
  list : ∀ s ts rest, Whole s → 8 * s.toks.length + 4 ≤ n → s.toks = ts ++ rest → Spells .exprs ts → Stops rest →
    (∀ t ∈ rest.head?, t.type ≠ .COMMA) → ∃ es s', parseExprList n s = .ok (es, s') ∧ s'.toks = rest
  args : ∀ s ts r rest, Whole s → 8 * s.toks.length + 5 ≤ n → s.toks = ts ++ r :: rest → Spells .args ts →
    r.type = .RPAREN → ∃ es s', parseCallArgs n s = .ok (es, s') ∧ s'.toks = rest

theorem unit_run {x : PM Unit} {s : PState} {rest : List Token} (h : ∃ u s', x s = .ok (u, s') ∧ s'.toks = rest) :
    ∃ s', x s = .ok ((), s') ∧ s'.toks = rest := h.elim fun _ h => h

theorem push_run {e : PExpr} {s : PState} : pushExp e s = .ok ((), { s with exps := e :: s.exps }) := rfl

theorem runs : ∀ n, Runs n := by
  intro n
  induction n with
  | zero => constructor <;> intros <;> omega
  | succ n ih =>
    have safe := Safe.allOk (imp := True) n
    constructor
    · -- parseExprEx
      intro s above bottom ts rest hg ho hx hn hs h hr
      simp only [parseExprEx]
      apply unit_run
      cases h with
      | @unary t us ht h =>
        rw [List.cons_append] at hs
        have hne : t.type ≠ .EOF := by rcases ht with h | h <;> rw [h] <;> decide
        have hl : s.toks.length = (us ++ rest).length + 1 := by rw [hs]; rfl
        have hg1 := hg.step (l := t.line) hs hne
        obtain ⟨s2, e2, t2⟩ := ih.ex { s with toks := us ++ rest, line := t.line } above bottom us rest hg1 ho hx
          (by show 8 * (us ++ rest).length + 2 ≤ n; omega) rfl h hr
        obtain ⟨-, -, a2, ho2, he2⟩ := got (safe.ex _ _ above bottom hg1 ho rfl hx
          (by show 8 * (us ++ rest).length + 2 ≤ n; omega)) e2
        have he2' : s.exps.length + Safe.bins a2 + 1 ≤ s2.exps.length + Safe.bins above := he2
        rcases ht with ht | ht
        · refine then_ok (found_hit hs ht) (then_ok e2 ?_)
          obtain ⟨s3, e3, t3, -⟩ := opPush_run t ho2 (by omega)
          exact ⟨(), s3, e3, t3.trans t2⟩
        · refine then_ok (found_miss hs (by rw [ht]; decide)) (then_ok (found_hit hs ht) (then_ok e2 ?_))
          obtain ⟨e, es, e3, -⟩ := popExp_run (f := .ub) (s := s2) (by omega)
          exact then_ok e3 ⟨(), _, push_run, t2⟩
      | @operand ps us h hp =>
        rw [List.append_assoc] at hs
        obtain ⟨t, vs, hv, hb⟩ := prim_first h
        have hs' : s.toks = t :: (vs ++ (us ++ rest)) := by rw [hs, hv]; rfl
        refine then_ok (found_miss hs' (by intro e; rw [e] at hb; cases hb))
          (then_ok (found_miss hs' (by intro e; rw [e] at hb; cases hb)) ?_)
        obtain ⟨s1, e1, t1⟩ := ih.lhs s ps (us ++ rest) hg (by omega) hs h (post_noDot hp hr.noPost)
        obtain ⟨hg1, hl1, ho1, he1⟩ := got (safe.lhs s hg (by omega)) e1
        obtain ⟨s2, e2, t2⟩ := ih.post s1 us rest hg1 (by omega) (by omega) t1 hp hr.noPost
        obtain ⟨hg2, hl2, ho2, he2⟩ := got (safe.post s1 hg1 (by omega) (by omega)) e2
        obtain ⟨s3, e3, t3⟩ := ih.tail s2 above bottom rest hg2 (by rw [ho2, ho1, ho]) (by omega) (by omega) (.inl t2) hr
        exact then_ok e1 (then_ok e2 ⟨(), s3, e3, t3⟩)
      | @binary ps us op ws h hp hop hw =>
        rw [List.append_assoc, List.append_assoc, List.cons_append] at hs
        obtain ⟨t, vs, hv, hb⟩ := prim_first h
        have hs' : s.toks = t :: (vs ++ (us ++ op :: (ws ++ rest))) := by rw [hs, hv]; rfl
        refine then_ok (found_miss hs' (by intro e; rw [e] at hb; cases hb))
          (then_ok (found_miss hs' (by intro e; rw [e] at hb; cases hb)) ?_)
        obtain ⟨s1, e1, t1⟩ := ih.lhs s ps _ hg (by omega) hs h (post_noDot hp (op_noPost hop))
        obtain ⟨hg1, hl1, ho1, he1⟩ := got (safe.lhs s hg (by omega)) e1
        obtain ⟨s2, e2, t2⟩ := ih.post s1 us _ hg1 (by omega) (by omega) t1 hp (op_noPost hop)
        obtain ⟨hg2, hl2, ho2, he2⟩ := got (safe.post s1 hg1 (by omega) (by omega)) e2
        obtain ⟨s3, e3, t3⟩ := ih.tail s2 above bottom rest hg2 (by rw [ho2, ho1, ho]) (by omega) (by omega)
          (.inr ⟨op, ws, t2, hop, hw⟩) hr
        exact then_ok e1 (then_ok e2 ⟨(), s3, e3, t3⟩)
    · -- parseTail
      intro s above bottom rest hg ho hx hn hs hr
      simp only [parseTail]
      obtain ⟨t, ts, ht⟩ := Safe.good_cons hg
      have hop : isOperator s = .ok (decide (opType t.type > 0), s) := by
        unfold isOperator
        rw [pm_bind_ok (show nextType s = .ok (t.type, s) by unfold nextType; rw [ht])]
        rfl
      rw [pm_bind_ok hop]
      rcases hs with hs | ⟨op, us, hs, ho', hw⟩
      · rw [ht] at hs
        subst hs
        have := (hr t rfl).1
        rw [decide_eq_false (by omega), if_neg (by simp)]
        exact ⟨s, rfl, ht⟩
      · rw [ht] at hs
        cases hs
        rw [decide_eq_true (op_pos ho'), if_pos rfl]
        have hne : t.type ≠ .EOF := by intro e; rw [e] at ho'; revert ho'; simp [Operator]
        have hg1 := hg.step (l := t.line) ht hne
        have hl : s.toks.length = (us ++ rest).length + 1 := by rw [ht]; rfl
        apply unit_run
        refine then_ok (popTok_hit ht) ?_
        obtain ⟨s3, e3, t3, a3, es3, rfl, k3⟩ := opPush_run (s := { s with toks := us ++ rest, line := t.line }) t ho hx
        refine then_ok e3 ?_
        have k3' : s.exps.length + Safe.bins a3 = es3.length + Safe.bins above := k3
        have hbc := Safe.bins_cons t a3
        have h01 : (if t.type.isBinary then 1 else 0) ≤ 1 := by split <;> omega
        obtain ⟨s4, e4, t4⟩ := ih.ex (above := t :: a3) (bottom := bottom) (ts := us) (rest := rest) (s := { s with
            toks := us ++ rest, line := t.line, ops := t :: a3 ++ bottom, exps := es3 }) hg1 rfl
          (by show Safe.bins (t :: a3) ≤ es3.length; omega) (by show 8 * (us ++ rest).length + 2 ≤ n; omega) rfl hw hr
        exact ⟨(), s4, e4, t4⟩
    · -- parsePostfix
      intro s ts rest hg hx hn hs h hr
      simp only [parsePostfix]
      apply unit_run
      cases h with
      | bare =>
        obtain ⟨t, us, ht⟩ := Safe.good_cons hg
        have := hr t (by rw [List.nil_append] at hs; rw [← hs, ht]; rfl)
        exact then_ok (found_miss ht this.2.1) (then_ok (found_miss ht this.1) ⟨(), s, rfl, hs⟩)
      | @index l r us vs hl hi hrb hp =>
        rw [List.cons_append, List.append_assoc, List.cons_append] at hs
        have hlen : s.toks.length = (us ++ r :: (vs ++ rest)).length + 1 := by rw [hs]; rfl
        refine then_ok (found_hit hs hl) ?_
        obtain ⟨e, es, e1, k1⟩ := popExp_run (f := .ub) (s := { s with toks := us ++ r :: (vs ++ rest), line := l.line }) hx
        refine then_ok e1 ?_
        have hg1 : Whole { s with toks := us ++ r :: (vs ++ rest), line := l.line, exps := es } :=
          hg.step (l := l.line) hs (by rw [hl]; decide)
        obtain ⟨i, s2, e2, t2⟩ := ih.expr _ us (r :: (vs ++ rest)) hg1
          (by show 8 * (us ++ r :: (vs ++ rest)).length + 3 ≤ n; omega) rfl hi (stops_cons hrb rfl (by decide))
        obtain ⟨hg2, hl2, ho2, he2⟩ := got (safe.expr _ hg1
          (by show 8 * (us ++ r :: (vs ++ rest)).length + 3 ≤ n; omega)) e2
        have hl2' : s2.toks.length < (us ++ r :: (vs ++ rest)).length := hl2
        refine then_ok e2 (then_ok push_run (then_ok (popType_hit (s := { s2 with exps := .deref l e i :: s2.exps }) t2 hrb) ?_))
        have hg3 : Whole { s2 with toks := vs ++ rest, line := r.line, exps := .deref l e i :: s2.exps } :=
          Whole.step hg2 (l := r.line) t2 (by rw [hrb]; decide)
        have hl3 : s2.toks.length = (vs ++ rest).length + 1 := by rw [t2]; rfl
        obtain ⟨s4, e4, t4⟩ := ih.post _ vs rest hg3 (Nat.le_add_left _ _)
          (by show 8 * (vs ++ rest).length + 1 ≤ n; omega) rfl hp hr
        exact ⟨(), s4, e4, t4⟩
      | @call l r us vs hl ha hrb hp =>
        rw [List.cons_append, List.append_assoc, List.cons_append] at hs
        have hlen : s.toks.length = (us ++ r :: (vs ++ rest)).length + 1 := by rw [hs]; rfl
        refine then_ok (found_miss hs (by rw [hl]; decide)) (then_ok (found_hit hs hl) ?_)
        have hg1 : Whole { s with toks := us ++ r :: (vs ++ rest), line := l.line } :=
          hg.step (l := l.line) hs (by rw [hl]; decide)
        obtain ⟨as, s2, e2, t2⟩ := ih.args _ us r (vs ++ rest) hg1
          (by show 8 * (us ++ r :: (vs ++ rest)).length + 5 ≤ n; omega) rfl ha hrb
        obtain ⟨hg2, hl2, ho2, he2⟩ := got (safe.args _ hg1
          (by show 8 * (us ++ r :: (vs ++ rest)).length + 5 ≤ n; omega)) e2
        have he2' : s.exps.length ≤ s2.exps.length := he2
        have hl2' : s2.toks.length < (us ++ r :: (vs ++ rest)).length := hl2
        obtain ⟨e, es, e3, k3⟩ := popExp_run (f := .assert) (s := s2) (by omega)
        refine then_ok e2 (then_ok e3 (then_ok push_run ?_))
        have hg3 : Whole { s2 with exps := .call l e as :: es } := hg2
        obtain ⟨s4, e4, t4⟩ := ih.post _ vs rest hg3 (Nat.le_add_left _ _)
          (by show 8 * s2.toks.length + 1 ≤ n; omega) t2 hp hr
        exact ⟨(), s4, e4, t4⟩
    · -- parseLhs
      intro s ts rest hg hn hs h hr
      simp only [parseLhs]
      apply unit_run
      cases h with
      | @literal t ht =>
        have hs : s.toks = t :: rest := hs
        have hne : t.type ≠ .LBRACKET ∧ t.type ≠ .LPAREN ∧ t.type ≠ .IDENT := by
          rcases ht with h | h | h | h <;> rw [h] <;> decide
        have hl : ∃ e, literalNode t = some e := by
          unfold literalNode
          rcases ht with h | h | h | h <;> rw [h] <;> exact ⟨_, rfl⟩
        obtain ⟨e, hl⟩ := hl
        refine then_ok (found_miss hs hne.1) (then_ok (found_miss hs hne.2.1) (then_ok (found_miss hs hne.2.2)
          (then_ok (popTok_hit hs) ?_)))
        rw [hl]
        exact ⟨(), _, push_run, rfl⟩
      | @ident t ht =>
        have hs : s.toks = t :: rest := hs
        have hg1 := hg.step (l := t.line) hs (by rw [ht]; decide)
        obtain ⟨u, us, hu⟩ := Safe.good_cons hg1
        have hu' : rest = u :: us := hu
        refine then_ok (found_miss hs (by rw [ht]; decide)) (then_ok (found_miss hs (by rw [ht]; decide))
          (then_ok (found_hit hs ht) (then_ok (found_miss hu (hr u (by rw [hu']; rfl))) ⟨(), _, push_run, rfl⟩)))
      | @member t d m ht hd hm =>
        have hs : s.toks = t :: d :: m :: rest := hs
        refine then_ok (found_miss hs (by rw [ht]; decide)) (then_ok (found_miss hs (by rw [ht]; decide))
          (then_ok (found_hit hs ht) (then_ok (found_hit (s := { s with toks := d :: m :: rest, line := t.line }) rfl hd)
            (then_ok (popType_hit (s := { s with toks := m :: rest, line := d.line }) rfl hm) ⟨(), _, push_run, rfl⟩))))
      | @arr l r us hl h hrb =>
        rw [List.cons_append, List.append_assoc, List.singleton_append] at hs
        have hlen : s.toks.length = (us ++ r :: rest).length + 1 := by rw [hs]; rfl
        have hg1 := hg.step (l := l.line) hs (by rw [hl]; decide)
        obtain ⟨es, s2, e2, t2⟩ := ih.list _ us (r :: rest) hg1 (by show 8 * (us ++ r :: rest).length + 4 ≤ n; omega) rfl h
          (stops_cons hrb rfl (by decide)) (by intro t ht; cases ht; rw [hrb]; decide)
        refine then_ok (found_hit hs hl) (then_ok e2 (then_ok push_run (then_ok
          (popType_hit (s := { s2 with exps := .arr l es :: s2.exps }) t2 hrb) ⟨(), _, rfl, rfl⟩)))
      | @paren l r us hl h hrb =>
        rw [List.cons_append, List.append_assoc, List.singleton_append] at hs
        have hlen : s.toks.length = (us ++ r :: rest).length + 1 := by rw [hs]; rfl
        have hg1 := hg.step (l := l.line) hs (by rw [hl]; decide)
        obtain ⟨e, s2, e2, t2⟩ := ih.expr _ us (r :: rest) hg1 (by show 8 * (us ++ r :: rest).length + 3 ≤ n; omega) rfl h
          (stops_cons hrb rfl (by decide))
        refine then_ok (found_miss hs (by rw [hl]; decide)) (then_ok (found_hit hs hl) (then_ok e2 (then_ok push_run (then_ok
          (popType_hit (s := { s2 with exps := e :: s2.exps }) t2 hrb) ⟨(), _, rfl, rfl⟩))))
    · -- parseExpr
      intro s ts rest hg hn hs h hr
      simp only [parseExpr]
      obtain ⟨s1, e1, t1⟩ := ih.ex s [] s.ops ts rest hg rfl (Nat.zero_le _) (by omega) hs h hr
      obtain ⟨-, -, a1, ho1, he1⟩ := got (safe.ex s _ [] s.ops hg rfl rfl (Nat.zero_le _) (by omega)) e1
      have hb : Safe.bins [] = 0 := rfl
      obtain ⟨a', es', k1, k2, -, k4⟩ := Safe.reduceLoop_ok 0 (bottom := s.ops) a1 s1.exps (by omega)
      cases k4 rfl
      have hp : opPopAll s.ops.length s1 = .ok ((), { s1 with ops := s.ops, exps := es' }) := by
        unfold opPopAll; rw [ho1, k1]; rfl
      obtain ⟨e, es, e3, -⟩ := popExp_run (f := .assert) (s := { s1 with ops := s.ops, exps := es' })
        (by show 1 ≤ es'.length; omega)
      exact then_ok (s1 := s) (a := s) rfl (then_ok e1 (then_ok hp ⟨e, _, e3, t1⟩))
    · -- parseExprList
      intro s ts rest hg hn hs h hr hc
      simp only [parseExprList]
      cases h with
      | one h =>
        obtain ⟨e, s1, e1, t1⟩ := ih.expr s ts rest hg (by omega) hs h hr
        obtain ⟨hg1, -⟩ := got (safe.expr s hg (by omega)) e1
        obtain ⟨t, us, ht⟩ := Safe.good_cons hg1
        exact then_ok e1 (then_ok (found_miss ht (hc t (by rw [← t1, ht]; rfl))) ⟨_, s1, rfl, t1⟩)
      | @more c us vs h hcc hv =>
        rw [List.append_assoc, List.cons_append] at hs
        obtain ⟨e, s1, e1, t1⟩ := ih.expr s us _ hg (by omega) hs h (stops_cons hcc rfl (by decide))
        obtain ⟨hg1, hl1, -⟩ := got (safe.expr s hg (by omega)) e1
        have hg2 := Whole.step hg1 (l := c.line) t1 (by rw [hcc]; decide)
        have hl2 : s1.toks.length = (vs ++ rest).length + 1 := by rw [t1]; rfl
        obtain ⟨es, s3, e3, t3⟩ := ih.list _ vs rest hg2 (by show 8 * (vs ++ rest).length + 4 ≤ n; omega) rfl hv hr hc
        exact then_ok e1 (then_ok (found_hit t1 hcc) (then_ok e3 ⟨_, s3, rfl, t3⟩))
    · -- parseCallArgs
      intro s ts r rest hg hn hs h hr
      simp only [parseCallArgs]
      cases h with
      | noArgs => exact then_ok (found_hit hs hr) ⟨_, _, rfl, rfl⟩
      | someArgs h =>
        obtain ⟨t, us, hu, hb⟩ := exprs_first h
        have hs' : s.toks = t :: (us ++ r :: rest) := by rw [hs, hu]; rfl
        obtain ⟨es, s1, e1, t1⟩ := ih.list s ts (r :: rest) hg (by omega) hs h (stops_cons hr rfl (by decide))
          (by intro t ht; cases ht; rw [hr]; decide)
        exact then_ok (found_miss hs' (by intro e; rw [e] at hb; cases hb)) (then_ok e1 (then_ok (popType_hit t1 hr)
          ⟨_, _, rfl, rfl⟩))

/-! ### Statements -/

theorem expr_run {n : Nat} {s : PState} {ts rest : List Token} (hg : Whole s) (hn : 8 * s.toks.length + 3 ≤ n)
    (hs : s.toks = ts ++ rest) (h : Spells .expr ts) (hr : Stops rest) :
    ∃ e s', parseExpr n s = .ok (e, s') ∧ s'.toks = rest ∧ Whole s' := by
  obtain ⟨e, s', h1, h2⟩ := (runs n).expr s ts rest hg hn hs h hr
  exact ⟨e, s', h1, h2, (got ((Safe.allOk n).expr s hg hn) h1).1⟩

/-- A declaration behind its first word. -/
theorem declVar_run {n : Nat} {s : PState} {us rest : List Token} (hg : Whole s) (hn : 8 * s.toks.length ≤ n + 1)
    (hs : s.toks = us ++ rest) (h : Decl us) (hr : Stops rest) (hr2 : ∀ t ∈ rest.head?, t.type ≠ .ASSIGN) :
    ∃ r s', parseDeclVar n s = .ok (r, s') ∧ s'.toks = rest := by
  unfold parseDeclVar
  obtain ⟨name, hname, rfl | ⟨a, ts, ha, he, rfl⟩⟩ := h
  · have hs : s.toks = name :: rest := hs
    have hg1 := hg.step (l := name.line) hs (by rw [hname]; decide)
    obtain ⟨u, us, hu⟩ := Safe.good_cons hg1
    have hu' : rest = u :: us := hu
    exact then_ok (popType_hit hs hname) (then_ok (found_miss hu (hr2 u (by rw [hu']; rfl))) ⟨_, _, rfl, rfl⟩)
  · have hs : s.toks = name :: a :: (ts ++ rest) := hs
    have hl : s.toks.length = (ts ++ rest).length + 2 := by rw [hs]; rfl
    have hg1 := hg.step (l := name.line) hs (by rw [hname]; decide)
    have hg2 := Whole.step (l := a.line) (t := a) (ts := ts ++ rest) hg1 rfl (by rw [ha]; decide)
    obtain ⟨e, s3, e3, t3, -⟩ := expr_run hg2 (n := n) (by show 8 * (ts ++ rest).length + 3 ≤ n; omega) rfl he hr
    exact then_ok (popType_hit hs hname) (then_ok (found_hit
      (s := { s with toks := a :: (ts ++ rest), line := name.line }) rfl ha) (then_ok e3 ⟨_, s3, rfl, t3⟩))

/-- What ends a statement. -/
theorem eol_stops {e : Token} {rest : List Token} (he : e.type = .EOL) : Stops (e :: rest) :=
  stops_cons he rfl (by decide)

theorem skip_run : ∀ (vs ts : List Token) (l : SrcLine), Blank vs → ts ≠ [] → (∀ t ∈ ts.head?, t.type ≠ .EOL) →
    ∃ l', skipEols.go (vs ++ ts) l = .ok (ts, l')
  | [], [], _, _, h, _ => absurd rfl h
  | [], t :: ts, l, _, _, h => ⟨l, by rw [List.nil_append, skipEols.go, if_neg (h t rfl)]⟩
  | v :: vs, ts, l, hb, h0, h => by
    obtain ⟨l', h'⟩ := skip_run vs ts v.line (fun t ht => hb t (List.mem_cons_of_mem _ ht)) h0 h
    exact ⟨l', by rw [List.cons_append, skipEols.go, if_pos (hb v (List.mem_cons_self ..)), h']⟩

theorem skipEols_run {s : PState} {vs ts : List Token} (hg : Whole s) (hs : s.toks = vs ++ ts) (hb : Blank vs)
    (h0 : ts ≠ []) (h : ∀ t ∈ ts.head?, t.type ≠ .EOL) :
    ∃ s', skipEols s = .ok ((), s') ∧ s'.toks = ts ∧ Whole s' := by
  obtain ⟨l', h'⟩ := skip_run vs ts s.line hb h0 h
  have e : skipEols s = .ok ((), { s with toks := ts, line := l' }) := by
    unfold skipEols; rw [hs, h']
  exact ⟨_, e, rfl, (got (Safe.skipEols_ok hg) e).1⟩

/-- A block without the blank lines before it. -/
theorem block_strip {us : List Token} (h : Spells .block us) :
    ∃ before us', us = before ++ us' ∧ Blank before ∧ Spells .block us' ∧ ∀ t ∈ us'.head?, t.type ≠ .EOL := by
  cases h with
  | nil => exact ⟨[], [], rfl, (fun _ h => by cases h), .nil, fun _ h => by cases h⟩
  | @cons before ts n after vs hb h hn ha hv =>
    refine ⟨before, _, rfl, hb, ?_, ?_⟩
    · exact .cons (before := []) (fun _ h => by cases h) h hn ha hv
    · obtain ⟨t, us, rfl, hf⟩ := stmt_first h
      intro u hu
      cases hu
      intro e
      rw [e] at hf
      cases hf

/-- What begins a line. -/
theorem line_head {before ts : List Token} {l : List Token} (hb : Blank before) (h : Spells .stmt ts) :
    ∃ t us, before ++ (ts ++ l) = t :: us ∧ t.type ≠ .END ∧ t.type ≠ .ELSE := by
  cases before with
  | nil =>
    obtain ⟨t, us, rfl, hf⟩ := stmt_first h
    exact ⟨t, _, rfl, (by intro e; rw [e] at hf; cases hf), (by intro e; rw [e] at hf; cases hf)⟩
  | cons t before =>
    have := hb t (List.mem_cons_self ..)
    exact ⟨t, _, rfl, by rw [this]; decide, by rw [this]; decide⟩

theorem condition_run {n : Nat} {s : PState} {l r e : Token} {ts rest : List Token} (hg : Whole s)
    (hn : 8 * s.toks.length ≤ n + 5) (hs : s.toks = l :: (ts ++ (r :: e :: rest))) (hl : l.type = .LPAREN)
    (hc : Spells .expr ts) (hr : r.type = .RPAREN) (he : e.type = .EOL) :
    ∃ c s', parseCondition n s = .ok (c, s') ∧ s'.toks = rest ∧ Whole s' ∧ s'.toks.length < s.toks.length := by
  have hlen : s.toks.length = (ts ++ (r :: e :: rest)).length + 1 := by rw [hs]; rfl
  have hg1 := hg.step (l := l.line) hs (by rw [hl]; decide)
  obtain ⟨c, s2, e2, t2, hg2⟩ := expr_run (n := n) hg1 (by show 8 * (ts ++ (r :: e :: rest)).length + 3 ≤ n; omega) rfl hc
    (stops_cons hr rfl (by decide))
  obtain ⟨c, s3, e3, t3⟩ : ∃ c s', parseCondition n s = .ok (c, s') ∧ s'.toks = rest := by
    unfold parseCondition
    exact then_ok (popType_hit hs hl) (then_ok e2 (then_ok (popType_hit t2 hr) (then_ok
      (popType_hit (s := { s2 with toks := e :: rest, line := r.line }) rfl he) ⟨c, _, rfl, rfl⟩)))
  obtain ⟨k1, k2, -⟩ := got (Safe.condition_ok hg hn) e3
  exact ⟨c, s3, e3, t3, k1, k2⟩

theorem forHead_run {n : Nat} {s : PState} {l name a o r e : Token} {ts us rest : List Token} (hg : Whole s)
    (hn : 8 * s.toks.length ≤ n + 5)
    (hs : s.toks = l :: name :: a :: (ts ++ (o :: (us ++ (r :: e :: rest))))) (hl : l.type = .LPAREN)
    (hname : name.type = .IDENT) (ha : a.type = .ASSIGN) (hx : Spells .expr ts) (ho : o.type = .TO)
    (hy : Spells .expr us) (hr : r.type = .RPAREN) (he : e.type = .EOL) :
    ∃ c s', parseForHead n s = .ok (c, s') ∧ s'.toks = rest ∧ Whole s' ∧ s'.toks.length < s.toks.length := by
  have hlen : s.toks.length = (ts ++ (o :: (us ++ (r :: e :: rest)))).length + 3 := by rw [hs]; rfl
  have hg1 := hg.step (l := l.line) hs (by rw [hl]; decide)
  have hg2 := Whole.step (l := name.line) hg1 rfl (by rw [hname]; decide)
  have hg3 := Whole.step (l := a.line) hg2 rfl (by rw [ha]; decide)
  obtain ⟨x, s4, e4, t4, hg4⟩ := expr_run (n := n) hg3
    (by show 8 * (ts ++ (o :: (us ++ (r :: e :: rest)))).length + 3 ≤ n; omega) rfl hx (stops_cons ho rfl (by decide))
  have hg5 := Whole.step (l := o.line) hg4 t4 (by rw [ho]; decide)
  have h5 : (ts ++ (o :: (us ++ (r :: e :: rest)))).length = ts.length + ((us ++ (r :: e :: rest)).length + 1) := by simp
  obtain ⟨y, s6, e6, t6, hg6⟩ := expr_run (n := n) hg5 (by show 8 * (us ++ (r :: e :: rest)).length + 3 ≤ n; omega) rfl hy
    (stops_cons hr rfl (by decide))
  obtain ⟨c, s7, e7, t7⟩ : ∃ c s', parseForHead n s = .ok (c, s') ∧ s'.toks = rest := by
    unfold parseForHead
    exact then_ok (popType_hit hs hl) (then_ok (popType_hit rfl hname) (then_ok (popType_hit rfl ha) (then_ok e4
      (then_ok (popType_hit t4 ho) (then_ok e6 (then_ok (popType_hit t6 hr) (then_ok
      (popType_hit (s := { s6 with toks := e :: rest, line := r.line }) rfl he) ⟨_, _, rfl, rfl⟩)))))))
  obtain ⟨k1, k2, -⟩ := got (Safe.forHead_ok hg hn) e7
  exact ⟨c, s7, e7, t7, k1, k2⟩

/-- The statements that begin with a name. -/
theorem named_run {n : Nat} {s : PState} {t e : Token} {us rest : List Token} (hg : Whole s)
    (hn : 8 * s.toks.length + 3 ≤ n) (hs : s.toks = us ++ e :: rest) (he : e.type = .EOL) (ht : t.type = .IDENT)
    (h : Spells .stmt (t :: us)) : ∃ p s', parseNamed n t s = .ok (p, s') ∧ s'.toks = e :: rest := by
  unfold parseNamed
  cases h with
  | var hv => rw [ht] at hv; cases hv
  | varInit hv => rw [ht] at hv; cases hv
  | ret hv => rw [ht] at hv; cases hv
  | retVal hv => rw [ht] at hv; cases hv
  | ifS hv => rw [ht] at hv; cases hv
  | ifElse hv => rw [ht] at hv; cases hv
  | whileS hv => rw [ht] at hv; cases hv
  | forS hv => rw [ht] at hv; cases hv
  | @assign _ a ts _ ha hx =>
    have hs : s.toks = a :: (ts ++ e :: rest) := hs
    have hlen : s.toks.length = (ts ++ e :: rest).length + 1 := by rw [hs]; rfl
    have hg1 := hg.step (l := a.line) hs (by rw [ha]; decide)
    obtain ⟨x, s2, e2, t2, -⟩ := expr_run (n := n) hg1 (by show 8 * (ts ++ e :: rest).length + 3 ≤ n; omega) rfl hx
      (eol_stops he)
    refine then_ok (peek_hit hs) ?_
    rw [ha]
    unfold parseAssign
    exact then_ok (popTok_hit hs) (then_ok e2 ⟨_, s2, rfl, t2⟩)
  | @compound _ op a ts _ ho ha hx =>
    have hs : s.toks = op :: a :: (ts ++ e :: rest) := hs
    have hlen : s.toks.length = (ts ++ e :: rest).length + 2 := by rw [hs]; rfl
    have hg1 := hg.step (l := op.line) hs (by rcases ho with h | h | h | h <;> rw [h] <;> decide)
    have hg2 := Whole.step (l := a.line) hg1 rfl (by rw [ha]; decide)
    obtain ⟨x, s2, e2, t2, -⟩ := expr_run (n := n) hg2 (by show 8 * (ts ++ e :: rest).length + 3 ≤ n; omega) rfl hx
      (eol_stops he)
    have main : ∃ p s', parseCompound n t s = .ok (p, s') ∧ s'.toks = e :: rest := by
      unfold parseCompound
      exact then_ok (popTok_hit hs) (then_ok (found_hit (s := { s with toks := a :: (ts ++ e :: rest), line := op.line })
        rfl ha) (then_ok e2 ⟨_, s2, rfl, t2⟩))
    refine then_ok (peek_hit hs) ?_
    rcases ho with h | h | h | h <;> rw [h] <;> exact main
  | @assignMem _ d m a ts _ hd hm ha hx =>
    have hs : s.toks = d :: m :: a :: (ts ++ e :: rest) := hs
    have hlen : s.toks.length = (ts ++ e :: rest).length + 3 := by rw [hs]; rfl
    have hg1 := hg.step (l := d.line) hs (by rw [hd]; decide)
    have hg2 := Whole.step (l := m.line) hg1 rfl (by rw [hm]; decide)
    have hg3 := Whole.step (l := a.line) hg2 rfl (by rw [ha]; decide)
    obtain ⟨x, s2, e2, t2, -⟩ := expr_run (n := n) hg3 (by show 8 * (ts ++ e :: rest).length + 3 ≤ n; omega) rfl hx
      (eol_stops he)
    refine then_ok (peek_hit hs) ?_
    rw [hd]
    unfold parseMemberAssign
    exact then_ok (popType_hit hs hd) (then_ok (popType_hit rfl hm) (then_ok (popType_hit rfl ha) (then_ok e2 ⟨_, s2, rfl, t2⟩)))
  | @assignArr _ l r a ts vs _ hl hi hr ha hx =>
    have hs : s.toks = l :: (ts ++ (r :: a :: (vs ++ e :: rest))) := by rw [hs]; simp
    have hlen : s.toks.length = (ts ++ (r :: a :: (vs ++ e :: rest))).length + 1 := by rw [hs]; rfl
    have hg1 := hg.step (l := l.line) hs (by rw [hl]; decide)
    obtain ⟨i, s2, e2, t2, hg2⟩ := expr_run (n := n) hg1
      (by show 8 * (ts ++ (r :: a :: (vs ++ e :: rest))).length + 3 ≤ n; omega) rfl hi (stops_cons hr rfl (by decide))
    have hg3 := Whole.step (l := r.line) hg2 t2 (by rw [hr]; decide)
    have hg4 := Whole.step (l := a.line) hg3 rfl (by rw [ha]; decide)
    have h5 : (ts ++ (r :: a :: (vs ++ e :: rest))).length = ts.length + ((vs ++ e :: rest).length + 2) := by simp
    obtain ⟨x, s5, e5, t5, -⟩ := expr_run (n := n) hg4 (by show 8 * (vs ++ e :: rest).length + 3 ≤ n; omega) rfl hx
      (eol_stops he)
    refine then_ok (peek_hit hs) ?_
    rw [hl]
    unfold parseArraySet
    exact then_ok (popTok_hit hs) (then_ok e2 (then_ok (popType_hit t2 hr) (then_ok (popType_hit rfl ha)
      (then_ok e5 ⟨_, s5, rfl, t5⟩))))
  | @callS _ l r ts _ hl ha hr =>
    have hs : s.toks = l :: (ts ++ r :: e :: rest) := by rw [hs]; simp
    have hlen : s.toks.length = (ts ++ r :: e :: rest).length + 1 := by rw [hs]; rfl
    have hg1 := hg.step (l := l.line) hs (by rw [hl]; decide)
    obtain ⟨as, s2, e2, t2⟩ := (runs n).args _ ts r (e :: rest) hg1
      (by show 8 * (ts ++ r :: e :: rest).length + 5 ≤ n; omega) rfl ha hr
    refine then_ok (peek_hit hs) ?_
    rw [hl]
    exact then_ok (popTok_hit hs) (then_ok e2 ⟨_, s2, rfl, t2⟩)

theorem return_run {n : Nat} {s : PState} {t e : Token} {us rest : List Token} (hg : Whole s)
    (hn : 8 * s.toks.length + 3 ≤ n) (hs : s.toks = us ++ e :: rest) (he : e.type = .EOL)
    (h : us = [] ∨ Spells .expr us) : ∃ p s', parseReturn n t s = .ok (p, s') ∧ s'.toks = e :: rest := by
  unfold parseReturn
  rcases h with rfl | h
  · refine then_ok (peek_hit (t := e) (ts := rest) hs) ?_
    rw [if_pos he]
    exact ⟨_, s, rfl, hs⟩
  · obtain ⟨u, vs, hu, hb⟩ := expr_first h
    have hs' : s.toks = u :: (vs ++ e :: rest) := by rw [hs, hu]; rfl
    refine then_ok (peek_hit hs') ?_
    rw [if_neg (by intro e; rw [e] at hb; cases hb)]
    obtain ⟨x, s2, e2, t2, -⟩ := expr_run hg hn hs h (eol_stops he)
    exact then_ok e2 ⟨_, s2, rfl, t2⟩

/-- The functions for statements with fuel `n`. -/
structure RunsS (n : Nat) : Prop where
  stmt : ∀ s before ts e after rest, Whole s → 8 * s.toks.length + 1 ≤ n →
    s.toks = before ++ (ts ++ (e :: (after ++ rest))) → Blank before → Spells .stmt ts → e.type = .EOL → Blank after →
    rest ≠ [] → (∀ t ∈ rest.head?, t.type ≠ .EOL) → ∃ p s', parseStmt n s = .ok (p, s') ∧ s'.toks = rest
  kind : ∀ s t us e rest, Whole s → 8 * s.toks.length + 4 ≤ n → s.toks = us ++ e :: rest → e.type = .EOL →
    Spells .stmt (t :: us) → ∃ p s', parseStmtKind n t s = .ok (p, s') ∧ s'.toks = e :: rest
  block : ∀ s ts e rest, Whole s → 8 * s.toks.length + 2 ≤ n → s.toks = ts ++ e :: rest → e.type = .END →
    Spells .block ts → ∃ p s', parseBlock n s = .ok (p, s') ∧ s'.toks = rest
  thn : ∀ s ts vs flag rest, Whole s → 8 * s.toks.length + 2 ≤ n → s.toks = ts ++ (vs ++ rest) → ThenEnd flag vs →
    Spells .block ts → ∃ p s', parseThen n s = .ok ((p, flag), s') ∧ s'.toks = rest

theorem runsS : ∀ n, RunsS n := by
  intro n
  induction n with
  | zero => constructor <;> intros <;> omega
  | succ n ih =>
    have safe := Safe.stmtOk (imp := True) n
    constructor
    · intro s before ts e after rest hg hn hs hb h he ha h0 hr
      simp only [parseStmt]
      obtain ⟨t, us, rfl, hf⟩ := stmt_first h
      have hlen : s.toks.length = before.length + (us ++ (e :: (after ++ rest))).length + 1 := by
        rw [hs]; simp; omega
      obtain ⟨s1, e1, t1, hg1⟩ := skipEols_run (ts := t :: (us ++ (e :: (after ++ rest)))) hg hs hb (by simp) (by
        intro u hu; cases hu; intro e; rw [e] at hf; cases hf)
      have hg2 := Whole.step (l := t.line) hg1 t1 (by intro e; rw [e] at hf; cases hf)
      have hn2 : 8 * (us ++ (e :: (after ++ rest))).length + 4 ≤ n := by omega
      obtain ⟨p, s3, e3, t3⟩ := ih.kind _ t us e (after ++ rest) hg2 hn2 rfl he h
      obtain ⟨hg3, -⟩ := got (safe.kind _ t hg2 (fun _ => trivial) hn2) e3
      have hg4 := Whole.step (l := e.line) hg3 t3 (by rw [he]; decide)
      obtain ⟨s5, e5, t5, -⟩ := skipEols_run hg4 rfl ha h0 hr
      exact then_ok e1 (then_ok (popTok_hit t1) (then_ok e3 (then_ok (popType_hit t3 he) (then_ok e5 ⟨p, s5, rfl, t5⟩))))
    · intro s t us e rest hg hn hs he h
      simp only [parseStmtKind]
      have ident : t.type = .IDENT → ∃ p s', parseNamed n t s = .ok (p, s') ∧ s'.toks = e :: rest :=
        fun ht => named_run hg (by omega) hs he ht h
      cases h with
      | @var _ name hv hname =>
        obtain ⟨r, s1, e1, t1⟩ := declVar_run (n := n) hg (by omega) hs ⟨name, hname, .inl rfl⟩ (eol_stops he)
          (by intro u hu; cases hu; rw [he]; decide)
        rw [hv]
        exact then_ok e1 ⟨_, s1, rfl, t1⟩
      | @varInit _ name a ts hv hname ha hx =>
        obtain ⟨r, s1, e1, t1⟩ := declVar_run (n := n) hg (by omega) hs ⟨name, hname, .inr ⟨a, ts, ha, hx, rfl⟩⟩
          (eol_stops he) (by intro u hu; cases hu; rw [he]; decide)
        rw [hv]
        exact then_ok e1 ⟨_, s1, rfl, t1⟩
      | assign ht => rw [ht]; exact ident ht
      | compound ht => rw [ht]; exact ident ht
      | assignMem ht => rw [ht]; exact ident ht
      | assignArr ht => rw [ht]; exact ident ht
      | callS ht => rw [ht]; exact ident ht
      | ret ht => rw [ht]; exact return_run hg (by omega) hs he (.inl rfl)
      | retVal ht hx => rw [ht]; exact return_run hg (by omega) hs he (.inr hx)
      | @ifS _ l r m e2 ts vs ht hl hc hr hm hb he2 =>
        have hs : s.toks = l :: (ts ++ (r :: m :: (vs ++ ([e2] ++ e :: rest)))) := by rw [hs]; simp
        obtain ⟨c, s1, e1, t1, hg1, hl1⟩ := condition_run (n := n) hg (by omega) hs hl hc hr hm
        obtain ⟨b, s2, e2, t2⟩ := ih.thn s1 vs [e2] false (e :: rest) hg1 (by omega) t1 ⟨e2, he2, rfl⟩ hb
        rw [ht]
        exact then_ok e1 (then_ok e2 ⟨_, s2, rfl, t2⟩)
      | @ifElse _ l r m els m2 e2 ts vs ws ht hl hc hr hm hb hels hm2 hb' he2 =>
        have hs : s.toks = l :: (ts ++ (r :: m :: (vs ++ ([els, m2] ++ (ws ++ e2 :: e :: rest))))) := by rw [hs]; simp
        obtain ⟨c, s1, e1, t1, hg1, hl1⟩ := condition_run (n := n) hg (by omega) hs hl hc hr hm
        obtain ⟨b, s2, e2', t2⟩ := ih.thn s1 vs [els, m2] true (ws ++ e2 :: e :: rest) hg1 (by omega) t1
          ⟨els, m2, hels, hm2, rfl⟩ hb
        obtain ⟨hg2, hl2, -⟩ := got (safe.thn s1 hg1 (by omega)) e2'
        obtain ⟨b', s3, e3, t3⟩ := ih.block s2 ws e2 (e :: rest) hg2 (by omega) t2 he2 hb'
        rw [ht]
        exact then_ok e1 (then_ok e2' (then_ok e3 ⟨_, s3, rfl, t3⟩))
      | @whileS _ l r m e2 ts vs ht hl hc hr hm hb he2 =>
        have hs : s.toks = l :: (ts ++ (r :: m :: (vs ++ e2 :: e :: rest))) := by rw [hs]; simp
        obtain ⟨c, s1, e1, t1, hg1, hl1⟩ := condition_run (n := n) hg (by omega) hs hl hc hr hm
        obtain ⟨b, s2, e3, t2⟩ := ih.block s1 vs e2 (e :: rest) hg1 (by omega) t1 he2 hb
        rw [ht]
        exact then_ok e1 (then_ok e3 ⟨_, s2, rfl, t2⟩)
      | @forS _ l name a o r m e2 ts vs ws ht hl hname ha hx ho hy hr hm hb he2 =>
        have hs : s.toks = l :: name :: a :: (ts ++ (o :: (vs ++ (r :: m :: (ws ++ e2 :: e :: rest))))) := by
          rw [hs]; simp
        obtain ⟨c, s1, e1, t1, hg1, hl1⟩ := forHead_run (n := n) hg (by omega) hs hl hname ha hx ho hy hr hm
        obtain ⟨b, s2, e3, t2⟩ := ih.block s1 ws e2 (e :: rest) hg1 (by omega) t1 he2 hb
        rw [ht]
        exact then_ok e1 (then_ok e3 ⟨_, s2, rfl, t2⟩)
    · intro s ts e rest hg hn hs he h
      simp only [parseBlock]
      cases h with
      | nil => exact then_ok (found_hit hs he) ⟨_, _, rfl, rfl⟩
      | @cons before ts m after us hb h hm ha hu =>
        obtain ⟨b2, us', rfl, hb2, hu', hne⟩ := block_strip hu
        have hs : s.toks = before ++ (ts ++ (m :: ((after ++ b2) ++ (us' ++ e :: rest)))) := by rw [hs]; simp
        obtain ⟨t, vs, hv, hv1, -⟩ := line_head (l := m :: ((after ++ b2) ++ (us' ++ e :: rest))) hb h
        obtain ⟨p, s1, e1, t1⟩ := ih.stmt s before ts m (after ++ b2) (us' ++ e :: rest) hg (by omega) hs hb h hm
          (fun u hu => by rcases List.mem_append.1 hu with hu | hu; exact ha u hu; exact hb2 u hu) (by simp) (by
            intro u hu
            cases us' with
            | nil => cases hu; rw [he]; decide
            | cons x xs => cases hu; exact hne _ rfl)
        obtain ⟨hg1, hl1, -⟩ := got (safe.stmt s hg (by omega)) e1
        obtain ⟨ps, s2, e2, t2⟩ := ih.block s1 us' e rest hg1 (by omega) t1 he hu'
        exact then_ok (found_miss (hs.trans hv) hv1) (then_ok e1 (then_ok e2 ⟨_, s2, rfl, t2⟩))
    · intro s ts ws flag rest hg hn hs hw h
      simp only [parseThen]
      cases h with
      | nil =>
        cases flag with
        | false =>
          obtain ⟨e, he, rfl⟩ := hw
          rw [pm_bind_ok (found_hit (t := e) (ts := rest) hs he)]
          exact ⟨_, _, rfl, rfl⟩
        | true =>
          obtain ⟨l, m, hl, hm, rfl⟩ := hw
          have hs : s.toks = l :: m :: rest := hs
          rw [pm_bind_ok (found_miss hs (by rw [hl]; decide))]
          dsimp only
          rw [pm_bind_ok (found_hit hs hl)]
          dsimp only
          rw [pm_bind_ok (popType_hit (s := { s with toks := m :: rest, line := l.line }) rfl hm)]
          exact ⟨_, _, rfl, rfl⟩
      | @cons before ts m after us hb h hm ha hu =>
        obtain ⟨b2, us', rfl, hb2, hu', hne⟩ := block_strip hu
        have hs : s.toks = before ++ (ts ++ (m :: ((after ++ b2) ++ (us' ++ (ws ++ rest))))) := by rw [hs]; simp
        obtain ⟨t, vs, hv, hv1, hv2⟩ := line_head (l := m :: ((after ++ b2) ++ (us' ++ (ws ++ rest)))) hb h
        have hw' : ∃ w ws', ws = w :: ws' ∧ w.type ≠ .EOL := by
          cases flag with
          | false => obtain ⟨e, he, rfl⟩ := hw; exact ⟨_, _, rfl, by rw [he]; decide⟩
          | true => obtain ⟨l, m, hl, hm, rfl⟩ := hw; exact ⟨_, _, rfl, by rw [hl]; decide⟩
        obtain ⟨p, s1, e1, t1⟩ := ih.stmt s before ts m (after ++ b2) (us' ++ (ws ++ rest)) hg (by omega) hs hb h hm
          (fun u hu => by rcases List.mem_append.1 hu with hu | hu; exact ha u hu; exact hb2 u hu)
          (by obtain ⟨w, ws', rfl, -⟩ := hw'; simp) (by
            intro u hu
            cases us' with
            | nil => obtain ⟨w, ws', rfl, hw''⟩ := hw'; cases hu; exact hw''
            | cons x xs => cases hu; exact hne _ rfl)
        obtain ⟨hg1, hl1, -⟩ := got (safe.stmt s hg (by omega)) e1
        obtain ⟨ps, s2, e2, t2⟩ := ih.thn s1 us' ws flag rest hg1 (by omega) t1 hw hu'
        rw [pm_bind_ok (found_miss (hs.trans hv) hv1)]
        dsimp only
        rw [pm_bind_ok (found_miss (hs.trans hv) hv2)]
        dsimp only
        rw [pm_bind_ok e1, pm_bind_ok e2]
        exact ⟨_, s2, rfl, t2⟩

/-! ### Functions and whole sources -/

theorem body_run : ∀ (n : Nat) (s : PState) (ts : List Token) (e : Token) (rest : List Token), Whole s →
    8 * s.toks.length + 2 ≤ n → s.toks = ts ++ e :: rest → e.type = .END → Spells .block ts →
    ∃ p s', parseBody n s = .ok (p, s') ∧ s'.toks = rest := by
  intro n
  induction n with
  | zero => intros; omega
  | succ n ih =>
    intro s ts e rest hg hn hs he h
    simp only [parseBody]
    cases h with
    | nil => exact then_ok (found_hit hs he) ⟨_, _, rfl, rfl⟩
    | @cons before ts m after us hb h hm ha hu =>
      obtain ⟨b2, us', rfl, hb2, hu', hne⟩ := block_strip hu
      have hs : s.toks = before ++ (ts ++ (m :: ((after ++ b2) ++ (us' ++ e :: rest)))) := by rw [hs]; simp
      obtain ⟨t, vs, hv, hv1, -⟩ := line_head (l := m :: ((after ++ b2) ++ (us' ++ e :: rest))) hb h
      obtain ⟨p, s1, e1, t1⟩ := (runsS n).stmt s before ts m (after ++ b2) (us' ++ e :: rest) hg (by omega) hs hb h hm
        (fun u hu => by rcases List.mem_append.1 hu with hu | hu; exact ha u hu; exact hb2 u hu) (by simp) (by
          intro u hu
          cases us' with
          | nil => cases hu; rw [he]; decide
          | cons x xs => cases hu; exact hne _ rfl)
      obtain ⟨hg1, hl1, -⟩ := got ((Safe.stmtOk n).stmt s hg (by omega)) e1
      obtain ⟨ps, s2, e2, t2⟩ := ih s1 us' e rest hg1 (by omega) t1 he hu'
      exact then_ok (found_miss (hs.trans hv) hv1) (then_ok e1 (then_ok e2 ⟨_, s2, rfl, t2⟩))

theorem names_run : ∀ (n : Nat) (s : PState) (ts : List Token) (r : Token) (rest : List Token),
    s.toks.length + 1 ≤ n → s.toks = ts ++ r :: rest → r.type = .RPAREN → Names ts →
    ∃ p s', parseArgNames n s = .ok (p, s') ∧ s'.toks = r :: rest := by
  intro n
  induction n with
  | zero => intros; omega
  | succ n ih =>
    intro s ts r rest hn hs hr h
    simp only [parseArgNames]
    cases h with
    | @one a ha =>
      have hs : s.toks = a :: r :: rest := hs
      exact then_ok (popType_hit hs ha) (then_ok (found_miss (s := { s with toks := r :: rest, line := a.line }) rfl
        (by rw [hr]; decide)) ⟨_, _, rfl, rfl⟩)
    | @more a c us ha hc hu =>
      have hs : s.toks = a :: c :: (us ++ r :: rest) := hs
      have hlen : s.toks.length = (us ++ r :: rest).length + 2 := by rw [hs]; rfl
      obtain ⟨p, s2, e2, t2⟩ := ih { s with toks := us ++ r :: rest, line := c.line } us r rest
        (by show (us ++ r :: rest).length + 1 ≤ n; omega) rfl hr hu
      exact then_ok (popType_hit hs ha) (then_ok (found_hit (s := { s with toks := c :: (us ++ r :: rest), line := a.line })
        rfl hc) (then_ok e2 ⟨_, s2, rfl, t2⟩))

theorem function_run {n : Nat} {s : PState} {us rest : List Token} (hg : Whole s) (hn : 8 * s.toks.length ≤ n + 8)
    (hs : s.toks = us ++ rest) (h : Function us) : ∃ f s', parseFunction n s = .ok (f, s') ∧ s'.toks = rest := by
  unfold parseFunction
  cases h with
  | @noArgs name l r m e ts hname hl hr hm hb he =>
    have hs : s.toks = name :: l :: r :: m :: (ts ++ e :: rest) := by rw [hs]; simp
    have hlen : s.toks.length = (ts ++ e :: rest).length + 4 := by rw [hs]; rfl
    have hg1 := hg.step (l := name.line) hs (by rw [hname]; decide)
    have hg2 := Whole.step (l := l.line) hg1 rfl (by rw [hl]; decide)
    have hg3 := Whole.step (l := r.line) hg2 rfl (by rw [hr]; decide)
    have hg4 := Whole.step (l := m.line) hg3 rfl (by rw [hm]; decide)
    obtain ⟨p, s5, e5, t5⟩ := body_run n _ ts e rest hg4 (by show 8 * (ts ++ e :: rest).length + 2 ≤ n; omega) rfl he hb
    have hargs : parseArgs n { s with toks := l :: r :: m :: (ts ++ e :: rest), line := name.line } =
        .ok ([], { s with toks := m :: (ts ++ e :: rest), line := r.line }) := by
      unfold parseArgs
      rw [pm_bind_ok (popType_hit rfl hl), pm_bind_ok (found_hit rfl hr)]
      rfl
    exact then_ok (popType_hit hs hname) (then_ok hargs (then_ok (popType_hit rfl hm) (then_ok e5 ⟨_, s5, rfl, t5⟩)))
  | @args name l r m e ns ts hname hl ha hr hm hb he =>
    have hs : s.toks = name :: l :: (ns ++ r :: m :: (ts ++ e :: rest)) := by rw [hs]; simp
    have hlen : s.toks.length = (ns ++ r :: m :: (ts ++ e :: rest)).length + 2 := by rw [hs]; rfl
    have h5 : (ns ++ r :: m :: (ts ++ e :: rest)).length = ns.length + ((ts ++ e :: rest).length + 2) := by simp
    have hg1 := hg.step (l := name.line) hs (by rw [hname]; decide)
    have hg2 := Whole.step (l := l.line) hg1 rfl (by rw [hl]; decide)
    have hn2 : (ns ++ r :: m :: (ts ++ e :: rest)).length + 1 ≤ n := by omega
    obtain ⟨as, s3, e3, t3⟩ := names_run n { s with toks := ns ++ r :: m :: (ts ++ e :: rest), line := l.line } ns r
      (m :: (ts ++ e :: rest)) hn2 rfl hr ha
    obtain ⟨hg3, -⟩ := got (Safe.argNames_ok n _ hg2 hn2) e3
    have hg4 := Whole.step (l := r.line) hg3 t3 (by rw [hr]; decide)
    have hg5 := Whole.step (l := m.line) hg4 rfl (by rw [hm]; decide)
    obtain ⟨p, s6, e6, t6⟩ := body_run n _ ts e rest hg5 (by show 8 * (ts ++ e :: rest).length + 2 ≤ n; omega) rfl he hb
    have hf : ∃ u us, ns ++ r :: m :: (ts ++ e :: rest) = u :: us ∧ u.type = .IDENT := by
      cases ha with
      | one h => exact ⟨_, _, rfl, h⟩
      | more h => exact ⟨_, _, rfl, h⟩
    obtain ⟨u, us, hu, hu2⟩ := hf
    have hargs : parseArgs n { s with toks := l :: (ns ++ r :: m :: (ts ++ e :: rest)), line := name.line } =
        .ok (as, { s3 with toks := m :: (ts ++ e :: rest), line := r.line }) := by
      unfold parseArgs
      rw [pm_bind_ok (popType_hit rfl hl), pm_bind_ok (found_miss hu (by rw [hu2]; decide))]
      dsimp only
      rw [pm_bind_ok e3, pm_bind_ok (popType_hit t3 hr)]
      rfl
    exact then_ok (popType_hit hs hname) (then_ok hargs (then_ok (popType_hit rfl hm) (then_ok e6 ⟨_, s6, rfl, t6⟩)))

/-- What begins the rest of a file cannot go on a declaration. -/
theorem file_stops {fs : Str → Option Str} {cur : Source} {ss ss' : List Source} {us : List Token} {e : Token}
    (h : File fs cur ss ss' us) (he : e.type = .EOF) :
    Stops (us ++ [e]) ∧ ∀ t ∈ (us ++ [e]).head?, t.type ≠ .ASSIGN := by
  have one : ∀ (t : Token) ts, (t.type = .EOF ∨ t.type = .EOL ∨ t.type = .VAR ∨ t.type = .CONST ∨ t.type = .FUNC ∨
      t.type = .IMPORT) → Stops (t :: ts) ∧ ∀ u ∈ (t :: ts).head?, u.type ≠ .ASSIGN := by
    intro t ts h
    constructor
    · intro u hu
      cases hu
      rcases h with h | h | h | h | h | h <;> rw [h] <;> decide
    · intro u hu
      cases hu
      rcases h with h | h | h | h | h | h <;> rw [h] <;> decide
  cases h with
  | nil => exact one _ _ (.inl he)
  | eol ht => exact one _ _ (.inr (.inl ht))
  | decl hv => exact one _ _ (by rcases hv with h | h <;> simp [h])
  | init hv => exact one _ _ (by rcases hv with h | h <;> simp [h])
  | func ht => exact one _ _ (by simp [ht])
  | imp ht => exact one _ _ (by simp [ht])

theorem items_complete {fs : Str → Option Str} {cur : Source} : ∀ (n : Nat) (s : PState) (us : List Token) (e : Token)
    (ss' : List Source), Whole s → 8 * s.toks.length + 1 ≤ n → s.toks = us ++ [e] → e.type = .EOF →
    File fs cur s.srcs ss' us → ∃ is s', parseItems fs cur n s = .ok (is, s') ∧ s'.srcs = ss' := by
  intro n
  induction n with
  | zero => intros; omega
  | succ n ih =>
    intro s us e ss' hg hn hs he h
    simp only [parseItems]
    have decl : ∀ (c : Bool) (v : Token) (ds vs : List Token), s.toks = v :: (ds ++ (vs ++ [e])) →
        (v.type = .VAR ∨ v.type = .CONST) → Decl ds → File fs cur s.srcs ss' vs →
        ∃ is s', (parseDeclVar n >>= fun r => parseItems fs cur n >>= fun is =>
          (Pure.pure (Item.var r.1 c r.2 :: is) : PM _)) { s with toks := ds ++ (vs ++ [e]), line := v.line } =
            .ok (is, s') ∧ s'.srcs = ss' := by
      intro c v ds vs hs hv hd hf
      have hlen : s.toks.length = (ds ++ (vs ++ [e])).length + 1 := by rw [hs]; rfl
      have hg1 := hg.step (l := v.line) hs (by rcases hv with h | h <;> rw [h] <;> decide)
      obtain ⟨k1, k2⟩ := file_stops hf he
      have hn1 : 8 * (ds ++ (vs ++ [e])).length ≤ n + 1 := by omega
      obtain ⟨r, s1, e1, t1⟩ := declVar_run (n := n) hg1 hn1 rfl hd k1 k2
      obtain ⟨hg2, hl2, -⟩ := got (Safe.declVar_ok hg1 hn1) e1
      obtain ⟨_, -, hsrc, -⟩ := declVar_eats n _ _ _ trivial e1
      have hl2' : s1.toks.length < (ds ++ (vs ++ [e])).length := hl2
      obtain ⟨is, s3, e3, t3⟩ := ih s1 vs e ss' hg2 (by omega) t1 he (by rw [hsrc]; exact hf)
      rw [pm_bind_ok e1, pm_bind_ok e3]
      exact ⟨_, s3, rfl, t3⟩
    cases h with
    | nil =>
      rw [pm_bind_ok (found_hit (t := e) (ts := []) hs he)]
      exact ⟨_, _, rfl, rfl⟩
    | @eol t _ _ ts ht hf =>
      have hs : s.toks = t :: (ts ++ [e]) := hs
      have hlen : s.toks.length = (ts ++ [e]).length + 1 := by rw [hs]; rfl
      have hg1 := hg.step (l := t.line) hs (by rw [ht]; decide)
      obtain ⟨is, s3, e3, t3⟩ := ih _ ts e ss' hg1 (by show 8 * (ts ++ [e]).length + 1 ≤ n; omega) rfl he hf
      rw [pm_bind_ok (found_miss hs (by rw [ht]; decide))]
      dsimp only
      rw [pm_bind_ok (popTok_hit hs), ht]
      exact ⟨is, s3, e3, t3⟩
    | @decl v name _ _ ts hv hname hf =>
      have hs : s.toks = v :: ([name] ++ (ts ++ [e])) := hs
      rw [pm_bind_ok (found_miss hs (by rcases hv with h | h <;> rw [h] <;> decide))]
      dsimp only
      rw [pm_bind_ok (popTok_hit hs)]
      rcases hv with h | h
      · rw [h]; exact decl false v [name] ts hs (.inl h) ⟨name, hname, .inl rfl⟩ hf
      · rw [h]; exact decl true v [name] ts hs (.inr h) ⟨name, hname, .inl rfl⟩ hf
    | @init v name a _ _ xs ts hv hname ha hx hf =>
      have hs : s.toks = v :: ((name :: a :: xs) ++ (ts ++ [e])) := by rw [hs]; simp
      rw [pm_bind_ok (found_miss hs (by rcases hv with h | h <;> rw [h] <;> decide))]
      dsimp only
      rw [pm_bind_ok (popTok_hit hs)]
      rcases hv with h | h
      · rw [h]; exact decl false v _ ts hs (.inl h) ⟨name, hname, .inr ⟨a, xs, ha, hx, rfl⟩⟩ hf
      · rw [h]; exact decl true v _ ts hs (.inr h) ⟨name, hname, .inr ⟨a, xs, ha, hx, rfl⟩⟩ hf
    | @func t _ _ fs' ts ht hfn hf =>
      have hs : s.toks = t :: (fs' ++ (ts ++ [e])) := by rw [hs]; simp
      have hlen : s.toks.length = (fs' ++ (ts ++ [e])).length + 1 := by rw [hs]; rfl
      have hg1 := hg.step (l := t.line) hs (by rw [ht]; decide)
      have hn1 : 8 * (fs' ++ (ts ++ [e])).length ≤ n + 8 := by omega
      obtain ⟨f, s2, e2, t2⟩ := function_run (n := n) hg1 hn1 rfl hfn
      obtain ⟨hg2, hl2, -⟩ := got (Safe.function_ok hg1 hn1) e2
      obtain ⟨_, -, hsrc, -⟩ := function_eats n _ _ _ trivial e2
      have hl2' : s2.toks.length < (fs' ++ (ts ++ [e])).length := hl2
      obtain ⟨is, s3, e3, t3⟩ := ih s2 ts e ss' hg2 (by omega) t2 he (by rw [hsrc]; exact hf)
      rw [pm_bind_ok (found_miss hs (by rw [ht]; decide))]
      dsimp only
      rw [pm_bind_ok (popTok_hit hs), ht]
      dsimp only
      rw [pm_bind_ok e2, pm_bind_ok e3]
      exact ⟨_, s3, rfl, t3⟩
    | @imp t nm _ ss1 _ ts ht hnm hl hf =>
      have hs : s.toks = t :: nm :: (ts ++ [e]) := hs
      have hlen : s.toks.length = (ts ++ [e]).length + 2 := by rw [hs]; rfl
      have hg1 := hg.step (l := t.line) hs (by rw [ht]; decide)
      have hg2 := Whole.step (l := nm.line) hg1 rfl (by rw [hnm]; decide)
      have himp : parseImport fs cur { s with toks := nm :: (ts ++ [e]), line := t.line } =
          .ok ((), { s with toks := ts ++ [e], line := nm.line, srcs := ss1 }) := by
        unfold parseImport
        rw [pm_bind_ok (popType_hit rfl hnm)]
        dsimp only
        rw [hl]
      obtain ⟨is, s3, e3, t3⟩ := ih { s with toks := ts ++ [e], line := nm.line, srcs := ss1 } ts e ss' hg2
        (by show 8 * (ts ++ [e]).length + 1 ≤ n; omega) rfl he hf
      rw [pm_bind_ok (found_miss hs (by rw [ht]; decide))]
      dsimp only
      rw [pm_bind_ok (popTok_hit hs), ht]
      dsimp only
      rw [pm_bind_ok himp]
      exact ⟨is, s3, e3, t3⟩

end Ccml.Lang
