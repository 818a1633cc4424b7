import Verif.Files
import Verif.BlameSaid
import Verif.LexStep
import Verif.TokFacts
/-!
The lines of the messages of lexer, parser, checks and optimizer (proof infrastructure).
-/
namespace Ccml.Blame

variable {α β : Type}

/-! ### The lexer -/

theorem scanString_err {s : List Byte} {e : CErr} : scanString s ≠ .error (.err e) := by
  induction s with
  | nil => unfold scanString; nofun
  | cons c t ih =>
    unfold scanString
    split
    · nofun
    · split
      · nofun
      · split
        · rename_i h
          intro h2
          cases h2
          exact ih h
        · nofun
        · nofun

theorem scanWhile_err {p : Byte → Bool} {s : List Byte} {e : CErr} : scanWhile p s ≠ .error (.err e) := by
  induction s with
  | nil => unfold scanWhile; nofun
  | cons c t ih =>
    unfold scanWhile
    split
    · split
      · rename_i h
        intro h2
        cases h2
        exact ih h
      · nofun
    · nofun

theorem munch_err : ∀ {s : List Byte} {k : Str} {e : CErr}, munch s k ≠ .error (.err e)
  | [], _, _ => by unfold munch; nofun
  | c :: t, [], _ => by unfold munch; split <;> nofun
  | c :: t, k :: ks, e => by
    unfold munch
    split
    · exact munch_err
    · nofun

theorem munchAny_err {s : List Byte} {e : CErr} : ∀ {ks : List (Str × Tok)}, munchAny s ks ≠ .error (.err e)
  | [] => by unfold munchAny; nofun
  | (k, t) :: ks => by
    unfold munchAny
    split
    · rename_i h
      intro h2
      cases h2
      exact munch_err h
    · nofun
    · exact munchAny_err

theorem scanNumber_err {s : List Byte} {e : CErr} : scanNumber s ≠ .error (.err e) := by
  unfold scanNumber
  split
  · rename_i h
    intro h2
    cases h2
    exact scanWhile_err h
  · nofun
  · split
    · split
      · rename_i h
        intro h2
        cases h2
        exact scanWhile_err h
      · nofun
    · nofun

theorem numLoop_err {e : CErr} : ∀ {s : Str} {v f : I32}, numLoop s v f ≠ .error (.err e)
  | [], _, _ => by unfold numLoop; nofun
  | c :: t, v, f => by
    unfold numLoop
    split
    · split
      · exact numLoop_err
      · nofun
    · split
      · split
        · nofun
        · split
          · nofun
          · split
            · nofun
            · exact numLoop_err
      · nofun

theorem numToken_err {fl : FloatOps} {s : Str} {l : SrcLine} {e : CErr} : numToken fl s l ≠ .error (.err e) := by
  unfold numToken
  split
  · rename_i h
    intro h2
    cases h2
    exact numLoop_err h
  · split <;> nofun

/-- The lexer reports errors for the line it is in. -/
theorem lexStep_err {fl : FloatOps} {file line : Nat} {s : List Byte} {e : CErr}
    (h : lexStep fl file s line = .error (.err e)) : e.line = ⟨file, line⟩ := by
  cases s with
  | nil => cases h
  | cons c t =>
    dsimp only [lexStep] at h
    split at h
    · cases h
    split at h
    · cases h
    split at h
    · split at h
      · rename_i h1; cases h; exact absurd h1 scanString_err
      · cases h; rfl
      · cases h
    split at h
    · split at h
      · rename_i h1; cases h; exact absurd h1 scanWhile_err
      · cases h
      · cases h
    split at h
    · rename_i h1; cases h; exact absurd h1 munchAny_err
    · cases h
    split at h
    · cases h
    split at h
    · cases h
    split at h
    · split at h
      · cases h
      · split at h <;> cases h
    split at h
    · split at h
      · rename_i h1; cases h; exact absurd h1 scanNumber_err
      · split at h
        · rename_i h1; cases h; exact absurd h1 numToken_err
        · cases h
    split at h
    · split at h
      · rename_i h1; cases h; exact absurd h1 scanWhile_err
      · cases h
    · cases h; rfl

/-- The bytes that end a line for the lexer; a NUL does so behind a comment. -/
def brk (c : Byte) : Bool := c == ch '\n' || c == 0

theorem count_cons_le {c : Byte} {s : Str} : s.countP brk ≤ (c :: s).countP brk := by
  rw [List.countP_cons]
  omega

theorem count_brk {c : Byte} {s : Str} (h : c = ch '\n' ∨ c = 0) : (c :: s).countP brk = s.countP brk + 1 := by
  rw [List.countP_cons_of_pos]
  rcases h with rfl | rfl <;> rfl

theorem lexLoop_err {fl : FloatOps} {file : Nat} {e : CErr} : ∀ {n : Nat} {text : Str} {line : Nat},
    lexLoop fl file n (text ++ [0]) line = .error (.err e) →
    e.line.file = file ∧ line ≤ e.line.line ∧ e.line.line ≤ line + text.countP brk
  | 0, _, _, h => by cases h
  | n + 1, text, line, h => by
    have hk := lexStep_kind fl file (s := text ++ [0]) ⟨text, rfl⟩ line
    simp only [lexLoop] at h
    generalize hst : lexStep fl file (text ++ [0]) line = o at hk h
    generalize hbuf : text ++ [0] = s at hk
    cases hk with
    | done => cases h
    | err =>
      cases h
      rw [lexStep_err hst]
      exact ⟨rfl, Nat.le_refl _, Nat.le_add_right _ _⟩
    | overflow => cases h
    | blank hb ht =>
      obtain ⟨t', rfl, rfl⟩ := cons_term ht hbuf.symm
      dsimp only at h
      split at h
      · rename_i hl
        cases h
        obtain ⟨k1, k2, k3⟩ := lexLoop_err hl
        refine ⟨k1, k2, Nat.le_trans k3 (Nat.add_le_add_left count_cons_le _)⟩
      · cases h
    | eol ht =>
      obtain ⟨t', rfl, rfl⟩ := cons_term ht hbuf.symm
      dsimp only at h
      split at h
      · rename_i hl
        cases h
        obtain ⟨k1, k2, k3⟩ := lexLoop_err hl
        rw [count_brk (.inl rfl)]
        exact ⟨k1, by omega, by omega⟩
      · cases h
    | comment hq hd ht =>
      rename_i q d r
      dsimp only at h
      by_cases hr : r = []
      · subst hr
        cases n with
        | zero => cases h
        | succ n => simp [lexLoop, lexStep] at h
      · have htr : Term r := by
          rcases ht with ⟨p, hp⟩
          cases p with
          | nil => simp at hp; exact absurd hp.2 hr
          | cons a p => simp at hp; exact ⟨p, hp.2⟩
        have e : (ch '#' :: q ++ [d]) ++ r = text ++ [0] := by rw [hbuf]; simp
        obtain ⟨t', rfl, rfl⟩ := append_term htr e
        split at h
        · rename_i hl
          cases h
          obtain ⟨k1, k2, k3⟩ := lexLoop_err hl
          have : (ch '#' :: q ++ [d] ++ t').countP brk ≥ 1 + t'.countP brk := by
            rw [List.append_assoc, List.countP_append, List.singleton_append, count_brk hd]
            omega
          exact ⟨k1, by omega, by omega⟩
        · cases h
    | token hsp _ _ ht =>
      obtain ⟨t', rfl, rfl⟩ := append_term ht hbuf.symm
      dsimp only at h
      split at h
      · rename_i hl
        cases h
        obtain ⟨k1, k2, k3⟩ := lexLoop_err hl
        rw [List.countP_append]
        exact ⟨k1, k2, by omega⟩
      · cases h

theorem spells_line {fl : FloatOps} {w : Str} {l : SrcLine} {t : Token} (h : Spells fl w l t) : t.line = l := by
  cases h <;> rfl

theorem reads_line {fl : FloatOps} {file n : Nat} {s : Str} {ts : List Token} (h : Reads fl file n s ts) :
    ∀ t ∈ ts, t.line.file = file ∧ n ≤ t.line.line ∧ t.line.line ≤ n + s.countP brk := by
  induction h with
  | eof | nul =>
    intro t ht
    rw [List.mem_singleton.1 ht]
    exact ⟨rfl, Nat.le_refl _, Nat.le_add_right _ _⟩
  | blank _ _ ih =>
    intro t ht
    obtain ⟨k1, k2, k3⟩ := ih t ht
    exact ⟨k1, k2, Nat.le_trans k3 (Nat.add_le_add_left count_cons_le _)⟩
  | eol _ ih =>
    intro t ht
    rw [count_brk (.inl rfl)]
    rcases List.mem_cons.1 ht with rfl | ht
    · exact ⟨rfl, Nat.le_succ _, by dsimp only [Token.plain]; omega⟩
    · obtain ⟨k1, k2, k3⟩ := ih t ht
      exact ⟨k1, by omega, by omega⟩
  | comment hq hd _ ih =>
    rename_i n q d s ts _
    have : (ch '#' :: q ++ d :: s).countP brk ≥ 1 + s.countP brk := by
      rw [List.countP_append, count_brk hd]
      omega
    intro t ht
    rcases List.mem_cons.1 ht with rfl | ht
    · exact ⟨rfl, Nat.le_succ _, by dsimp only [Token.plain]; omega⟩
    · obtain ⟨k1, k2, k3⟩ := ih t ht
      exact ⟨k1, by omega, by omega⟩
  | token hs _ ih =>
    intro t ht
    rw [List.countP_append]
    rcases List.mem_cons.1 ht with rfl | ht
    · rw [spells_line hs]
      exact ⟨rfl, Nat.le_refl _, Nat.le_add_right _ _⟩
    · obtain ⟨k1, k2, k3⟩ := ih t ht
      exact ⟨k1, k2, by omega⟩

/-! ### The parser -/

variable {T : Token → Prop}

/-- The tokens in the state of the parser. -/
def Known (T : Token → Prop) (s : PState) : Prop := (∃ t, T t ∧ s.line = t.line) ∧ ∀ t ∈ s.toks, T t

/-- A part of the parser whose messages are about tokens with `T`. -/
def Tells (T : Token → Prop) (x : PM α) : Prop := ∀ s, Known T s → match x s with
  | .ok (_, s') => Known T s'
  | .error (.err e) => Said T e
  | .error (.fault _) => True

theorem Tells.bind {x : PM α} {f : α → PM β} (h : Tells T x) (hf : ∀ a, Tells T (f a)) : Tells T (x >>= f) := by
  intro s hs
  have := h s hs
  rw [pm_bind]
  generalize x s = r at this
  match r, this with
  | .ok (a, s1), h1 => exact hf a s1 h1
  | .error (.err e), h1 => exact h1
  | .error (.fault _), _ => trivial

theorem Tells.pure (a : α) : Tells T (Pure.pure a : PM α) := fun _ hs => hs

theorem tells_fault {f : Fault} : Tells T (pFault f : PM α) := fun _ _ => trivial

theorem errTok_tells {l : SrcLine} {pre post : String} {t : Token} (ht : T t) (hl : l = t.line)
    (hq : Quotes (str pre) (str post)) :
    match (errTok l pre t post : Comp (α × PState)) with
    | .ok (_, s') => Known T s'
    | .error (.err e) => Said T e
    | .error (.fault _) => True := by
  cases h : (errTok l pre t post : Comp (α × PState)) with
  | ok x => exact absurd h Made.errTok_ne
  | error x =>
    cases x with
    | err e => exact errTok_said ht hl hq h
    | fault => trivial

/-- The same for a part that begins behind the token `t`. -/
def TellsAt (T : Token → Prop) (t : Token) (x : PM α) : Prop := ∀ s, Known T s → T t → s.line = t.line → match x s with
  | .ok (_, s') => Known T s'
  | .error (.err e) => Said T e
  | .error (.fault _) => True

theorem Tells.at {x : PM α} {t : Token} (h : Tells T x) : TellsAt T t x := fun s hs _ _ => h s hs

theorem TellsAt.bind {x : PM α} {f : α → PM β} {t : Token} (h : TellsAt T t x) (hf : ∀ a, Tells T (f a)) :
    TellsAt T t (x >>= f) := by
  intro s hs ht hl
  have := h s hs ht hl
  rw [pm_bind]
  generalize x s = r at this
  match r, this with
  | .ok (a, s1), h1 => exact hf a s1 h1
  | .error (.err e), h1 => exact h1
  | .error (.fault _), _ => trivial

theorem at_errHere {pre post : String} {t : Token} (hq : Quotes (str pre) (str post)) :
    TellsAt T t (pErrHere pre t post : PM α) := fun _ _ ht hl => errTok_tells ht hl hq

theorem tells_popThen {f : Token → PM β} (hf : ∀ t, TellsAt T t (f t)) : Tells T (popTok >>= f) := by
  intro s hs
  rw [pm_bind]
  unfold popTok
  cases h : s.toks with
  | nil => trivial
  | cons t ts =>
    have ht := hs.2 t (by simp [h])
    exact hf t _ ⟨⟨t, ht, rfl⟩, fun u hu => hs.2 u (by simp only at hu; simp [h, hu])⟩ ht rfl

theorem tells_popTok : Tells T popTok := by
  intro s hs
  unfold popTok
  cases h : s.toks with
  | nil => trivial
  | cons t ts => exact ⟨⟨t, hs.2 t (by simp [h]), rfl⟩, fun u hu => hs.2 u (by simp only at hu; simp [h, hu])⟩

theorem tells_nextType : Tells T nextType := by
  intro s hs
  unfold nextType
  cases h : s.toks with
  | nil => trivial
  | cons t ts => exact hs

theorem tells_peekTok : Tells T peekTok := by
  intro s hs
  unfold peekTok
  cases h : s.toks with
  | nil => trivial
  | cons t ts => exact hs

theorem tells_found {ty : Tok} : Tells T (found ty) := by
  intro s hs
  unfold found
  cases h : s.toks with
  | nil => trivial
  | cons t ts =>
    dsimp only
    by_cases ht : t.type = ty
    · rw [if_pos ht]
      exact ⟨⟨t, hs.2 t (by simp [h]), rfl⟩, fun u hu => hs.2 u (by simp only at hu; simp [h, hu])⟩
    · rw [if_neg ht]
      exact hs

theorem tells_popType {ty : Tok} : Tells T (popType ty) := by
  intro s hs
  unfold popType
  cases h : s.toks with
  | nil => trivial
  | cons t ts =>
    dsimp only
    by_cases ht : t.type = ty
    · rw [if_pos ht]
      exact ⟨⟨t, hs.2 t (by simp [h]), rfl⟩, fun u hu => hs.2 u (by simp only at hu; simp [h, hu])⟩
    · rw [if_neg ht]
      unfold unexpectedToken
      cases h1 : t.string with
      | error => trivial
      | ok a =>
        cases ty.name with
        | error => trivial
        | ok b =>
          refine ⟨t, _, hs.2 t (by simp [h]), rfl, rfl, .inr ⟨a, h1, ?_⟩⟩
          simpa using quoted (pre := str "unexpected token '") (w := a) (post := str "' expecting '" ++ (b ++ str "'"))
            ⟨by decide +kernel, by
              rw [List.head?_append, show (str "' expecting '").head? = some (ch '\'') by decide +kernel]; rfl⟩

theorem skipEols_go : ∀ {ts us : List Token} {l l' : SrcLine}, (∃ t, T t ∧ l = t.line) → (∀ t ∈ ts, T t) →
    skipEols.go ts l = .ok (us, l') → (∃ t, T t ∧ l' = t.line) ∧ ∀ t ∈ us, T t
  | [], us, l, l', _, _, h => by cases h
  | t :: ts, us, l, l', hl, ht, h => by
    rw [skipEols.go] at h
    split at h
    · exact skipEols_go ⟨t, ht t (by simp), rfl⟩ (fun u hu => ht u (List.mem_cons_of_mem _ hu)) h
    · cases h
      exact ⟨hl, ht⟩

theorem skipEols_err : ∀ {ts : List Token} {l : SrcLine} {e : CErr}, skipEols.go ts l ≠ .error (.err e)
  | [], _, _ => nofun
  | t :: ts, l, e => by
    rw [skipEols.go]
    split
    · exact skipEols_err
    · nofun

theorem tells_skipEols : Tells T skipEols := by
  intro s hs
  unfold skipEols
  cases h : skipEols.go s.toks s.line with
  | error x =>
    cases x with
    | err => exact absurd h skipEols_err
    | fault => trivial
  | ok r => exact skipEols_go hs.1 hs.2 h

theorem tells_pushExp {e : PExpr} : Tells T (pushExp e) := fun _ hs => hs

theorem tells_popExp {f : Fault} : Tells T (popExp f) := by
  intro s hs
  unfold popExp
  cases s.exps <;> first | trivial | exact hs

theorem reduceOp_err {o : Token} {es : List PExpr} {e : CErr} : reduceOp o es ≠ .error (.err e) := by
  unfold reduceOp
  split
  · split <;> nofun
  · split
    · split <;> nofun
    · nofun

theorem reduceLoop_err {prec tide : Nat} {e : CErr} : ∀ {os : List Token} {es : List PExpr},
    reduceLoop prec tide os es ≠ .error (.err e)
  | [], _ => nofun
  | o :: os, es => by
    rw [reduceLoop]
    split
    · split
      · nofun
      · split
        · rename_i h
          intro h2
          cases h2
          exact reduceOp_err h
        · exact reduceLoop_err
    · nofun

theorem tells_opPush {t : Token} {tide : Nat} : Tells T (opPush t tide) := by
  intro s hs
  unfold opPush
  cases h : reduceLoop (opType t.type) tide s.ops s.exps with
  | error x =>
    cases x with
    | err => exact absurd h reduceLoop_err
    | fault => trivial
  | ok r => exact hs

theorem tells_opPopAll {tide : Nat} : Tells T (opPopAll tide) := by
  intro s hs
  unfold opPopAll
  cases h : reduceLoop 0 tide s.ops s.exps with
  | error x =>
    cases x with
    | err => exact absurd h reduceLoop_err
    | fault => trivial
  | ok r => exact hs

/-- Go through a part of the parser. -/
macro "tells" : tactic => `(tactic| repeat' (first
  | assumption
  | exact tells_fault | exact tells_popTok | exact tells_nextType
  | exact tells_peekTok | exact tells_found | exact tells_popType | exact tells_skipEols | exact tells_pushExp
  | exact tells_popExp | exact tells_opPush | exact tells_opPopAll | exact Tells.pure _
  | refine Tells.bind ?_ fun _ => ?_
  | split))

theorem tells_isOperator : Tells T isOperator := by
  unfold isOperator
  tells

/-- The functions of the expressions have messages about tokens with `T` only. -/
structure ExprTells (T : Token → Prop) (n : Nat) : Prop where
  exprEx : ∀ tide, Tells T (parseExprEx n tide)
  tail : ∀ tide, Tells T (parseTail n tide)
  post : Tells T (parsePostfix n)
  lhs : Tells T (parseLhs n)
  expr : Tells T (parseExpr n)
  exprList : Tells T (parseExprList n)
  callArgs : Tells T (parseCallArgs n)

theorem exprTells : ∀ n, ExprTells T n
  | 0 => ⟨fun _ => tells_fault, fun _ => tells_fault, tells_fault, tells_fault, tells_fault, tells_fault, tells_fault⟩
  | n + 1 => by
    obtain ⟨h1, h2, h3, h4, h5, h6, h7⟩ := exprTells n
    have h8 := tells_isOperator (T := T)
    constructor
    · intro tide
      have := h1 tide
      have := h2 tide
      unfold parseExprEx
      tells
    · intro tide
      have := h1 tide
      unfold parseTail
      tells
    · unfold parsePostfix
      tells
    · unfold parseLhs
      refine tells_found.bind fun o => ?_
      split
      · tells
      · refine tells_found.bind fun o => ?_
        split
        · tells
        · refine tells_found.bind fun o => ?_
          split
          · tells
          · refine tells_popThen fun t => ?_
            split
            · exact tells_pushExp.at
            · exact at_errHere (by decide +kernel)
    · unfold parseExpr
      intro s hs
      rw [pm_bind]
      exact ((h1 s.ops.length).bind fun _ => tells_opPopAll.bind fun _ => tells_popExp) s hs
    · unfold parseExprList
      tells
    · unfold parseCallArgs
      tells

theorem tells_expr {n : Nat} : Tells T (parseExpr n) := (exprTells n).expr
theorem tells_callArgs {n : Nat} : Tells T (parseCallArgs n) := (exprTells n).callArgs

theorem tells_declVar {n : Nat} : Tells T (parseDeclVar n) := by
  have := tells_expr (T := T) (n := n)
  unfold parseDeclVar
  tells

theorem tells_compound {n : Nat} {t : Token} : Tells T (parseCompound n t) := by
  have := tells_expr (T := T) (n := n)
  unfold parseCompound
  tells
  intro s hs
  obtain ⟨t, ht, hl⟩ := hs.1
  exact ⟨t, _, ht, hl, rfl, .inl (by simp [plainMessages])⟩

theorem tells_named {n : Nat} {t : Token} : TellsAt T t (parseNamed n t) := by
  have h1 := tells_expr (T := T) (n := n)
  have h2 := tells_callArgs (T := T) (n := n)
  have h3 := tells_compound (T := T) (n := n) (t := t)
  unfold parseNamed parseMemberAssign parseArraySet parseAssign
  intro s hs ht hl
  rw [pm_bind]
  unfold peekTok
  cases h : s.toks with
  | nil => trivial
  | cons p ts =>
    dsimp only
    generalize p.type = ty
    cases ty <;> first
      | exact errTok_tells ht hl (by decide +kernel)
      | (refine (?_ : Tells T _) s hs; tells)

theorem tells_return {n : Nat} {t : Token} : Tells T (parseReturn n t) := by
  have h1 := tells_expr (T := T) (n := n)
  unfold parseReturn
  tells

theorem tells_condition {n : Nat} : Tells T (parseCondition n) := by
  have h1 := tells_expr (T := T) (n := n)
  unfold parseCondition
  tells

theorem tells_forHead {n : Nat} : Tells T (parseForHead n) := by
  have h1 := tells_expr (T := T) (n := n)
  unfold parseForHead
  tells

/-- The functions of the statements have messages about tokens with `T` only. -/
structure StmtTells (T : Token → Prop) (n : Nat) : Prop where
  stmt : Tells T (parseStmt n)
  kind : ∀ t, TellsAt T t (parseStmtKind n t)
  block : Tells T (parseBlock n)
  thn : Tells T (parseThen n)

theorem stmtTells : ∀ n, StmtTells T n
  | 0 => ⟨tells_fault, fun _ => by unfold parseStmtKind; exact tells_fault.at, tells_fault, tells_fault⟩
  | n + 1 => by
    obtain ⟨h1, h2, h3, h4⟩ := stmtTells n
    constructor
    · unfold parseStmt
      exact tells_skipEols.bind fun _ => tells_popThen fun t => (h2 t).bind fun _ => tells_popType.bind fun _ =>
        tells_skipEols.bind fun _ => .pure _
    · intro t
      have h5 := tells_declVar (T := T) (n := n)
      have h6 := tells_named (T := T) (n := n) (t := t)
      have h7 := tells_return (T := T) (n := n) (t := t)
      have h8 := tells_condition (T := T) (n := n)
      have h9 := tells_forHead (T := T) (n := n)
      unfold parseStmtKind
      generalize t.type = ty
      cases ty <;> first
        | exact h6
        | exact at_errHere (by decide +kernel)
        | (refine Tells.at ?_; tells)
    · unfold parseBlock
      tells
    · unfold parseThen
      tells

theorem tells_body : ∀ n, Tells T (parseBody n)
  | 0 => tells_fault
  | n + 1 => by
    have : Tells T (parseBody n) := tells_body n
    have := (stmtTells (T := T) n).stmt
    unfold parseBody
    tells

theorem tells_argNames : ∀ n, Tells T (parseArgNames n)
  | 0 => tells_fault
  | n + 1 => by
    have : Tells T (parseArgNames n) := tells_argNames n
    unfold parseArgNames
    tells

theorem tells_function (n : Nat) : Tells T (parseFunction n) := by
  have := tells_argNames (T := T) n
  have := tells_body (T := T) n
  unfold parseFunction parseArgs
  tells

theorem tells_import {fs : Str → Option Str} {cur : Source} : Tells T (parseImport fs cur) := by
  intro s hs
  unfold parseImport
  rw [pm_bind]
  have h1 := tells_popType (T := T) (ty := .STRING) s hs
  cases hp : popType .STRING s with
  | error x =>
    rw [hp] at h1
    cases x with
    | err => exact h1
    | fault => trivial
  | ok r =>
    obtain ⟨t, s1⟩ := r
    rw [hp] at h1
    dsimp only
    generalize loadSource fs s1.srcs (cstr (importedPath cur (cstr t.str))) = r
    match r with
    | (true, srcs) => exact h1
    | (false, _) =>
      exact errTok_tells (hs.2 t (List.mem_of_mem_head? (Files.popType_mem hp).1)) rfl (by decide +kernel)

theorem tells_last : Tells T (popTok >>= fun t => pErr t.line "unexpected token '" t "'" : PM α) := by
  intro s hs
  rw [pm_bind]
  unfold popTok
  cases h : s.toks with
  | nil => trivial
  | cons t ts => exact errTok_tells (hs.2 t (by simp [h])) rfl (by decide +kernel)

theorem tells_items {fs : Str → Option Str} {cur : Source} : ∀ n, Tells T (parseItems fs cur n)
  | 0 => tells_fault
  | n + 1 => by
    have ih : Tells T (parseItems fs cur n) := tells_items n
    have h1 := tells_declVar (T := T) (n := n)
    have h2 := tells_function (T := T) n
    have h3 := tells_import (T := T) (fs := fs) (cur := cur)
    unfold parseItems
    refine tells_found.bind fun o => ?_
    cases o with
    | some => exact .pure _
    | none =>
      refine tells_popTok.bind fun t => ?_
      dsimp only
      generalize t.type = ty
      cases ty <;> first | exact tells_last | tells

/-- The messages of the parser are about its tokens. -/
theorem parse_err {fs : Str → Option Str} {cur : Source} {srcs : List Source} {left : List PExpr} {toks : List Token}
    {e : CErr} (ht : ∀ t ∈ toks, T t) (h : parse fs cur srcs left toks = .error (.err e)) : Said T e := by
  cases toks with
  | nil => cases h
  | cons t ts =>
    have h0 := ht t (by simp)
    have h1 := tells_items (T := T) (fs := fs) (cur := cur) (parseFuel (t :: ts)) ⟨t :: ts, t.line, [], left, srcs⟩
      ⟨⟨t, h0, rfl⟩, ht⟩
    have : parseItems fs cur (parseFuel (t :: ts)) ⟨t :: ts, t.line, [], left, srcs⟩ = .error (.err e) := by
      rw [← h]
      unfold parse parseFuel
      rw [parseItems, pm_bind, pm_bind]
      unfold found
      dsimp only
      by_cases hty : t.type = .EOF
      · rw [if_pos hty, if_pos hty]
      · rw [if_neg hty, if_neg hty]
        rfl
    rw [this] at h1
    exact h1

end Ccml.Blame
