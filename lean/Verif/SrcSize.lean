import Verif.SrcFits
import Verif.BuildFacts
import Verif.Props.Lexer
/-!
How much a source text of a given length can declare: every declaration, argument and local variable
takes a token of its own, and every token a byte of the text.
-/
namespace Ccml.Size
open Src (varsS varsB Small)

/-! ### Tokens the parser eats -/

/-- With `c` tokens eaten before, `x` leaves `f a` eaten tokens behind if it returns `a`. -/
def Pays {α : Type} (c : Nat) (x : PM α) (f : α → Nat) : Prop :=
  ∀ s a s', x s = .ok (a, s') → s'.toks.length + f a ≤ s.toks.length + c

variable {α β : Type} {c : Nat}

theorem Pays.bind {x : PM α} {k : α → PM β} {f : α → Nat} {g : β → Nat} (h : Pays c x f)
    (hk : ∀ a, Pays (f a) (k a) g) : Pays c (x >>= k) g := by
  intro s b s' h2
  rw [pm_bind] at h2
  split at h2
  · cases h2
  · rename_i a s1 h1
    have := h s a s1 h1
    have := hk a s1 b s' h2
    omega

theorem Pays.pure {a : α} {f : α → Nat} (h : f a ≤ c) : Pays c (Pure.pure a : PM α) f := by
  intro s b s' h2
  cases h2
  omega

theorem Pays.keep {x : PM α} (h : Pays 0 x fun _ => 0) : Pays c x fun _ => c := fun s a s' hx => by
  have := h s a s' hx
  dsimp only at this ⊢
  omega

theorem Pays.less {x : PM α} {f g : α → Nat} (h : Pays c x f) (k : ∀ a, g a ≤ f a) : Pays c x g :=
  fun s a s' hx => by
    have := h s a s' hx
    have := k a
    omega

theorem pays_fault {e : Fault} {f : α → Nat} : Pays c (pFault e : PM α) f := fun _ _ _ h => by cases h

theorem pays_errTok {l : SrcLine} {pre post : String} {t : Token} {r : α × PState} :
    (errTok l pre t post : Comp (α × PState)) ≠ .ok r := by
  unfold errTok onError
  split <;> nofun

theorem pays_err {l : SrcLine} {pre post : String} {t : Token} {f : α → Nat} :
    Pays c (pErr l pre t post : PM α) f := fun _ _ _ h => absurd h pays_errTok

theorem pays_errHere {pre post : String} {t : Token} {f : α → Nat} :
    Pays c (pErrHere pre t post : PM α) f := fun _ _ _ h => absurd h pays_errTok

theorem pays_popTok : Pays c popTok fun _ => c + 1 := by
  intro s a s' h
  unfold popTok at h
  split at h
  · cases h
  · rename_i t ts e
    cases h
    rw [e, List.length_cons]
    dsimp only
    omega

theorem pays_nextType : Pays c nextType fun _ => c := by
  intro s a s' h
  unfold nextType at h
  split at h
  · cases h
  · cases h
    exact Nat.le_refl _

theorem pays_peekTok : Pays c peekTok fun _ => c := by
  intro s a s' h
  unfold peekTok at h
  split at h
  · cases h
  · cases h
    exact Nat.le_refl _

theorem pays_found {ty : Tok} : Pays c (found ty) fun o => c + if o.isSome then 1 else 0 := by
  intro s a s' h
  unfold found at h
  split at h
  · cases h
  · rename_i t ts e
    split at h
    · cases h
      rw [e, List.length_cons]
      simp
      omega
    · cases h
      simp

theorem pays_popType {ty : Tok} : Pays c (popType ty) fun _ => c + 1 := by
  intro s a s' h
  unfold popType at h
  split at h
  · cases h
  · rename_i t ts e
    split at h
    · cases h
      rw [e, List.length_cons]
      dsimp only
      omega
    · unfold unexpectedToken onError at h
      split at h <;> cases h

theorem skipEols_go : ∀ {ts : List Token} {l : SrcLine} {ts' : List Token} {l' : SrcLine},
    skipEols.go ts l = .ok (ts', l') → ts'.length ≤ ts.length
  | [], _, _, _, h => by cases h
  | t :: ts, l, ts', l', h => by
    rw [skipEols.go] at h
    split at h
    · have := skipEols_go h
      rw [List.length_cons]
      omega
    · cases h
      exact Nat.le_refl _

theorem pays_skipEols : Pays c skipEols fun _ => c := by
  intro s a s' h
  unfold skipEols at h
  split at h
  · cases h
  · rename_i ts l e
    cases h
    have := skipEols_go e
    dsimp only
    omega

theorem pays_pushExp {e : PExpr} : Pays c (pushExp e) fun _ => c := by
  intro s a s' h
  cases h
  exact Nat.le_refl _

theorem pays_popExp {e : Fault} : Pays c (popExp e) fun _ => c := by
  intro s a s' h
  unfold popExp at h
  split at h
  · cases h
  · cases h
    exact Nat.le_refl _

theorem pays_opPush {op : Token} {tide : Nat} : Pays c (opPush op tide) fun _ => c := by
  intro s a s' h
  unfold opPush at h
  split at h
  · cases h
  · cases h
    exact Nat.le_refl _

theorem pays_opPopAll {tide : Nat} : Pays c (opPopAll tide) fun _ => c := by
  intro s a s' h
  unfold opPopAll at h
  split at h
  · cases h
  · cases h
    exact Nat.le_refl _

theorem pays_get : Pays c (get : PM PState) fun _ => c := by
  intro s a s' h
  cases h
  exact Nat.le_refl _

theorem pays_isOperator : Pays c isOperator fun _ => c := .bind pays_nextType fun _ => .pure (Nat.le_refl _)

/-! ### Expressions -/

/-- The functions of the expressions eat tokens. -/
structure ExprPays (n : Nat) : Prop where
  exprEx : ∀ c tide, Pays c (parseExprEx n tide) fun _ => c
  tail : ∀ c tide, Pays c (parseTail n tide) fun _ => c
  post : ∀ c, Pays c (parsePostfix n) fun _ => c
  lhs : ∀ c, Pays c (parseLhs n) fun _ => c
  expr : ∀ c, Pays c (parseExpr n) fun _ => c
  exprList : ∀ c, Pays c (parseExprList n) fun _ => c
  callArgs : ∀ c, Pays c (parseCallArgs n) fun _ => c

/-- Tokens eaten may be forgotten. -/
theorem Pays.down {c d : Nat} {x : PM α} {f : α → Nat} (h : Pays c x f) (k : c ≤ d) : Pays d x f :=
  fun s a s' hx => by
    have := h s a s' hx
    omega

theorem exprPays : ∀ n, ExprPays n
  | 0 => ⟨fun _ _ => pays_fault, fun _ _ => pays_fault, fun _ => pays_fault, fun _ => pays_fault,
      fun _ => pays_fault, fun _ => pays_fault, fun _ => pays_fault⟩
  | n + 1 => by
    have ih := exprPays n
    constructor
    · intro c tide
      unfold parseExprEx
      refine .bind pays_found fun o => ?_
      cases o with
      | some t => exact .bind (ih.exprEx _ _) fun _ => (pays_opPush).down (by simp)
      | none =>
        refine .bind pays_found fun o => ?_
        cases o with
        | some t =>
          exact .bind (ih.exprEx _ _) fun _ => .bind pays_popExp fun _ => pays_pushExp.down (by simp)
        | none => exact .bind (ih.lhs _) fun _ => .bind (ih.post _) fun _ => (ih.tail _ _).down (by simp)
    · intro c tide
      unfold parseTail
      refine .bind pays_isOperator fun b => ?_
      cases b with
      | true => exact .bind pays_popTok fun _ => .bind pays_opPush fun _ => (ih.exprEx c _).down (by omega)
      | false => exact .pure (Nat.le_refl _)
    · intro c
      unfold parsePostfix
      refine .bind pays_found fun o => ?_
      cases o with
      | some t =>
        exact .bind pays_popExp fun _ => .bind (ih.expr _) fun _ => .bind pays_pushExp fun _ =>
          .bind pays_popType fun _ => (ih.post c).down (by omega)
      | none =>
        refine .bind pays_found fun o => ?_
        cases o with
        | some t =>
          exact .bind (ih.callArgs _) fun _ => .bind pays_popExp fun _ => .bind pays_pushExp fun _ =>
            (ih.post c).down (by omega)
        | none => exact .pure (by simp)
    · intro c
      unfold parseLhs
      refine .bind pays_found fun o => ?_
      cases o with
      | some t =>
        exact .bind (ih.exprList _) fun _ => .bind pays_pushExp fun _ => .bind pays_popType fun _ =>
          .pure (by omega)
      | none =>
        refine .bind pays_found fun o => ?_
        cases o with
        | some t =>
          exact .bind (ih.expr _) fun _ => .bind pays_pushExp fun _ => .bind pays_popType fun _ => .pure (by omega)
        | none =>
          refine .bind pays_found fun o => ?_
          cases o with
          | some t =>
            refine .bind pays_found fun o => ?_
            cases o with
            | some d => exact .bind pays_popType fun _ => (pays_pushExp (c := c)).down (by omega)
            | none => exact (pays_pushExp (c := c)).down (by omega)
          | none =>
            refine .bind pays_popTok fun t => ?_
            cases h : literalNode t with
            | some e => exact (pays_pushExp (c := c)).down (by omega)
            | none => exact pays_errHere
    · intro c
      unfold parseExpr
      exact .bind pays_get fun _ => .bind (ih.exprEx _ _) fun _ => .bind pays_opPopAll fun _ => pays_popExp
    · intro c
      unfold parseExprList
      refine .bind (ih.expr _) fun e => .bind pays_found fun o => ?_
      cases o with
      | some t => exact .bind (ih.exprList _) fun _ => .pure (by omega)
      | none => exact .pure (by omega)
    · intro c
      unfold parseCallArgs
      refine .bind pays_found fun o => ?_
      cases o with
      | some t => exact .pure (by omega)
      | none => exact .bind (ih.exprList _) fun _ => .bind pays_popType fun _ => .pure (by omega)

/-! ### Statements -/

theorem pays_declVar {n : Nat} : Pays c (parseDeclVar n) fun _ => c + 1 := by
  unfold parseDeclVar
  refine .bind pays_popType fun _ => .bind pays_found fun o => ?_
  cases o with
  | some t => exact .bind ((exprPays n).expr _) fun _ => .pure (by omega)
  | none => exact .pure (by omega)

theorem pays_condition {n : Nat} : Pays c (parseCondition n) fun _ => c := by
  unfold parseCondition
  exact .bind pays_popType fun _ => .bind ((exprPays n).expr _) fun _ => .bind pays_popType fun _ =>
    .bind pays_popType fun _ => .pure (by omega)

theorem pays_forHead {n : Nat} : Pays c (parseForHead n) fun _ => c := by
  unfold parseForHead
  exact .bind pays_popType fun _ => .bind pays_popType fun _ => .bind pays_popType fun _ =>
    .bind ((exprPays n).expr _) fun _ => .bind pays_popType fun _ => .bind ((exprPays n).expr _) fun _ =>
    .bind pays_popType fun _ => .bind pays_popType fun _ => .pure (by omega)

theorem pays_return {n : Nat} {t : Token} : Pays c (parseReturn n t) fun s => c + varsS s := by
  unfold parseReturn
  refine .bind pays_peekTok fun p => ?_
  split
  · exact .pure (by simp [varsS])
  · exact .bind ((exprPays n).expr _) fun _ => .pure (by simp [varsS])

theorem pays_compound {n : Nat} {t : Token} : Pays c (parseCompound n t) fun s => c + varsS s := by
  unfold parseCompound
  refine .bind pays_popTok fun _ => .bind pays_found fun o => ?_
  cases o with
  | some t => exact .bind ((exprPays n).expr _) fun _ => .pure (by simp [varsS]; omega)
  | none => exact fun _ _ _ h => by cases h

theorem pays_named {n : Nat} {t : Token} : Pays c (parseNamed n t) fun s => c + varsS s := by
  unfold parseNamed
  refine .bind pays_peekTok fun p => ?_
  split
  · exact pays_compound
  · exact pays_compound
  · exact pays_compound
  · exact pays_compound
  · unfold parseMemberAssign
    exact .bind pays_popType fun _ => .bind pays_popType fun _ => .bind pays_popType fun _ =>
      .bind ((exprPays n).expr _) fun _ => .pure (by simp [varsS]; omega)
  · unfold parseAssign
    exact .bind pays_popTok fun _ => .bind ((exprPays n).expr _) fun _ => .pure (by simp [varsS])
  · exact .bind pays_popTok fun _ => .bind ((exprPays n).callArgs _) fun _ => .pure (by simp [varsS])
  · unfold parseArraySet
    exact .bind pays_popTok fun _ => .bind ((exprPays n).expr _) fun _ => .bind pays_popType fun _ =>
      .bind pays_popType fun _ => .bind ((exprPays n).expr _) fun _ => .pure (by simp [varsS]; omega)
  · exact pays_errHere

/-- The functions of the statements eat a token for every variable. -/
structure StmtPays (n : Nat) : Prop where
  stmt : ∀ c, Pays c (parseStmt n) fun s => c + varsS s
  kind : ∀ c t, Pays c (parseStmtKind n t) fun s => c + varsS s
  block : ∀ c, Pays c (parseBlock n) fun ss => c + varsB ss
  thn : ∀ c, Pays c (parseThen n) fun r => c + varsB r.1

theorem stmtPays : ∀ n, StmtPays n
  | 0 => ⟨fun _ => pays_fault, fun _ _ => pays_fault, fun _ => pays_fault, fun _ => pays_fault⟩
  | n + 1 => by
    have ih := stmtPays n
    constructor
    · intro c
      unfold parseStmt
      exact .bind pays_skipEols fun _ => .bind pays_popTok fun _ => .bind (ih.kind _ _) fun _ =>
        .bind pays_popType fun _ => .bind pays_skipEols fun _ => .pure (by omega)
    · intro c t
      unfold parseStmtKind
      split
      · exact .bind pays_declVar fun _ => .pure (by simp [varsS])
      · exact pays_named
      · refine .bind pays_condition fun _ => .bind (ih.thn _) fun r => ?_
        obtain ⟨thn, b⟩ := r
        cases b with
        | true => exact .bind (ih.block _) fun _ => .pure (by simp only [varsS]; omega)
        | false => exact .pure (by simp [varsS, varsB])
      · exact .bind pays_condition fun _ => .bind (ih.block _) fun _ => .pure (by simp [varsS])
      · refine .bind pays_forHead fun _ => .bind (ih.block _) fun _ => .pure (by simp [varsS])
      · exact pays_return
      · exact pays_errHere
    · intro c
      unfold parseBlock
      refine .bind pays_found fun o => ?_
      cases o with
      | some t => exact .pure (by simp [varsB])
      | none => exact .bind (ih.stmt _) fun _ => .bind (ih.block _) fun _ => .pure (by simp only [varsB]; omega)
    · intro c
      unfold parseThen
      refine .bind pays_found fun o => ?_
      cases o with
      | some t => exact .pure (by simp [varsB])
      | none =>
        refine .bind pays_found fun o => ?_
        cases o with
        | some t => exact .bind pays_popType fun _ => .pure (by simp [varsB]; omega)
        | none => exact .bind (ih.stmt _) fun _ => .bind (ih.thn _) fun _ => .pure (by simp only [varsB]; omega)

theorem pays_body : ∀ {n c : Nat}, Pays c (parseBody n) fun r => c + varsB r.1
  | 0, _ => pays_fault
  | n + 1, c => by
    unfold parseBody
    refine .bind pays_found fun o => ?_
    cases o with
    | some t => exact .pure (by simp [varsB])
    | none => exact .bind ((stmtPays n).stmt _) fun _ => .bind pays_body fun _ => .pure (by simp only [varsB]; omega)

theorem pays_argNames : ∀ {n c : Nat}, Pays c (parseArgNames n) fun as => c + as.length
  | 0, _ => pays_fault
  | n + 1, c => by
    unfold parseArgNames
    refine .bind pays_popType fun _ => .bind pays_found fun o => ?_
    cases o with
    | some t => exact .bind pays_argNames fun _ => .pure (by simp only [List.length_cons]; omega)
    | none => exact .pure (by simp)

theorem pays_args {n : Nat} : Pays c (parseArgs n) fun as => c + as.length := by
  unfold parseArgs
  refine .bind pays_popType fun _ => .bind pays_found fun o => ?_
  cases o with
  | some t => exact .pure (by simp; omega)
  | none => exact .bind pays_argNames fun _ => .bind pays_popType fun _ => .pure (by omega)

/-- What a declaration takes: itself, and the arguments and variables of a function. -/
def weight {D : Type} : Item D → Nat
  | .func f => 1 + f.args.length + varsB f.body
  | _ => 1

/-- What the declarations of a program take. -/
def weights {D : Type} : List (Item D) → Nat
  | [] => 0
  | x :: xs => weight x + weights xs

theorem weights_append {D : Type} : ∀ p q : List (Item D), weights (p ++ q) = weights p + weights q
  | [], _ => by simp [weights]
  | _ :: p, q => by simp [weights, weights_append p q, Nat.add_assoc]

theorem weights_length {D : Type} : ∀ p : List (Item D), p.length ≤ weights p
  | [] => Nat.le_refl _
  | x :: p => by
    have := weights_length p
    have : 1 ≤ weight x := by cases x <;> simp [weight]; omega
    simp [weights]
    omega

theorem weights_mem {D : Type} {x : Item D} : ∀ {p : List (Item D)}, x ∈ p → weight x ≤ weights p
  | y :: p, h => by
    rcases List.mem_cons.1 h with rfl | h
    · simp [weights]
    · have := weights_mem h
      simp [weights]
      omega

theorem pays_function {n : Nat} : Pays c (parseFunction n) fun f => c + (1 + f.args.length + varsB f.body) := by
  unfold parseFunction
  refine .bind pays_popType fun _ => .bind pays_args fun _ => .bind pays_popType fun _ =>
    .bind pays_body fun r => ?_
  exact .pure (by simp only; omega)

theorem pays_import {fs : Str → Option Str} {cur : Source} : Pays c (parseImport fs cur) fun _ => c := by
  unfold parseImport
  refine (Pays.bind (f := fun _ => c) (pays_popType.less (by simp)) fun t => ?_)
  intro s a s' h
  dsimp only at h
  split at h
  · cases h
    exact Nat.le_refl _
  · exact absurd h pays_errTok

theorem pays_items {fs : Str → Option Str} {cur : Source} : ∀ {n c : Nat},
    Pays c (parseItems fs cur n) fun p => c + weights p
  | 0, _ => pays_fault
  | n + 1, c => by
    unfold parseItems
    refine .bind pays_found fun o => ?_
    cases o with
    | some t => exact .pure (by simp [weights])
    | none =>
      refine .bind pays_popTok fun t => ?_
      simp only [Option.isSome_none, Bool.false_eq_true, if_false, Nat.add_zero]
      split
      · exact (pays_items (c := c)).down (by omega)
      · exact .bind pays_declVar fun _ => .bind pays_items fun _ => .pure (by simp only [weights, weight]; omega)
      · exact .bind pays_declVar fun _ => .bind pays_items fun _ => .pure (by simp only [weights, weight]; omega)
      · exact .bind pays_function fun _ => .bind pays_items fun _ => .pure (by simp only [weights, weight]; omega)
      · exact .bind pays_import fun _ => (pays_items (c := c)).down (by omega)
      · exact .bind pays_popTok fun _ => pays_err

theorem parse_weight {fs : Str → Option Str} {cur : Source} {srcs : List Source} {left : List PExpr}
    {toks : List Token} {p : Prog Unit} {s : PState} (h : parse fs cur srcs left toks = .ok (p, s)) :
    weights p ≤ toks.length := by
  have := pays_items (c := 0) _ _ _ h
  dsimp only at this
  omega

/-! ### Bytes the lexer eats -/

theorem spells_pos {fl : FloatOps} {w : Str} {l : SrcLine} {t : Token} (h : Spells fl w l t) : 0 < w.length := by
  cases h with
  | keyword hk =>
    cases w with
    | nil => exact absurd hk (by rw [show keywordOf [] = none by decide +kernel]; nofun)
    | cons => simp
  | symbol hm =>
    cases w with
    | nil => exact absurd hm (by
        intro hm
        have : ∀ x ∈ symbolTable, x.1 ≠ [] := by decide +kernel
        exact this _ hm rfl)
    | cons => simp
  | name => simp
  | string => simp
  | int hw => exact List.length_pos_iff.2 hw
  | float => simp; omega

theorem reads_length {fl : FloatOps} {file n : Nat} {s : Str} {ts : List Token} (h : Reads fl file n s ts) :
    ts.length ≤ s.length + 1 := by
  induction h with
  | eof => simp
  | nul => simp
  | blank _ _ ih => simp; omega
  | eol _ ih => simp; omega
  | comment _ _ _ ih => simp; omega
  | token hs _ ih =>
    have := spells_pos hs
    simp
    omega

theorem lex_length {fl : FloatOps} {file : Nat} {text : Str} {ts : List Token} (h : lex fl file text = .ok ts) :
    ts.length ≤ text.length + 1 :=
  reads_length (lexLoop_reads fl file h)

/-! ### The sources -/

/-- The bytes of all sources, and one for each of them. -/
def bytes : List Source → Nat
  | [] => 0
  | s :: ss => (s.data.getD []).length + 1 + bytes ss

theorem bytes_append : ∀ xs ys : List Source, bytes (xs ++ ys) = bytes xs + bytes ys
  | [], _ => by simp [bytes]
  | x :: xs, ys => by simp [bytes, bytes_append xs ys]; omega

theorem bytes_drop {i : Nat} {src : Source} {text : Str} : ∀ {ss : List Source}, ss[i]? = some src →
    src.data = some text → bytes (ss.drop i) = text.length + 1 + bytes (ss.drop (i + 1)) := by
  intro ss h hd
  obtain ⟨hi, rfl⟩ := List.getElem?_eq_some_iff.1 h
  rw [List.drop_eq_getElem_cons hi, bytes, hd]
  rfl

theorem rounds_weight {fs : Str → Option Str} {fl : FloatOps} {i : Nat} {ss ss' : List Source}
    {left : List PExpr} {parts : List (Prog Unit)} (h : Rounds fs fl i ss left parts ss')
    (hl : Made.Es LexTok left) :
    weights parts.flatten ≤ bytes (ss'.drop i) := by
  induction h with
  | done => simp [weights]
  | @next i ss left part ss1 left1 parts ss2 h1 h2 ih =>
    obtain ⟨k1, k2, k3⟩ := h1.made hl
    obtain ⟨m1, _⟩ := h2.made k3
    obtain ⟨src, text, toks, s, hs, hd, hx, hp, rfl, rfl⟩ := h1
    have h3 := ih k3
    have h4 := parse_weight hp
    have h5 := lex_length hx
    obtain ⟨new, e, _⟩ := (k1.trans m1).news
    have hs2 : ss2[i]? = some src := by
      rw [e, List.getElem?_append_left (List.getElem?_eq_some_iff.1 hs).1, hs]
    rw [bytes_drop hs2 hd, List.flatten_cons, weights_append]
    omega

/-- The declarations of the texts take no more than their bytes, and one for each text. -/
theorem build_weight {fs : Str → Option Str} {fl : FloatOps} {n : Nat} {srcs srcs' : List Source}
    {acc p : Prog Unit} (h : buildSources fs fl n 0 srcs [] acc = .ok (p, srcs')) :
    weights p ≤ weights acc + bytes srcs' := by
  obtain ⟨parts, rfl, hr⟩ := build_rounds h
  have := rounds_weight hr (by simp only [Made.Es])
  rw [weights_append]
  simpa using this

theorem weights_registered : ∀ sys : List (Str × Option Nat), weights (registered sys) = sys.length
  | [] => rfl
  | s :: sys => by
    have := weights_registered sys
    simp only [registered, List.map_cons, weights, weight, List.length_cons] at this ⊢
    omega

/-- Programs from texts of less than 2³¹ bytes keep the limits of the 32-bit counters. -/
theorem build_small {fs : Str → Option Str} {fl : FloatOps} {n : Nat} {srcs srcs' : List Source}
    {sys : List (Str × Option Nat)} {p : Prog Unit}
    (h : buildSources fs fl n 0 srcs [] (registered sys) = .ok (p, srcs'))
    (hb : sys.length + bytes srcs' < 2147483648) : Small p := by
  have h1 := build_weight h
  rw [weights_registered] at h1
  refine ⟨?_, fun f hf => ?_⟩
  · have := weights_length p
    omega
  · have := weights_mem hf
    simp only [weight] at this
    omega

end Ccml.Size
