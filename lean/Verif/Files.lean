import Verif.Build
import Verif.ParserTree
/-!
A build asks for no other files than those its texts import (proof infrastructure).
-/
namespace Ccml.Files

variable {α β : Type}

/-- A part of the parser that only takes tokens away. -/
def Drops (x : PM α) : Prop := ∀ s a s', x s = .ok (a, s') → s'.toks <:+ s.toks ∧ s'.srcs = s.srcs

theorem Drops.bind {x : PM α} {f : α → PM β} (h : Drops x) (hf : ∀ a, Drops (f a)) : Drops (x >>= f) := by
  intro s b s' h2
  rw [pm_bind] at h2
  split at h2
  · cases h2
  · rename_i a s1 h1
    obtain ⟨k1, k2⟩ := h _ _ _ h1
    obtain ⟨k3, k4⟩ := hf a _ _ _ h2
    exact ⟨k3.trans k1, k4.trans k2⟩

theorem Drops.pure (a : α) : Drops (Pure.pure a : PM α) := by
  intro s b s' h
  cases h
  exact ⟨List.suffix_rfl, rfl⟩

theorem drops_fault {f : Fault} : Drops (pFault f : PM α) := fun _ _ _ h => by cases h

theorem drops_err {l : SrcLine} {pre post : String} {t : Token} : Drops (pErr l pre t post : PM α) :=
  fun _ _ _ h => absurd h Made.errTok_ne

theorem drops_errHere {pre post : String} {t : Token} : Drops (pErrHere pre t post : PM α) :=
  fun _ _ _ h => absurd h Made.errTok_ne

theorem drops_popTok : Drops popTok := by
  intro s a s' h
  unfold popTok at h
  split at h <;> cases h
  rename_i ts e
  exact ⟨e ▸ List.suffix_cons _ _, rfl⟩

theorem drops_nextType : Drops nextType := by
  intro s a s' h
  unfold nextType at h
  split at h <;> cases h
  exact ⟨List.suffix_rfl, rfl⟩

theorem drops_peekTok : Drops peekTok := by
  intro s a s' h
  unfold peekTok at h
  split at h <;> cases h
  exact ⟨List.suffix_rfl, rfl⟩

theorem drops_found {ty : Tok} : Drops (found ty) := by
  intro s a s' h
  unfold found at h
  split at h
  · cases h
  · rename_i ts e
    split at h <;> cases h
    · exact ⟨e ▸ List.suffix_cons _ _, rfl⟩
    · exact ⟨List.suffix_rfl, rfl⟩

theorem drops_popType {ty : Tok} : Drops (popType ty) := by
  intro s a s' h
  unfold popType at h
  split at h
  · cases h
  · rename_i t ts e
    split at h
    · cases h
      exact ⟨e ▸ List.suffix_cons _ _, rfl⟩
    · unfold unexpectedToken at h
      revert h
      cases t.string <;> cases ty.name <;> intro h <;> cases h

theorem skipEols_go : ∀ {ts us : List Token} {l l' : SrcLine}, skipEols.go ts l = .ok (us, l') → us <:+ ts
  | [], us, l, l', h => by cases h
  | t :: ts, us, l, l', h => by
    rw [skipEols.go] at h
    split at h
    · exact (skipEols_go h).trans (List.suffix_cons _ _)
    · cases h
      exact List.suffix_rfl

theorem drops_skipEols : Drops skipEols := by
  intro s a s' h
  unfold skipEols at h
  split at h
  · cases h
  · rename_i h1
    cases h
    exact ⟨skipEols_go h1, rfl⟩

theorem drops_pushExp {e : PExpr} : Drops (pushExp e) := by
  intro s a s' h
  cases h
  exact ⟨List.suffix_rfl, rfl⟩

theorem drops_popExp {f : Fault} : Drops (popExp f) := by
  intro s a s' h
  unfold popExp at h
  split at h <;> cases h
  exact ⟨List.suffix_rfl, rfl⟩

theorem drops_opPush {t : Token} {tide : Nat} : Drops (opPush t tide) := by
  intro s a s' h
  unfold opPush at h
  split at h <;> cases h
  exact ⟨List.suffix_rfl, rfl⟩

theorem drops_opPopAll {tide : Nat} : Drops (opPopAll tide) := by
  intro s a s' h
  unfold opPopAll at h
  split at h <;> cases h
  exact ⟨List.suffix_rfl, rfl⟩

/-- Go through a part of the parser. -/
macro "drops" : tactic => `(tactic| repeat' (first
  | assumption
  | exact drops_fault | exact drops_err | exact drops_errHere | exact drops_popTok | exact drops_nextType
  | exact drops_peekTok | exact drops_found | exact drops_popType | exact drops_skipEols | exact drops_pushExp
  | exact drops_popExp | exact drops_opPush | exact drops_opPopAll | exact Drops.pure _
  | refine Drops.bind ?_ fun _ => ?_
  | split))

theorem drops_isOperator : Drops isOperator := by
  unfold isOperator
  drops

/-- The functions of the expressions only take tokens away. -/
structure ExprDrops (n : Nat) : Prop where
  exprEx : ∀ tide, Drops (parseExprEx n tide)
  tail : ∀ tide, Drops (parseTail n tide)
  post : Drops (parsePostfix n)
  lhs : Drops (parseLhs n)
  expr : Drops (parseExpr n)
  exprList : Drops (parseExprList n)
  callArgs : Drops (parseCallArgs n)

theorem exprDrops : ∀ n, ExprDrops n
  | 0 => ⟨fun _ => drops_fault, fun _ => drops_fault, drops_fault, drops_fault, drops_fault, drops_fault, drops_fault⟩
  | n + 1 => by
    obtain ⟨h1, h2, h3, h4, h5, h6, h7⟩ := exprDrops n
    have h8 := drops_isOperator
    constructor
    · intro tide
      have := h1 tide
      have := h2 tide
      unfold parseExprEx
      drops
    · intro tide
      have := h1 tide
      unfold parseTail
      drops
    · unfold parsePostfix
      drops
    · unfold parseLhs
      drops
    · unfold parseExpr
      intro s a s' h
      rw [pm_bind] at h
      exact ((h1 s.ops.length).bind fun _ => drops_opPopAll.bind fun _ => drops_popExp) s a s' h
    · unfold parseExprList
      drops
    · unfold parseCallArgs
      drops

theorem drops_expr {n : Nat} : Drops (parseExpr n) := (exprDrops n).expr
theorem drops_callArgs {n : Nat} : Drops (parseCallArgs n) := (exprDrops n).callArgs

theorem drops_declVar {n : Nat} : Drops (parseDeclVar n) := by
  have := drops_expr (n := n)
  unfold parseDeclVar
  drops

theorem drops_compound {n : Nat} {t : Token} : Drops (parseCompound n t) := by
  have := drops_expr (n := n)
  unfold parseCompound
  drops
  intro s a s' h
  cases h

theorem drops_named {n : Nat} {t : Token} : Drops (parseNamed n t) := by
  have h1 := drops_expr (n := n)
  have h2 := drops_callArgs (n := n)
  have h3 := drops_compound (n := n) (t := t)
  unfold parseNamed parseMemberAssign parseArraySet parseAssign
  refine drops_peekTok.bind fun p => ?_
  generalize p.type = ty
  cases ty <;> drops

theorem drops_return {n : Nat} {t : Token} : Drops (parseReturn n t) := by
  have h1 := drops_expr (n := n)
  unfold parseReturn
  drops

theorem drops_condition {n : Nat} : Drops (parseCondition n) := by
  have h1 := drops_expr (n := n)
  unfold parseCondition
  drops

theorem drops_forHead {n : Nat} : Drops (parseForHead n) := by
  have h1 := drops_expr (n := n)
  unfold parseForHead
  drops

/-- The functions of the statements only take tokens away. -/
structure StmtDrops (n : Nat) : Prop where
  stmt : Drops (parseStmt n)
  kind : ∀ t, Drops (parseStmtKind n t)
  block : Drops (parseBlock n)
  thn : Drops (parseThen n)

theorem stmtDrops : ∀ n, StmtDrops n
  | 0 => ⟨drops_fault, fun _ => by unfold parseStmtKind; exact drops_fault, drops_fault, drops_fault⟩
  | n + 1 => by
    obtain ⟨h1, h2, h3, h4⟩ := stmtDrops n
    constructor
    · unfold parseStmt
      exact drops_skipEols.bind fun _ => drops_popTok.bind fun t => (h2 t).bind fun _ => drops_popType.bind fun _ =>
        drops_skipEols.bind fun _ => .pure _
    · intro t
      have h5 := drops_declVar (n := n)
      have h6 := drops_named (n := n) (t := t)
      have h7 := drops_return (n := n) (t := t)
      have h8 := drops_condition (n := n)
      have h9 := drops_forHead (n := n)
      unfold parseStmtKind
      generalize t.type = ty
      cases ty <;> drops
    · unfold parseBlock
      drops
    · unfold parseThen
      drops

theorem drops_body : ∀ n, Drops (parseBody n)
  | 0 => drops_fault
  | n + 1 => by
    have := drops_body n
    have := (stmtDrops n).stmt
    unfold parseBody
    drops

theorem drops_argNames : ∀ n, Drops (parseArgNames n)
  | 0 => drops_fault
  | n + 1 => by
    have := drops_argNames n
    unfold parseArgNames
    drops

theorem drops_function (n : Nat) : Drops (parseFunction n) := by
  have := drops_argNames n
  have := drops_body n
  unfold parseFunction parseArgs
  drops

/-! ### Imports -/

variable {fs fs' : Str → Option Str} {fl : FloatOps}

/-- All files that the tokens `toks` of the source at `path` import are in `A`. -/
def Asks (A : Str → Prop) (path : Str) (toks : List Token) : Prop :=
  ∀ t u, [t, u] <:+: toks → t.type = .IMPORT → u.type = .STRING → A (cstr (basePath path ++ ch '/' :: cstr u.str))

/-- The same for a text, wherever it stands in the list of sources. -/
def TextAsks (fl : FloatOps) (A : Str → Prop) (path text : Str) : Prop :=
  ∀ i toks, lex fl i text = .ok toks → Asks A path toks

/-- For all sources. -/
def AllAsk (fl : FloatOps) (A : Str → Prop) (srcs : List Source) : Prop :=
  ∀ s ∈ srcs, ∀ text, s.data = some text → TextAsks fl A s.path text

theorem load_agree {A : Str → Prop} (hA : ∀ p, A p → fs p = fs' p)
    (hc : ∀ p text, A p → fs p = some text → TextAsks fl A p text) {srcs : List Source} (hs : AllAsk fl A srcs)
    {p : Str} (hp : A p) :
    loadSource fs srcs p = loadSource fs' srcs p ∧ AllAsk fl A (loadSource fs srcs p).2 := by
  have h : Source.fromFile fs p = Source.fromFile fs' p := by
    unfold Source.fromFile
    rw [hA p hp]
  unfold loadSource
  rw [← h]
  refine ⟨rfl, ?_⟩
  split
  · exact hs
  · intro s hm text ht
    rcases List.mem_append.1 hm with hm | hm
    · exact hs s hm text ht
    · rw [List.mem_singleton.1 hm] at ht ⊢
      unfold Source.fromFile at ht ⊢
      cases hf : fs p with
      | none => rw [hf] at ht; cases ht
      | some t =>
        rw [hf] at ht
        dsimp only at ht ⊢
        split at ht
        · cases ht
        · rename_i hne
          rw [if_neg hne]
          cases ht
          exact hc p _ hp hf

/-- Two runs of the parser that end in the same way, with sources that ask for files in `A` only. -/
def Alike (fl : FloatOps) (A : Str → Prop) (cur : Source) (x y : PM α) : Prop :=
  ∀ s, Asks A cur.path s.toks → AllAsk fl A s.srcs → x s = y s ∧
    ∀ a s', x s = .ok (a, s') → Asks A cur.path s'.toks ∧ AllAsk fl A s'.srcs

theorem Alike.bind {A : Str → Prop} {cur : Source} {x y : PM α} {f g : α → PM β} (h : Alike fl A cur x y)
    (hf : ∀ a, Alike fl A cur (f a) (g a)) : Alike fl A cur (x >>= f) (y >>= g) := by
  intro s h1 h2
  obtain ⟨k1, k2⟩ := h s h1 h2
  rw [pm_bind, pm_bind, ← k1]
  cases hx : x s with
  | error e => exact ⟨rfl, fun _ _ h => by cases h⟩
  | ok r =>
    obtain ⟨a, s1⟩ := r
    obtain ⟨k3, k4⟩ := k2 a s1 hx
    exact hf a s1 k3 k4

theorem Drops.alike {A : Str → Prop} {cur : Source} {x : PM α} (h : Drops x) : Alike fl A cur x x := by
  intro s h1 h2
  refine ⟨rfl, fun a s' hx => ?_⟩
  obtain ⟨k1, k2⟩ := h s a s' hx
  exact ⟨fun t u ht => h1 t u (ht.trans k1.isInfix), k2 ▸ h2⟩

/-- The token taken is one of those there. -/
theorem popType_mem {ty : Tok} {s s' : PState} {t : Token} (h : popType ty s = .ok (t, s')) :
    s.toks.head? = some t ∧ t.type = ty := by
  unfold popType at h
  split at h
  · cases h
  · rename_i u ts e
    split at h
    · rename_i ht
      cases h
      exact ⟨by rw [e]; rfl, ht⟩
    · unfold unexpectedToken at h
      revert h
      cases u.string <;> cases ty.name <;> intro h <;> cases h

theorem import_alike {A : Str → Prop} (hA : ∀ p, A p → fs p = fs' p)
    (hc : ∀ p text, A p → fs p = some text → TextAsks fl A p text) (cur : Source) {s : PState}
    (h0 : ∀ u, s.toks.head? = some u → u.type = .STRING → A (cstr (basePath cur.path ++ ch '/' :: cstr u.str)))
    (h1 : Asks A cur.path s.toks) (h2 : AllAsk fl A s.srcs) :
    parseImport fs cur s = parseImport fs' cur s ∧
    ∀ a s', parseImport fs cur s = .ok (a, s') → Asks A cur.path s'.toks ∧ AllAsk fl A s'.srcs := by
  unfold parseImport
  rw [pm_bind, pm_bind]
  cases hp : popType .STRING s with
  | error e => exact ⟨rfl, fun _ _ h => by cases h⟩
  | ok r =>
    obtain ⟨t, s1⟩ := r
    obtain ⟨k1, k2⟩ := popType_mem hp
    obtain ⟨k3, k4⟩ := drops_popType _ _ _ hp
    have hq : A (cstr (importedPath cur (cstr t.str))) := h0 t k1 k2
    obtain ⟨k5, k6⟩ := load_agree hA hc (k4 ▸ h2 : AllAsk fl A s1.srcs) hq
    dsimp only
    rw [← k5]
    refine ⟨rfl, fun a s' h => ?_⟩
    split at h
    · rename_i ss hl
      cases h
      rw [hl] at k6
      exact ⟨fun t u ht => h1 t u (ht.trans k3.isInfix), k6⟩
    · exact absurd h Made.errTok_ne

theorem items_alike {A : Str → Prop} (hA : ∀ p, A p → fs p = fs' p)
    (hc : ∀ p text, A p → fs p = some text → TextAsks fl A p text) (cur : Source) :
    ∀ n, Alike fl A cur (parseItems fs cur n) (parseItems fs' cur n)
  | 0 => drops_fault.alike
  | n + 1 => by
    have ih := items_alike hA hc cur n
    unfold parseItems
    refine drops_found.alike.bind fun o => ?_
    cases o with
    | some => exact (Drops.pure _).alike
    | none =>
      intro s h1 h2
      dsimp only
      rw [pm_bind, pm_bind]
      unfold popTok
      cases hs : s.toks with
      | nil => exact ⟨rfl, fun _ _ h => by cases h⟩
      | cons t ts =>
        have h3 : Asks A cur.path ts := fun t' u ht =>
          h1 t' u (by rw [hs]; exact ht.trans (List.suffix_cons _ _).isInfix)
        have h4 : t.type = .IMPORT → ∀ u, ts.head? = some u → u.type = .STRING →
            A (cstr (basePath cur.path ++ ch '/' :: cstr u.str)) := by
          intro ht u hu
          cases ts with
          | nil => cases hu
          | cons v vs =>
            cases hu
            exact h1 t u (by rw [hs]; exact ⟨[], vs, rfl⟩) ht
        dsimp only
        generalize hn : ({ s with toks := ts, line := t.line } : PState) = s1
        have e1 : s1.toks = ts := by rw [← hn]
        have e2 : s1.srcs = s.srcs := by rw [← hn]
        have h5 : AllAsk fl A s1.srcs := e2 ▸ h2
        rw [← e1] at h3 h4
        generalize t.type = ty at h4 ⊢
        cases ty with
        | EOL => exact ih s1 h3 h5
        | VAR => exact (drops_declVar.alike.bind fun _ => ih.bind fun _ => (Drops.pure _).alike) s1 h3 h5
        | CONST => exact (drops_declVar.alike.bind fun _ => ih.bind fun _ => (Drops.pure _).alike) s1 h3 h5
        | FUNC => exact ((drops_function n).alike.bind fun _ => ih.bind fun _ => (Drops.pure _).alike) s1 h3 h5
        | IMPORT =>
          dsimp only
          obtain ⟨k1, k2⟩ := import_alike hA hc cur (h4 rfl) h3 h5
          rw [pm_bind, pm_bind, ← k1]
          cases hx : parseImport fs cur s1 with
          | error e => exact ⟨rfl, fun _ _ h => by cases h⟩
          | ok r => exact ih r.2 (k2 _ _ hx).1 (k2 _ _ hx).2
        | _ => exact (drops_popTok.bind fun _ => drops_err).alike s1 h3 h5

theorem sources_alike {A : Str → Prop} (hA : ∀ p, A p → fs p = fs' p)
    (hc : ∀ p text, A p → fs p = some text → TextAsks fl A p text) :
    ∀ (n i : Nat) (srcs : List Source) (left : List PExpr) (acc : Prog Unit), AllAsk fl A srcs →
      buildSources fs fl n i srcs left acc = buildSources fs' fl n i srcs left acc
  | 0, _, _, _, _, _ => rfl
  | n + 1, i, srcs, left, acc, hs => by
    unfold buildSources
    cases hi : srcs[i]? with
    | none => rfl
    | some src =>
      dsimp only
      cases hd : src.data with
      | none => rfl
      | some text =>
        dsimp only
        cases hl : lex fl i text with
        | error => rfl
        | ok toks =>
          have ht := hs src (List.mem_of_getElem? hi) text hd i toks hl
          obtain ⟨k1, k2⟩ := items_alike (fl := fl) hA hc src (parseFuel toks) ⟨toks, ⟨0, 0⟩, [], left, srcs⟩ ht hs
          dsimp only
          unfold parse
          rw [← k1]
          cases hp : parseItems fs src (parseFuel toks) ⟨toks, ⟨0, 0⟩, [], left, srcs⟩ with
          | error => rfl
          | ok r =>
            obtain ⟨items, s⟩ := r
            exact sources_alike hA hc n (i + 1) _ _ _ (k2 _ _ hp).2

end Ccml.Files
