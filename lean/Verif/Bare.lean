import Verif.Build
/-!
What the compiler does does not depend on the lines of the tokens: trees that differ in nothing but
lines are compiled to programs that differ in nothing but the line table, or are refused with the same
message.
-/
namespace Ccml.Bare

/-! ### Forgetting the lines -/

/-- A token without its line. -/
def tok (t : Token) : Token := { t with line := ⟨0, 0⟩ }

variable {D : Type}

mutual
/-- An expression without lines. -/
def ex : Expr D → Expr D
  | .ident t d => .ident (tok t) d
  | .int v t c => .int v (t.map tok) c
  | .float v t => .float v (t.map tok)
  | .str v t => .str v (t.map tok)
  | .none t => .none (t.map tok)
  | .member t m d => .member (tok t) (tok m) d
  | .arr t es => .arr (tok t) (exs es)
  | .deref t l i => .deref (tok t) (ex l) (ex i)
  | .call t c as => .call (tok t) (ex c) (exs as)
  | .bin op l r => .bin (tok op) (ex l) (ex r)
  | .un op a => .un (tok op) (ex a)
/-- Expressions without lines. -/
def exs : List (Expr D) → List (Expr D)
  | [] => []
  | e :: es => ex e :: exs es
end

mutual
/-- A statement without lines. -/
def st : Stmt D → Stmt D
  | .var t d e => .var (tok t) d (e.map ex)
  | .assign t d e => .assign (tok t) d (ex e)
  | .assignArr t d i e => .assignArr (tok t) d (ex i) (ex e)
  | .assignMem t m d e => .assignMem (tok t) (tok m) d (ex e)
  | .call t c as => .call (tok t) (ex c) (exs as)
  | .ifS t c thn h els => .ifS (tok t) (ex c) (bl thn) h (bl els)
  | .whileS t c body => .whileS (tok t) (ex c) (bl body)
  | .forS t n d a b body => .forS (tok t) (tok n) d (ex a) (ex b) (bl body)
  | .ret t e => .ret (tok t) (e.map ex)
/-- Statements without lines. -/
def bl : List (Stmt D) → List (Stmt D)
  | [] => []
  | s :: ss => st s :: bl ss
end

/-- A function without lines. -/
def fn (f : FuncDecl D) : FuncDecl D := ⟨tok f.name, f.args.map tok, bl f.body, tok f.stop⟩

/-- A declaration without lines. -/
def item : Item D → Item D
  | .var t c e => .var (tok t) c (e.map ex)
  | .func f => .func (fn f)
  | .syscall n a => .syscall n a

/-- A program without lines. -/
def prog (p : Prog D) : Prog D := p.map item

theorem exs_length : ∀ es : List (Expr D), (exs es).length = es.length
  | [] => rfl
  | _ :: es => by rw [exs, List.length_cons, List.length_cons, exs_length es]

theorem prog_get (p : Prog D) (i : Nat) : (prog p)[i]? = p[i]?.map item := by
  unfold prog
  rw [List.getElem?_map]

theorem prog_length (p : Prog D) : (prog p).length = p.length := by simp [prog]

theorem tok_string (t : Token) : (tok t).string = t.string := rfl

/-! ### Computations that end alike -/

/-- The same message, or the same failure. -/
def SameStop : Stop → Stop → Prop
  | .err a, .err b => a.msg = b.msg
  | .fault f, .fault g => f = g
  | _, _ => False

theorem SameStop.refl : ∀ s, SameStop s s
  | .err _ => rfl
  | .fault _ => rfl

/-- Both give related results, or both end with the same message or failure. -/
def Both {α β : Type} (R : α → β → Prop) : Comp α → Comp β → Prop
  | .ok a, .ok b => R a b
  | .error s, .error s' => SameStop s s'
  | _, _ => False

variable {α β γ δ : Type}

theorem Both.elim {R : α → β → Prop} {x : Comp α} {y : Comp β} (h : Both R x y) :
    (∃ s s', x = .error s ∧ y = .error s' ∧ SameStop s s') ∨ ∃ a b, x = .ok a ∧ y = .ok b ∧ R a b := by
  cases x with
  | error s =>
    cases y with
    | error s' => exact .inl ⟨s, s', rfl, rfl, h⟩
    | ok b => exact False.elim h
  | ok a =>
    cases y with
    | error s' => exact False.elim h
    | ok b => exact .inr ⟨a, b, rfl, rfl, h⟩

/-- The results are the same up to `f`. -/
abbrev To (f : α → β) : Comp α → Comp β → Prop := Both fun a b => b = f a

theorem To.elim {f : α → β} {x : Comp α} {y : Comp β} (h : To f x y) :
    (∃ s s', x = .error s ∧ y = .error s' ∧ SameStop s s') ∨ ∃ a, x = .ok a ∧ y = .ok (f a) := by
  rcases Both.elim h with h | ⟨a, b, hx, hy, rfl⟩
  · exact .inl h
  · exact .inr ⟨a, hx, hy⟩

/-- Both computations of `h` have ended; go on with what follows. -/
macro "go " h:term : tactic => `(tactic| (
  rcases To.elim $h with ⟨_, _, hx, hy, hs⟩ | ⟨_, hx, hy⟩
  · rw [hx, hy]; exact hs
  rw [hx, hy]; clear hx hy; dsimp only [id]))

/-- The same, with a pair of results. -/
macro "go2 " h:term : tactic => `(tactic| (
  rcases To.elim $h with ⟨_, _, hx, hy, hs⟩ | ⟨⟨_, _⟩, hx, hy⟩
  · rw [hx, hy]; exact hs
  rw [hx, hy]; clear hx hy; dsimp only [id]))

/-- The same, with three results. -/
macro "go3 " h:term : tactic => `(tactic| (
  rcases To.elim $h with ⟨_, _, hx, hy, hs⟩ | ⟨⟨_, _, _⟩, hx, hy⟩
  · rw [hx, hy]; exact hs
  rw [hx, hy]; clear hx hy; dsimp only [id]))

theorem both_errTok {R : α → β → Prop} {l l' : SrcLine} {pre post : String} {t : Token} :
    Both R (errTok l pre t post) (errTok l' pre (tok t) post) := by
  unfold errTok
  rw [tok_string]
  cases t.string <;> rfl

theorem To.refl {x : Comp α} : To id x x := by
  cases x with
  | ok => rfl
  | error s => exact SameStop.refl s

/-! ### Names -/

theorem declName_item (x : Item D) : (item x).declName = x.declName := by cases x <;> rfl

theorem refIsVar_prog (p : Prog D) : refIsVar (prog p) = refIsVar p := by
  funext r
  cases r with
  | item i =>
    simp only [refIsVar, prog_get]
    cases p[i]? with
    | none => rfl
    | some x => cases x <;> rfl
  | _ => rfl

theorem globalScope_prog (p : Prog D) : globalScope (prog p) = globalScope p := by
  unfold globalScope prog
  apply List.ext_getElem?
  intro i
  rw [List.getElem?_mapIdx, List.getElem?_mapIdx, List.getElem?_map]
  cases p[i]? with
  | none => rfl
  | some x => simp [declName_item]

theorem argScope_map (as : List Token) : argScope (as.map tok) = argScope as := by
  unfold argScope
  congr 1
  apply List.ext_getElem?
  intro i
  rw [List.getElem?_mapIdx, List.getElem?_mapIdx, List.getElem?_map]
  cases as[i]? <;> rfl

/-! ### `sema_decl_annotate_t` -/

mutual
theorem annE_bare (lk : Look) : ∀ e : Expr Unit, To ex (annE lk e) (annE lk (ex e))
  | .ident t d => by
    simp only [ex, annE, show (tok t).str = t.str from rfl]
    cases lk.find t.str with
    | none => exact both_errTok
    | some r => rfl
  | .int .. => rfl
  | .float .. => rfl
  | .str .. => rfl
  | .none .. => rfl
  | .member t m d => by
    simp only [ex, annE, show (tok t).str = t.str from rfl]
    cases lk.find t.str with
    | none => exact both_errTok
    | some r =>
      dsimp only
      split
      · rfl
      · rfl
  | .arr t es => by
    simp only [ex, annE]
    go annEs_bare lk es
    rfl
  | .deref t l i => by
    simp only [ex, annE]
    go annE_bare lk l
    go annE_bare lk i
    rfl
  | .call t c as => by
    simp only [ex, annE]
    go annEs_bare lk as
    go annE_bare lk c
    rfl
  | .bin op l r => by
    simp only [ex, annE]
    go annE_bare lk l
    go annE_bare lk r
    rfl
  | .un op a => by
    simp only [ex, annE]
    go annE_bare lk a
    rfl
theorem annEs_bare (lk : Look) : ∀ es : List (Expr Unit), To exs (annEs lk es) (annEs lk (exs es))
  | [] => rfl
  | e :: es => by
    simp only [exs, annEs]
    go annE_bare lk e
    go annEs_bare lk es
    rfl
end

theorem annO_bare (lk : Look) : ∀ o : Option (Expr Unit), To (Option.map ex) (annO lk o) (annO lk (o.map ex))
  | none => rfl
  | some e => by
    simp only [Option.map_some, annO]
    go annE_bare lk e
    rfl

theorem target_bare (E : AnnEnv) (ss : List Scope) (t : Token) {bad : Token → Comp Ref}
    (h : To id (bad t) (bad (tok t))) : To id (E.target ss t bad) (E.target ss (tok t) bad) := by
  simp only [AnnEnv.target, show (tok t).str = t.str from rfl]
  cases findDecl E.addr t.str ss with
  | none => exact h
  | some r =>
    dsimp only
    split
    · rfl
    · exact h

mutual
theorem annS_bare (E : AnnEnv) (outer : List Scope) (cur : Scope) (k : Nat) : ∀ s : Stmt Unit,
    To (fun r => (st r.1, r.2)) (annS E outer cur k s) (annS E outer cur k (st s))
  | .var t d e => by
    simp only [st, annS]
    go annO_bare (E.look (cur :: outer)) e
    rfl
  | .assign t d e => by
    simp only [st, annS]
    go annE_bare (E.look (cur :: outer)) e
    go target_bare E (cur :: outer) t (bad := unknownVariable) both_errTok
    rfl
  | .assignArr t d i e => by
    simp only [st, annS]
    go annE_bare (E.look (cur :: outer)) i
    go annE_bare (E.look (cur :: outer)) e
    go target_bare E (cur :: outer) t (bad := unknownArray) both_errTok
    rfl
  | .assignMem t m d e => by
    simp only [st, annS]
    go annE_bare (E.look (cur :: outer)) e
    go target_bare E (cur :: outer) t (bad := unknownIdentifier) both_errTok
    rfl
  | .call t c as => by
    simp only [st, annS]
    go annEs_bare (E.look (cur :: outer)) as
    go annE_bare (E.look (cur :: outer)) c
    rfl
  | .ifS t c thn h els => by
    simp only [st, annS]
    go annE_bare (E.look ([] :: cur :: outer)) c
    go3 annB_bare E (cur :: outer) [] k thn
    go3 annB_bare E (cur :: outer) _ _ els
    rfl
  | .whileS t c body => by
    simp only [st, annS]
    go annE_bare (E.look ([] :: cur :: outer)) c
    go3 annB_bare E (cur :: outer) [] k body
    rfl
  | .forS t n d a b body => by
    simp only [st, annS]
    go target_bare E ([] :: cur :: outer) n (bad := unknownVariable) both_errTok
    go annE_bare (E.look ([] :: cur :: outer)) a
    go annE_bare (E.look ([] :: cur :: outer)) b
    go3 annB_bare E (cur :: outer) [] k body
    rfl
  | .ret t e => by
    simp only [st, annS]
    go annO_bare (E.look (cur :: outer)) e
    rfl
theorem annB_bare (E : AnnEnv) (outer : List Scope) (cur : Scope) (k : Nat) : ∀ ss : List (Stmt Unit),
    To (fun r => (bl r.1, r.2)) (annB E outer cur k ss) (annB E outer cur k (bl ss))
  | [] => rfl
  | s :: ss => by
    simp only [bl, annB]
    go3 annS_bare E outer cur k s
    go3 annB_bare E outer _ _ ss
    rfl
end

theorem annItem_bare (L : Layout) (p : Prog Unit) (i : Nat) : ∀ x : Item Unit,
    To item (annItem L p i x) (annItem L (prog p) i (item x))
  | .var t c e => by
    simp only [item, annItem, refIsVar_prog, globalScope_prog]
    go annO_bare ((AnnEnv.mk (L.addr i) (refIsVar p)).look [globalScope p]) e
    rfl
  | .func f => by
    simp only [item, annItem, refIsVar_prog, globalScope_prog, fn, argScope_map]
    go3 annB_bare ⟨L.addr i, refIsVar p⟩ [globalScope p] (argScope f.args) 0 f.body
    rfl
  | .syscall .. => rfl

theorem annItems_bare (L : Layout) (p : Prog Unit) : ∀ (xs : List (Item Unit)) (i : Nat),
    To prog (annItems L p i xs) (annItems L (prog p) i (prog xs))
  | [], _ => rfl
  | x :: xs, i => by
    rw [show prog (x :: xs) = item x :: prog xs from rfl]
    simp only [annItems]
    go annItem_bare L p i x
    go annItems_bare L p xs (i + 1)
    rfl

theorem annotate_bare (L : Layout) (p : Prog Unit) : To prog (annotate L p) (annotate L (prog p)) :=
  annItems_bare L p p 0

/-! ### `sema_global_var_t` -/

theorem constBin_bare (t : Token) (a b : I32) : To id (constBin t a b) (constBin (tok t) a b) := by
  unfold constBin
  rw [show (tok t).type = t.type from rfl]
  split
  · rfl
  · exact .refl

theorem evalSupported_bare : ∀ e : Expr D, evalSupported (ex e) = evalSupported e
  | .ident .. | .int .. | .float .. | .str .. | .none .. | .member .. | .arr .. | .deref .. | .call .. | .bin ..
  | .un .. => rfl

theorem evalIdent_bare (p : Prog Ref) (r : Ref) (s : EvalSt) : evalIdent (prog p) r s = evalIdent p r s := by
  cases r with
  | item i =>
    simp only [evalIdent, prog_get]
    cases p[i]? with
    | none => rfl
    | some x =>
      cases x with
      | var t c e =>
        cases c with
        | false => rfl
        | true =>
          cases e with
          | none => rfl
          | some e => cases e <;> rfl
      | _ => rfl
  | _ => rfl

theorem evalG_bare (p : Prog Ref) : ∀ (e : Expr Ref) (s : EvalSt), To id (evalG p e s) (evalG (prog p) (ex e) s)
  | .int .., s => rfl
  | .ident t r, s => by
    simp only [ex, evalG, evalIdent_bare]
    exact .refl
  | .un op a, s => by
    simp only [ex, evalG, evalSupported_bare, show (tok op).type = op.type from rfl]
    split
    · rfl
    · go evalG_bare p a s
      exact .refl
  | .bin op l r, s => by
    simp only [ex, evalG, evalSupported_bare]
    split
    · rfl
    · go evalG_bare p l s
      go evalG_bare p r _
      split
      · rfl
      · split
        · go constBin_bare op _ _
          rfl
        · rfl
  | .float .., s => rfl
  | .str .., s => rfl
  | .none .., s => rfl
  | .member .., s => rfl
  | .arr .., s => rfl
  | .deref .., s => rfl
  | .call .., s => rfl

theorem evalGlobal_bare (p : Prog Ref) (e : Expr Ref) : To id (evalGlobal p e) (evalGlobal (prog p) (ex e)) := by
  unfold evalGlobal
  go evalG_bare p e ⟨[], true⟩
  exact .refl

theorem globalInit_bare (p : Prog Ref) (e : Expr Ref) :
    To (fun r => (r.1.map ex, r.2)) (globalInit p e) (globalInit (prog p) (ex e)) := by
  cases e with
  | bin op l r =>
    have h := evalGlobal_bare p (.bin op l r)
    simp only [globalInit, ex] at h ⊢
    go h
    rename_i v
    cases v <;> rfl
  | un op a =>
    have h := evalGlobal_bare p (.un op a)
    simp only [globalInit, ex] at h ⊢
    go h
    rename_i v
    cases v <;> rfl
  | _ => rfl

theorem prog_set (p : Prog D) (i : Nat) (x : Item D) : prog (p.set i x) = (prog p).set i (item x) := by
  simp [prog, List.map_set]

theorem globalPass_bare : ∀ (is : List Nat) (p : Prog Ref) (ch : Bool),
    To (fun r => (prog r.1, r.2)) (globalPass is p ch) (globalPass is (prog p) ch)
  | [], _, _ => rfl
  | i :: is, p, ch => by
    simp only [globalPass, prog_get]
    cases p[i]? with
    | none => exact globalPass_bare is p ch
    | some x =>
      cases x with
      | var t c e =>
        cases e with
        | none => exact globalPass_bare is p ch
        | some e =>
          simp only [Option.map_some, item]
          go2 globalInit_bare p e
          have := globalPass_bare is (p.set i (.var t c ‹_›)) (ch || ‹_›)
          rw [prog_set] at this
          exact this
      | _ => exact globalPass_bare is p ch

theorem globalLoop_bare : ∀ (n : Nat) (p : Prog Ref), To prog (globalLoop n p) (globalLoop n (prog p))
  | 0, _ => rfl
  | n + 1, p => by
    simp only [globalLoop, prog_length]
    rcases To.elim (globalPass_bare (List.range p.length) p false) with ⟨_, _, hx, hy, hs⟩ | ⟨⟨q, b⟩, hx, hy⟩
    · rw [hx, hy]
      exact hs
    · rw [hx, hy]
      cases b with
      | true => exact globalLoop_bare n q
      | false => rfl

theorem globalVars_bare (p : Prog Ref) : To prog (globalVars p) (globalVars (prog p)) := by
  simp only [globalVars, prog_length]
  go globalLoop_bare (p.length + 1) p
  rw [prog_length]
  go2 globalPass_bare (List.range (List.length ‹_›)) ‹_› false
  rfl

/-! ### `sema_const_t` -/

theorem refIsConst_bare (p : Prog D) (r : Ref) : refIsConst (prog p) r = refIsConst p r := by
  cases r with
  | item i =>
    simp only [refIsConst, prog_get]
    cases p[i]? with
    | none => rfl
    | some x => cases x <;> rfl
  | _ => rfl

theorem constIdent_bare (p : Prog Ref) (t : Token) (r : Ref) :
    To ex (constIdent p t r) (constIdent (prog p) (tok t) r) := by
  cases r with
  | item i =>
    simp only [constIdent, prog_get]
    cases p[i]? with
    | none => rfl
    | some x =>
      cases x with
      | var n c e =>
        cases c with
        | false => rfl
        | true =>
          cases e with
          | none => rfl
          | some e =>
            cases e with
            | int => rfl
            | str => rfl
            | float => rfl
            | none => rfl
            | _ => exact both_errTok
      | _ => rfl
  | _ => rfl

mutual
theorem constE_bare (p : Prog Ref) : ∀ e : Expr Ref, To ex (constE p e) (constE (prog p) (ex e))
  | .ident t r => constIdent_bare p t r
  | .int .. => rfl
  | .float .. => rfl
  | .str .. => rfl
  | .none .. => rfl
  | .member .. => rfl
  | .arr t es => by
    simp only [ex, constE]
    go constEs_bare p es
    rfl
  | .deref t l i => by
    simp only [ex, constE]
    go constE_bare p l
    go constE_bare p i
    rfl
  | .call t c as => by
    simp only [ex, constE]
    go constEs_bare p as
    go constE_bare p c
    cases c <;> rfl
  | .bin op l r => by
    simp only [ex, constE]
    go constE_bare p l
    go constE_bare p r
    rfl
  | .un op a => by
    simp only [ex, constE]
    go constE_bare p a
    rfl
theorem constEs_bare (p : Prog Ref) : ∀ es : List (Expr Ref), To exs (constEs p es) (constEs (prog p) (exs es))
  | [] => rfl
  | e :: es => by
    simp only [exs, constEs]
    go constE_bare p e
    go constEs_bare p es
    rfl
end

theorem constO_bare (p : Prog Ref) : ∀ o : Option (Expr Ref),
    To (Option.map ex) (constO p o) (constO (prog p) (o.map ex))
  | none => rfl
  | some e => by
    simp only [Option.map_some, constO]
    go constE_bare p e
    rfl

mutual
theorem constS_bare (p : Prog Ref) : ∀ s : Stmt Ref, To st (constS p s) (constS (prog p) (st s))
  | .var t d e => by
    simp only [st, constS]
    go constO_bare p e
    rfl
  | .assign t d e => by
    simp only [st, constS, refIsConst_bare]
    split
    · exact both_errTok
    · go constE_bare p e
      rfl
  | .assignArr t d i e => by
    simp only [st, constS]
    go constE_bare p i
    go constE_bare p e
    rfl
  | .assignMem t m d e => by
    simp only [st, constS]
    go constE_bare p e
    rfl
  | .call t c as => by
    simp only [st, constS]
    go constEs_bare p as
    go constE_bare p c
    cases c <;> rfl
  | .ifS t c thn h els => by
    simp only [st, constS]
    go constE_bare p c
    go constB_bare p thn
    go constB_bare p els
    rfl
  | .whileS t c body => by
    simp only [st, constS]
    go constE_bare p c
    go constB_bare p body
    rfl
  | .forS t n d a b body => by
    simp only [st, constS]
    go constE_bare p a
    go constE_bare p b
    go constB_bare p body
    rfl
  | .ret t e => by
    simp only [st, constS]
    go constO_bare p e
    rfl
theorem constB_bare (p : Prog Ref) : ∀ ss : List (Stmt Ref), To bl (constB p ss) (constB (prog p) (bl ss))
  | [] => rfl
  | s :: ss => by
    simp only [bl, constB]
    go constS_bare p s
    go constB_bare p ss
    rfl
end

theorem constItem_bare (p : Prog Ref) : ∀ x : Item Ref, To item (constItem p x) (constItem (prog p) (item x))
  | .var t c e => by
    simp only [item, constItem]
    go constO_bare p e
    rename_i e'
    cases e' with
    | none =>
      simp only [Option.map_none]
      split
      · exact both_errTok
      · rfl
    | some e' =>
      rw [if_neg (by simp), if_neg (by simp)]
      rfl
  | .func f => by
    simp only [item, constItem, fn]
    go constB_bare p f.body
    rfl
  | .syscall .. => rfl

theorem constPass_bare : ∀ (is : List Nat) (p : Prog Ref), To prog (constPass is p) (constPass is (prog p))
  | [], _ => rfl
  | i :: is, p => by
    simp only [constPass, prog_get]
    cases p[i]? with
    | none => exact constPass_bare is p
    | some x =>
      simp only [Option.map_some]
      go constItem_bare p x
      have := constPass_bare is (p.set i ‹_›)
      rw [prog_set] at this
      exact this

theorem consts_bare (p : Prog Ref) : To prog (consts p) (consts (prog p)) := by
  unfold consts
  rw [prog_length]
  exact constPass_bare _ p

/-! ### `sema_multi_decls_t` -/

theorem declare_bare (vis : List Str) (t : Token) {E : Type} (d : D) (d' : E) :
    To id (declare vis t d) (declare vis (tok t) d') := by
  unfold declare
  rw [show (tok t).str = t.str from rfl]
  split
  · exact both_errTok
  · rfl

mutual
theorem multiS_bare (vis : List Str) : ∀ s : Stmt D, To id (multiS vis s) (multiS vis (st s))
  | .var t d e => declare_bare vis t d d
  | .assign .. => rfl
  | .assignArr .. => rfl
  | .assignMem .. => rfl
  | .call .. => rfl
  | .ret .. => rfl
  | .ifS t c thn h els => by
    simp only [st, multiS]
    go multiB_bare vis thn
    go multiB_bare vis els
    rfl
  | .whileS t c body => by
    simp only [st, multiS]
    go multiB_bare vis body
    rfl
  | .forS t n d a b body => by
    simp only [st, multiS]
    go multiB_bare vis body
    rfl
theorem multiB_bare (vis : List Str) : ∀ ss : List (Stmt D), To id (multiB vis ss) (multiB vis (bl ss))
  | [] => rfl
  | s :: ss => by
    simp only [bl, multiB]
    go multiS_bare vis s
    exact multiB_bare _ ss
end

theorem multiArgs_bare : ∀ (ts : List Token) (vis : List Str), To id (multiArgs vis ts) (multiArgs vis (ts.map tok))
  | [], _ => rfl
  | t :: ts, vis => by
    simp only [List.map_cons, multiArgs]
    go declare_bare vis t () ()
    exact multiArgs_bare ts _

theorem multiItem_bare (vis : List Str) : ∀ x : Item D, To id (multiItem vis x) (multiItem vis (item x))
  | .var t _ _ => declare_bare vis t () ()
  | .func f => by
    simp only [item, multiItem, fn, show (tok f.name).str = f.name.str from rfl]
    split
    · exact both_errTok
    · go multiArgs_bare f.args (f.name.str :: vis)
      go multiB_bare _ f.body
      rfl
  | .syscall n a => by
    simp only [item]
    exact .refl

theorem multiItems_bare : ∀ (xs : List (Item D)) (vis : List Str), To id (multiItems vis xs) (multiItems vis (prog xs))
  | [], _ => rfl
  | x :: xs, vis => by
    rw [show prog (x :: xs) = item x :: prog xs from rfl]
    simp only [multiItems]
    go multiItem_bare vis x
    exact multiItems_bare xs _

/-! ### `sema_num_args_t` -/

theorem wantedArgs_bare (p : Prog D) (r : Ref) : wantedArgs (prog p) r = wantedArgs p r := by
  cases r with
  | item i =>
    simp only [wantedArgs, prog_get]
    cases p[i]? with
    | none => rfl
    | some x => cases x <;> simp [item, fn]
  | _ => rfl

theorem checkCall_bare (p : Prog D) (c : Expr Ref) (n : Nat) :
    To id (checkCall p c n) (checkCall (prog p) (ex c) n) := by
  cases c with
  | ident t r =>
    simp only [checkCall, ex, wantedArgs_bare]
    cases wantedArgs p r with
    | none => rfl
    | some w =>
      dsimp only
      split
      · exact both_errTok
      · split
        · exact both_errTok
        · rfl
  | _ => rfl

mutual
theorem argsE_bare (p : Prog Ref) : ∀ e : Expr Ref, To id (argsE p e) (argsE (prog p) (ex e))
  | .ident .. => rfl
  | .int .. => rfl
  | .float .. => rfl
  | .str .. => rfl
  | .none .. => rfl
  | .member .. => rfl
  | .arr t es => argsEs_bare p es
  | .deref t l i => by
    simp only [ex, argsE]
    go argsE_bare p l
    exact argsE_bare p i
  | .call t c as => by
    simp only [ex, argsE, exs_length]
    go checkCall_bare p c as.length
    go argsEs_bare p as
    exact argsE_bare p c
  | .bin op l r => by
    simp only [ex, argsE]
    go argsE_bare p l
    exact argsE_bare p r
  | .un op a => argsE_bare p a
theorem argsEs_bare (p : Prog Ref) : ∀ es : List (Expr Ref), To id (argsEs p es) (argsEs (prog p) (exs es))
  | [] => rfl
  | e :: es => by
    simp only [exs, argsEs]
    go argsE_bare p e
    exact argsEs_bare p es
end

theorem argsO_bare (p : Prog Ref) : ∀ o : Option (Expr Ref), To id (argsO p o) (argsO (prog p) (o.map ex))
  | none => rfl
  | some e => argsE_bare p e

mutual
theorem argsS_bare (p : Prog Ref) : ∀ s : Stmt Ref, To id (argsS p s) (argsS (prog p) (st s))
  | .var t d e => argsO_bare p e
  | .assign t d e => argsE_bare p e
  | .assignArr t d i e => by
    simp only [st, argsS]
    go argsE_bare p i
    exact argsE_bare p e
  | .assignMem t m d e => argsE_bare p e
  | .call t c as => by
    simp only [st, argsS, exs_length]
    go checkCall_bare p c as.length
    go argsEs_bare p as
    exact argsE_bare p c
  | .ifS t c thn h els => by
    simp only [st, argsS]
    go argsE_bare p c
    go argsB_bare p thn
    exact argsB_bare p els
  | .whileS t c body => by
    simp only [st, argsS]
    go argsE_bare p c
    exact argsB_bare p body
  | .forS t n d a b body => by
    simp only [st, argsS]
    go argsE_bare p a
    go argsE_bare p b
    exact argsB_bare p body
  | .ret t e => argsO_bare p e
theorem argsB_bare (p : Prog Ref) : ∀ ss : List (Stmt Ref), To id (argsB p ss) (argsB (prog p) (bl ss))
  | [] => rfl
  | s :: ss => by
    simp only [bl, argsB]
    go argsS_bare p s
    exact argsB_bare p ss
end

theorem argsItem_bare (p : Prog Ref) : ∀ x : Item Ref, To id (argsItem p x) (argsItem (prog p) (item x))
  | .var _ _ e => argsO_bare p e
  | .func f => argsB_bare p f.body
  | .syscall .. => rfl

theorem argsItems_bare (p : Prog Ref) : ∀ xs : List (Item Ref), To id (argsItems p xs) (argsItems (prog p) (prog xs))
  | [] => rfl
  | x :: xs => by
    rw [show prog (x :: xs) = item x :: prog xs from rfl]
    simp only [argsItems]
    go argsItem_bare p x
    exact argsItems_bare p xs

theorem runSema_bare (L : Layout) (p : Prog Unit) : To prog (runSema L p) (runSema L (prog p)) := by
  unfold runSema multiDecls numArgs
  go annotate_bare L p
  go globalVars_bare _
  go consts_bare _
  rename_i q
  go multiItems_bare q []
  go argsItems_bare q q
  rfl

/-! ### The optimiser -/

theorem isRet_bare (s : Stmt D) : (st s).isRet = s.isRet := by cases s <;> rfl

theorem cutAfterRet_bare : ∀ ss : List (Stmt D), cutAfterRet (bl ss) = bl (cutAfterRet ss)
  | [] => rfl
  | s :: ss => by
    simp only [bl, cutAfterRet, isRet_bare]
    split
    · rfl
    · rw [cutAfterRet_bare ss, bl]

theorem postRet_bare : ∀ p : Prog D, postRet (prog p) = prog (postRet p)
  | [] => rfl
  | x :: p => by
    have := postRet_bare p
    unfold postRet prog at this ⊢
    simp only [List.map_cons, this]
    congr 1
    cases x with
    | func f => simp [item, postRetItem, fn, cutAfterRet_bare]
    | _ => rfl

theorem constUn_bare (t : Token) (a : I32) : To id (constUn t a) (constUn (tok t) a) := by
  unfold constUn
  rw [show (tok t).type = t.type from rfl]
  exact .refl

mutual
theorem knownE_bare : ∀ e : Expr D, To id (knownE e) (knownE (ex e))
  | .ident .. => rfl
  | .int .. => rfl
  | .float .. => rfl
  | .str .. => rfl
  | .none .. => rfl
  | .member .. => rfl
  | .arr t es => by
    simp only [ex, knownE]
    go knownEs_bare es
    rfl
  | .deref t l i => by
    simp only [ex, knownE]
    go knownE_bare l
    go knownE_bare i
    rfl
  | .call t c as => by
    simp only [ex, knownE]
    go knownEs_bare as
    go knownE_bare c
    rfl
  | .bin op l r => by
    simp only [ex, knownE]
    go knownE_bare l
    go knownE_bare r
    split
    · go constBin_bare op _ _
      rfl
    · rfl
  | .un op a => by
    simp only [ex, knownE]
    go knownE_bare a
    rename_i v
    cases v with
    | none => rfl
    | some v =>
      dsimp only
      go constUn_bare op v
      rfl
theorem knownEs_bare : ∀ es : List (Expr D), To id (knownEs es) (knownEs (exs es))
  | [] => rfl
  | e :: es => by
    simp only [exs, knownEs]
    go knownE_bare e
    exact knownEs_bare es
end

theorem foldTop_bare (e : Expr D) : To ex (foldTop e) (foldTop (ex e)) := by
  unfold foldTop
  go knownE_bare e
  rename_i v
  cases v <;> cases e <;> rfl

theorem knownO_bare : ∀ o : Option (Expr D), To id (knownO o) (knownO (o.map ex))
  | none => rfl
  | some e => by
    simp only [Option.map_some, knownO]
    go knownE_bare e
    rfl

mutual
theorem foldS_bare : ∀ s : Stmt D, To st (foldS s) (foldS (st s))
  | .var t d e => by
    simp only [st, foldS]
    go knownO_bare e
    rfl
  | .assign t d e => by
    simp only [st, foldS]
    go foldTop_bare e
    rfl
  | .assignArr t d i e => by
    simp only [st, foldS]
    go knownE_bare i
    go knownE_bare e
    rfl
  | .assignMem t m d e => by
    simp only [st, foldS]
    go knownE_bare e
    rfl
  | .call t c as => by
    simp only [st, foldS]
    go knownEs_bare as
    go knownE_bare c
    rfl
  | .ifS t c thn h els => by
    simp only [st, foldS]
    go foldTop_bare c
    go foldB_bare thn
    go foldB_bare els
    rfl
  | .whileS t c body => by
    simp only [st, foldS]
    go foldTop_bare c
    go foldB_bare body
    rfl
  | .forS t n d a b body => by
    simp only [st, foldS]
    go knownE_bare a
    go knownE_bare b
    go foldB_bare body
    rfl
  | .ret t none => rfl
  | .ret t (some e) => by
    simp only [st, foldS, Option.map_some]
    go foldTop_bare e
    rfl
theorem foldB_bare : ∀ ss : List (Stmt D), To bl (foldB ss) (foldB (bl ss))
  | [] => rfl
  | s :: ss => by
    simp only [bl, foldB]
    go foldS_bare s
    go foldB_bare ss
    rfl
end

theorem foldItem_bare : ∀ x : Item D, To item (foldItem x) (foldItem (item x))
  | .var t c e => by
    simp only [item, foldItem]
    go knownO_bare e
    rfl
  | .func f => by
    simp only [item, foldItem, fn]
    go foldB_bare f.body
    rfl
  | .syscall .. => rfl

theorem constFold_bare : ∀ p : Prog D, To prog (constFold p) (constFold (prog p))
  | [] => rfl
  | x :: p => by
    rw [show prog (x :: p) = item x :: prog p from rfl]
    simp only [constFold]
    go foldItem_bare x
    go constFold_bare p
    rfl

mutual
theorem pruneS_bare : ∀ (s : Stmt D) (m : List Nat), pruneS m (st s) = (st (pruneS m s).1, (pruneS m s).2)
  | .ifS t c thn h els, m => by
    simp only [st, pruneS, pruneB_bare thn, pruneB_bare els]
    cases c with
    | int v k cell =>
      simp only [ex]
      split
      · rfl
      · cases cell <;> cases h <;> rfl
    | _ => rfl
  | .whileS t c body, m => by
    simp only [st, pruneS, pruneB_bare body]
    cases c with
    | int v k cell =>
      simp only [ex]
      split <;> rfl
    | _ => rfl
  | .forS t n d a b body, m => by
    simp only [st, pruneS, pruneB_bare body]
  | .var .., _ => rfl
  | .assign .., _ => rfl
  | .assignArr .., _ => rfl
  | .assignMem .., _ => rfl
  | .call .., _ => rfl
  | .ret .., _ => rfl
theorem pruneB_bare : ∀ (ss : List (Stmt D)) (m : List Nat), pruneB m (bl ss) = (bl (pruneB m ss).1, (pruneB m ss).2)
  | [], _ => rfl
  | s :: ss, m => by simp only [bl, pruneB, pruneS_bare s, pruneB_bare ss]
end

theorem pruneItems_bare : ∀ (p : Prog D) (m : List Nat),
    pruneItems m (prog p) = (prog (pruneItems m p).1, (pruneItems m p).2)
  | [], _ => rfl
  | x :: p, m => by
    rw [show prog (x :: p) = item x :: prog p from rfl]
    cases x with
    | func f =>
      simp only [item, pruneItems, fn, pruneB_bare, pruneItems_bare p]
      rfl
    | var t c e =>
      simp only [item, pruneItems, pruneItems_bare p]
      rfl
    | syscall n a =>
      simp only [item, pruneItems, pruneItems_bare p]
      rfl

mutual
theorem patchE_bare (m : List Nat) : ∀ e : Expr D, patchE m (ex e) = ex (patchE m e)
  | .ident .. => rfl
  | .int .. => rfl
  | .float .. => rfl
  | .str .. => rfl
  | .none .. => rfl
  | .member .. => rfl
  | .arr t es => by simp only [ex, patchE, patchEs_bare m es]
  | .deref t l i => by simp only [ex, patchE, patchE_bare m l, patchE_bare m i]
  | .call t c as => by simp only [ex, patchE, patchE_bare m c, patchEs_bare m as]
  | .bin op l r => by simp only [ex, patchE, patchE_bare m l, patchE_bare m r]
  | .un op a => by simp only [ex, patchE, patchE_bare m a]
theorem patchEs_bare (m : List Nat) : ∀ es : List (Expr D), patchEs m (exs es) = exs (patchEs m es)
  | [] => rfl
  | e :: es => by simp only [exs, patchEs, patchE_bare m e, patchEs_bare m es]
end

theorem patchO_bare (m : List Nat) (o : Option (Expr D)) :
    (o.map ex).map (patchE m) = (o.map (patchE m)).map ex := by
  cases o with
  | none => rfl
  | some e => simp only [Option.map_some, patchE_bare]

mutual
theorem patchS_bare (m : List Nat) : ∀ s : Stmt D, patchS m (st s) = st (patchS m s)
  | .var t d e => by simp only [st, patchS, patchO_bare]
  | .assign t d e => by simp only [st, patchS, patchE_bare]
  | .assignArr t d i e => by simp only [st, patchS, patchE_bare]
  | .assignMem t k d e => by simp only [st, patchS, patchE_bare]
  | .call t c as => by simp only [st, patchS, patchE_bare, patchEs_bare]
  | .ifS t c thn h els => by simp only [st, patchS, patchE_bare, patchB_bare m thn, patchB_bare m els]
  | .whileS t c body => by simp only [st, patchS, patchE_bare, patchB_bare m body]
  | .forS t n d a b body => by simp only [st, patchS, patchE_bare, patchB_bare m body]
  | .ret t e => by simp only [st, patchS, patchO_bare]
theorem patchB_bare (m : List Nat) : ∀ ss : List (Stmt D), patchB m (bl ss) = bl (patchB m ss)
  | [] => rfl
  | s :: ss => by simp only [bl, patchB, patchS_bare m s, patchB_bare m ss]
end

theorem patchItem_bare (m : List Nat) (x : Item D) : patchItem m (item x) = item (patchItem m x) := by
  cases x with
  | var t c e => simp only [item, patchItem, patchO_bare]
  | func f => simp only [item, patchItem, fn, patchB_bare]
  | syscall => rfl

theorem ifRemove_bare (p : Prog D) : ifRemove (prog p) = prog (ifRemove p) := by
  simp only [ifRemove, pruneItems_bare]
  simp only [prog, List.map_map]
  congr 1
  funext x
  exact patchItem_bare _ x

theorem runOptimize_bare (opt : Bool) (p : Prog D) : To prog (runOptimize opt p) (runOptimize opt (prog p)) := by
  unfold runOptimize
  cases opt with
  | false => rfl
  | true =>
    simp only [if_true, postRet_bare]
    go constFold_bare (postRet p)
    exact ifRemove_bare _

/-! ### Before code generation -/

theorem isSlot_bare (x : Item D) : (item x).isSlot = x.isSlot := by cases x <;> rfl

theorem countSlots_bare : ∀ p : Prog D, (prog p).countP Item.isSlot = p.countP Item.isSlot
  | [] => rfl
  | x :: p => by
    rw [show prog (x :: p) = item x :: prog p from rfl, List.countP_cons, List.countP_cons, countSlots_bare p,
      isSlot_bare]

theorem globalOffset_bare (p : Prog D) (i : Nat) : globalOffset (prog p) i = globalOffset p i := by
  unfold globalOffset
  rw [prog_get, show (prog p).take i = prog (p.take i) by simp [prog, List.map_take], countSlots_bare]
  cases p[i]? with
  | none => rfl
  | some x =>
    cases x with
    | var t c e => cases c <;> rfl
    | _ => rfl

theorem initFrom_bare : ∀ (p : Prog Ref) (i : Nat), initFrom i (prog p) = bl (initFrom i p)
  | [], _ => rfl
  | x :: p, i => by
    rw [show prog (x :: p) = item x :: prog p from rfl]
    cases x with
    | var t c e =>
      cases c with
      | true =>
        simp only [item, initFrom]
        exact initFrom_bare p _
      | false =>
        cases e with
        | none =>
          simp only [item, Option.map_none, initFrom]
          exact initFrom_bare p _
        | some e => simp only [item, Option.map_some, initFrom, bl, st, initFrom_bare p]
    | func f =>
      simp only [item, initFrom]
      exact initFrom_bare p _
    | syscall n a =>
      simp only [item, initFrom]
      exact initFrom_bare p _

/-- A local variable without the line of its name. -/
def localVar (l : LocalVar) : LocalVar := { l with name := tok l.name }

mutual
theorem offS_bare : ∀ (s : Stmt Ref) (cur : Nat), offS cur (st s) = ((offS cur s).1.map localVar, (offS cur s).2)
  | .var .., _ => rfl
  | .assign .., _ => rfl
  | .assignArr .., _ => rfl
  | .assignMem .., _ => rfl
  | .call .., _ => rfl
  | .ret .., _ => rfl
  | .ifS t c thn h els, cur => by simp only [st, offS, offB_bare thn, offB_bare els, List.map_append]
  | .whileS t c body, cur => by simp only [st, offS, offB_bare body]
  | .forS t n d a b body, cur => by simp only [st, offS, offB_bare body]
theorem offB_bare : ∀ (ss : List (Stmt Ref)) (cur : Nat), offB cur (bl ss) = ((offB cur ss).1.map localVar, (offB cur ss).2)
  | [], _ => rfl
  | s :: ss, cur => by simp only [bl, offB, offS_bare s, offB_bare ss, List.map_append]
end

theorem funcLocals_bare (body : List (Stmt Ref)) : funcLocals (bl body) = (funcLocals body).map localVar := by
  simp only [funcLocals, offB_bare]

theorem stackSize_bare (ls : List LocalVar) : stackSize (ls.map localVar) = stackSize ls := by
  unfold stackSize
  rw [List.foldl_map]
  rfl

theorem localOffset_bare (r : Ref) : ∀ ls : List LocalVar, localOffset (ls.map localVar) r = localOffset ls r
  | [] => rfl
  | l :: ls => by
    have := localOffset_bare r ls
    unfold localOffset at this ⊢
    rw [List.map_cons, List.find?_cons, List.find?_cons, show (localVar l).ref = l.ref from rfl]
    cases l.ref == r with
    | true => rfl
    | false => exact this

/-- The context of a function in the program without lines. -/
def ctx (cx : GenCtx) : GenCtx := { cx with prog := prog cx.prog }

theorem funcCtx_bare (p : Prog Ref) (f : FuncDecl Ref) : funcCtx (prog p) (fn f) = ctx (funcCtx p f) := by
  unfold funcCtx ctx
  have : localOffset (funcLocals (bl f.body)) = localOffset (funcLocals f.body) := by
    funext r
    rw [funcLocals_bare, localOffset_bare]
  simp only [fn, List.length_map, this]
  rw [funcLocals_bare, stackSize_bare]

/-! ### Code generation -/

/-- Both give related results, or both end with the same failure. -/
def Out2 {α β : Type} (R : α → β → Prop) : Out α → Out β → Prop
  | .ok a, .ok b => R a b
  | .error s, .error s' => s = s'
  | _, _ => False

theorem Out2.bind {R : α → β → Prop} {Q : γ → δ → Prop} {x : Out α} {y : Out β} {k : α → Out γ} {k' : β → Out δ}
    (h : Out2 R x y) (hk : ∀ a b, R a b → Out2 Q (k a) (k' b)) : Out2 Q (x >>= k) (y >>= k') := by
  cases x with
  | error s =>
    cases y with
    | error s' => exact h
    | ok b => exact False.elim h
  | ok a =>
    cases y with
    | error s' => exact False.elim h
    | ok b => exact hk a b h

theorem Out2.refl {x : Out α} : Out2 Eq x x := by cases x <;> rfl

/-- The first step is the same. -/
theorem Out2.same {Q : γ → δ → Prop} {x : Out α} {k : α → Out γ} {k' : α → Out δ}
    (hk : ∀ a, Out2 Q (k a) (k' a)) : Out2 Q (x >>= k) (x >>= k') :=
  Out2.refl.bind fun a b h => by subst h; exact hk a

/-- A builder with another line table. -/
def lined (l : LineTable) (b : Builder) : Builder := { b with prog := { b.prog with lines := l } }

/-- Builders that differ in the line table only. -/
def Alike (b b' : Builder) : Prop := ∃ l, b' = lined l b

/-- Alike in, alike out. -/
abbrev Keeps (g g' : Builder → Out Builder) : Prop := ∀ b l, Out2 Alike (g b) (g' (lined l b))

theorem Keeps.bind {g g' h h' : Builder → Out Builder} (hg : Keeps g g') (hh : Keeps h h') :
    Keeps (fun b => g b >>= h) (fun b => g' b >>= h') := fun b l =>
  (hg b l).bind fun a a' e => by
    obtain ⟨l', rfl⟩ := e
    exact hh a l'

theorem Out2.thn {x : Out Builder} {y : Out Builder} {h h' : Builder → Out Builder} (hg : Out2 Alike x y)
    (hh : Keeps h h') : Out2 Alike (x >>= h) (y >>= h') :=
  hg.bind fun a a' e => by
    obtain ⟨l', rfl⟩ := e
    exact hh a l'

theorem keeps_ok : Keeps .ok .ok := fun _ l => ⟨l, rfl⟩

theorem bHead_lined (l : LineTable) (b : Builder) : bHead (lined l b) = bHead b := rfl

theorem bFixup_lined (l : LineTable) (b : Builder) : bFixup (lined l b) = bFixup b := rfl

theorem emit_bare (i : Ins) (t t' : Option Token) : Keeps (bEmit i t) (bEmit i t') := by
  intro b l
  unfold bEmit
  rw [bHead_lined]
  exact .same fun pc => .same fun bs => ⟨_, rfl⟩

theorem apply_bare (i v : Nat) : Keeps (bApply i v) (bApply i v) := by
  intro b l
  unfold bApply
  exact .same fun c => ⟨_, rfl⟩

theorem addFixup_bare (n : Str) : Keeps (addFixup n) (addFixup n) := by
  intro b l
  unfold addFixup
  rw [bFixup_lined]
  exact .same fun c => ⟨_, rfl⟩

theorem varPlace_bare (cx : GenCtx) (r : Ref) : varPlace (ctx cx) r = varPlace cx r := by
  cases r with
  | item i =>
    simp only [varPlace, ctx, prog_get, globalOffset_bare]
    cases cx.prog[i]? with
    | none => rfl
    | some x =>
      cases x with
      | var t c e => cases c <;> rfl
      | _ => rfl
  | _ => rfl

theorem genGet_bare (cx : GenCtx) (r : Ref) (t t' : Option Token) : Keeps (genGet cx r t) (genGet (ctx cx) r t') := by
  intro b l
  unfold genGet
  rw [varPlace_bare]
  exact .same fun x => emit_bare _ _ _ b l

theorem genSet_bare (cx : GenCtx) (r : Ref) (t t' : Option Token) : Keeps (genSet cx r t) (genSet (ctx cx) r t') := by
  intro b l
  unfold genSet
  rw [varPlace_bare]
  exact .same fun x => emit_bare _ _ _ b l

theorem genIdent_bare (cx : GenCtx) (t : Token) (r : Ref) : Keeps (genIdent cx t r) (genIdent (ctx cx) (tok t) r) := by
  intro b l
  cases r with
  | item i =>
    have hget := genGet_bare cx (.item i) (some t) (some (tok t)) b l
    simp only [genIdent, show (ctx cx).prog = prog cx.prog from rfl, prog_get]
    cases cx.prog[i]? with
    | none => exact hget
    | some x =>
      cases x with
      | var => exact hget
      | func f =>
        simp only [Option.map_some, item]
        exact (emit_bare _ _ _ b l).thn (addFixup_bare _)
      | syscall n a =>
        simp only [Option.map_some, item, show (lined l b).prog.syscalls = b.prog.syscalls from rfl]
        cases sysIndex b.prog.syscalls n with
        | none => rfl
        | some j => exact emit_bare _ _ _ b l
  | arg i => exact genGet_bare cx (.arg i) _ _ b l
  | loc i => exact genGet_bare cx (.loc i) _ _ b l

theorem addSyscall_lined (n : Str) (l : LineTable) (p : Program) :
    addSyscall n { p with lines := l } = ((addSyscall n p).1, { (addSyscall n p).2 with lines := l }) := by
  unfold addSyscall
  dsimp only
  cases sysIndex p.syscalls n <;> rfl

theorem genInvoke_bare (cx : GenCtx) (t : Token) (c : Expr Ref) (n : Nat) {g g' : Builder → Out Builder}
    (hg : Keeps g g') : Keeps (genInvoke cx t c n g) (genInvoke (ctx cx) (tok t) (ex c) n g') := by
  intro b l
  have hind : Out2 Alike (g b >>= fun b => bEmit (.i1 .ICALL (i32 n)) (some t) b)
      (g' (lined l b) >>= fun b => bEmit (.i1 .ICALL (i32 n)) (some (tok t)) b) :=
    (hg b l).thn (emit_bare _ _ _)
  cases c with
  | ident name r =>
    cases r with
    | item i =>
      simp only [genInvoke, ex, show (ctx cx).prog = prog cx.prog from rfl, prog_get]
      cases cx.prog[i]? with
      | none => exact hind
      | some x =>
        cases x with
        | var => exact hind
        | func f =>
          simp only [Option.map_some, item, fn, List.length_map]
          split
          · exact (emit_bare _ _ _ b l).thn (addFixup_bare _)
          · rfl
        | syscall s a =>
          simp only [Option.map_some, item]
          split
          · have h := addSyscall_lined s l b.prog
            rw [show (lined l b).prog = { b.prog with lines := l } from rfl]
            generalize addSyscall s { b.prog with lines := l } = q at h ⊢
            subst h
            exact emit_bare _ _ _ { b with prog := (addSyscall s b.prog).2 } l
          · rfl
    | _ => exact hind
  | _ => exact hind

mutual
theorem genE_bare (cx : GenCtx) : ∀ e : Expr Ref, Keeps (genE cx e) (genE (ctx cx) (ex e))
  | .ident t r => genIdent_bare cx t r
  | .int .. => emit_bare _ _ _
  | .float .. => emit_bare _ _ _
  | .str s t => fun b l => emit_bare _ _ _ (bString s b).2 l
  | .none .. => emit_bare _ _ _
  | .member t m r => fun b l => by
    simp only [ex, genE]
    exact (genGet_bare cx r _ _ (bString m.str b).2 l).thn (emit_bare _ _ _)
  | .arr t es => fun b l => by
    simp only [ex, genE, exs_length]
    refine (genEs_bare cx es b l).thn fun b l => ?_
    split
    · rfl
    · exact emit_bare _ _ _ b l
  | .deref t x i => fun b l => by
    simp only [ex, genE]
    exact (genE_bare cx i b l).thn ((genE_bare cx x).bind (emit_bare _ _ _))
  | .call t c as => fun b l => by
    simp only [ex, genE, exs_length]
    exact (genEs_bare cx as b l).thn (genInvoke_bare cx t c _ (genE_bare cx c))
  | .bin op x y => fun b l => by
    simp only [ex, genE, show (tok op).type = op.type from rfl]
    exact (genE_bare cx x b l).thn ((genE_bare cx y).bind fun b l => .same fun o => emit_bare _ _ _ b l)
  | .un op a => fun b l => by
    simp only [ex, genE, show (tok op).type = op.type from rfl]
    refine (genE_bare cx a b l).thn fun b l => ?_
    split
    · exact emit_bare _ _ _ b l
    · exact emit_bare _ _ _ b l
    · exact keeps_ok b l
theorem genEs_bare (cx : GenCtx) : ∀ es : List (Expr Ref), Keeps (genEs cx es) (genEs (ctx cx) (exs es))
  | [] => keeps_ok
  | e :: es => fun b l => by
    simp only [exs, genEs]
    exact (genE_bare cx e b l).thn (genEs_bare cx es)
end

theorem space_bare (cx : GenCtx) : (ctx cx).space = cx.space := rfl

mutual
theorem genS_bare (cx : GenCtx) : ∀ s : Stmt Ref, Keeps (genS cx s) (genS (ctx cx) (st s))
  | .var t r none => keeps_ok
  | .var t r (some e) => fun b l => by
    simp only [st, Option.map_some, genS]
    exact (genE_bare cx e b l).thn (emit_bare _ _ _)
  | .assign t r e => fun b l => by
    simp only [st, genS]
    exact (genE_bare cx e b l).thn (genSet_bare cx r _ _)
  | .assignArr t r i e => fun b l => by
    simp only [st, genS]
    exact (genE_bare cx e b l).thn ((genE_bare cx i).bind ((genGet_bare cx r _ _).bind (emit_bare _ _ _)))
  | .assignMem t m r e => fun b l => by
    simp only [st, genS]
    exact (genE_bare cx e b l).thn ((genGet_bare cx r _ _).bind fun b l => emit_bare _ _ _ (bString m.str b).2 l)
  | .call t c as => fun b l => by
    simp only [st, genS, exs_length]
    exact (genEs_bare cx as b l).thn ((genInvoke_bare cx t c _ (genE_bare cx c)).bind (emit_bare _ _ _))
  | .ifS t c thn h els => fun b l => by
    simp only [st, genS]
    refine (genE_bare cx c b l).thn ((emit_bare _ _ _).bind fun b l => ?_)
    refine .same fun toL0 => (genB_bare cx thn b l).thn fun b l => ?_
    cases h with
    | false => exact .same fun l0 => apply_bare _ _ b l
    | true =>
      exact (emit_bare _ _ _ b l).thn fun b l => .same fun toL1 => .same fun l0 =>
        (genB_bare cx els b l).thn fun b l => .same fun l1 => (apply_bare _ _ b l).thn (apply_bare _ _)
  | .whileS t c body => fun b l => by
    simp only [st, genS]
    exact (emit_bare _ _ _ b l).thn fun b l => .same fun toL1 => .same fun l0 =>
      (genB_bare cx body b l).thn fun b l => .same fun l1 =>
        (genE_bare cx c b l).thn ((emit_bare _ _ _).bind fun b l => .same fun toL0 =>
          (apply_bare _ _ b l).thn (apply_bare _ _))
  | .forS t n r x y body => fun b l => by
    simp only [st, genS]
    exact (genE_bare cx x b l).thn ((genSet_bare cx r _ _).bind ((emit_bare _ _ _).bind fun b l =>
      .same fun toL1 => .same fun l0 => (genB_bare cx body b l).thn ((genGet_bare cx r _ _).bind
        ((emit_bare _ _ _).bind ((emit_bare _ _ _).bind ((genSet_bare cx r _ _).bind fun b l =>
          .same fun l1 => (genGet_bare cx r _ _ b l).thn ((genE_bare cx y).bind ((emit_bare _ _ _).bind
            ((emit_bare _ _ _).bind fun b l => .same fun toL0 => (apply_bare _ _ b l).thn (apply_bare _ _))))))))))
  | .ret t none => fun b l => by
    simp only [st, Option.map_none, genS]
    exact (emit_bare _ _ _ b l).thn (emit_bare _ _ _)
  | .ret t (some e) => fun b l => by
    simp only [st, Option.map_some, genS]
    exact (genE_bare cx e b l).thn (emit_bare _ _ _)
theorem genB_bare (cx : GenCtx) : ∀ ss : List (Stmt Ref), Keeps (genB cx ss) (genB (ctx cx) (bl ss))
  | [] => keeps_ok
  | s :: ss => fun b l => by
    simp only [bl, genB]
    exact (genS_bare cx s b l).thn (genB_bare cx ss)
end

theorem bFunction_bare (n : Str) (g : Function → Function) : Keeps (bFunction n g) (bFunction n g) := by
  intro b l
  unfold bFunction
  exact .same fun c => ⟨_, rfl⟩

theorem bEnter_bare (n : Str) : Keeps (bEnter n) (bEnter n) := by
  intro b l
  unfold bEnter
  rw [bHead_lined]
  exact .same fun pc => (bFunction_bare _ _ b l).thn fun b l => ⟨_, rfl⟩

theorem bLeave_bare (n : Str) : Keeps (bLeave n) (bLeave n) := by
  intro b l
  unfold bLeave
  rw [bHead_lined]
  exact .same fun pc => bFunction_bare _ _ b l

theorem genLocals_bare (cx : GenCtx) (t : Token) : Keeps (genLocals cx t) (genLocals (ctx cx) (tok t)) := by
  intro b l
  unfold genLocals
  rw [show (ctx cx).size = cx.size from rfl]
  split
  · exact emit_bare _ _ _ b l
  · exact keeps_ok b l

theorem bl_eq_map : ∀ ss : List (Stmt D), bl ss = ss.map st
  | [] => rfl
  | s :: ss => by rw [bl, bl_eq_map ss, List.map_cons]

theorem genEnd_bare (cx : GenCtx) (f : FuncDecl Ref) : Keeps (genEnd cx f) (genEnd (ctx cx) (fn f)) := by
  intro b l
  unfold genEnd
  have : (fn f).body.getLast?.map Stmt.isRet = f.body.getLast?.map Stmt.isRet := by
    rw [show (fn f).body = bl f.body from rfl, bl_eq_map, List.getLast?_map]
    cases f.body.getLast? with
    | none => rfl
    | some s => simp [isRet_bare]
  rw [this]
  split
  · exact keeps_ok b l
  · exact (emit_bare _ _ _ b l).thn (emit_bare _ _ _)

theorem genFunc_bare (p : Prog Ref) (f : FuncDecl Ref) : Keeps (genFunc p f) (genFunc (prog p) (fn f)) := by
  intro b l
  unfold genFunc
  rw [funcCtx_bare]
  exact (bEnter_bare _ b l).thn ((genLocals_bare _ _).bind ((genB_bare _ _).bind ((genEnd_bare _ _).bind
    (bLeave_bare _))))

theorem genInit_bare (p : Prog Ref) : Keeps (genInit p) (genInit (prog p)) := by
  intro b l
  unfold genInit
  rw [countSlots_bare, show initBody (prog p) = bl (initBody p) from initFrom_bare p 0,
    show initCtx (prog p) = ctx (initCtx p) from rfl]
  exact (bEnter_bare _ b l).thn ((emit_bare _ _ _).bind ((genB_bare _ _).bind ((emit_bare _ _ _).bind
    ((emit_bare _ _ _).bind (bLeave_bare _)))))

theorem genItems_bare (p : Prog Ref) : ∀ (xs : Prog Ref) (i : Nat), Keeps (genItems p i xs) (genItems (prog p) i (prog xs))
  | [], _ => keeps_ok
  | x :: xs, i => fun b l => by
    rw [show prog (x :: xs) = item x :: prog xs from rfl]
    cases x with
    | var t c e =>
      simp only [item, genItems]
      rw [show genGlobal (prog p) i (tok t) (lined l b) = lined l (genGlobal p i t b) by
        unfold genGlobal
        rw [globalOffset_bare]
        rfl]
      exact genItems_bare p xs (i + 1) _ l
    | func f =>
      simp only [item, genItems]
      exact (genFunc_bare p f b l).thn (genItems_bare p xs (i + 1))
    | syscall n a =>
      simp only [item, genItems]
      exact genItems_bare p xs (i + 1) b l

/-- Programs that differ in the line table only. -/
def AlikeP (p q : Program) : Prop := ∃ l, q = { p with lines := l }

theorem genProgram_bare (p : Prog Ref) (b : Builder) : Out2 AlikeP (genProgram p b) (genProgram (prog p) b) := by
  unfold genProgram
  refine (genItems_bare p p 0 b b.prog.lines).bind fun b b' h => ?_
  obtain ⟨l, rfl⟩ := h
  refine (genInit_bare p b l).bind fun b b' h => ?_
  obtain ⟨l, rfl⟩ := h
  exact .same fun code => ⟨l, rfl⟩

theorem identsOf_bare : ∀ ts : List (Token × I32), identsOf (ts.map fun x => (tok x.1, x.2)) = identsOf ts
  | [] => rfl
  | (t, o) :: ts => by
    simp only [List.map_cons, identsOf, identsOf_bare ts, tok_string]

theorem funcEntry_bare (f : FuncDecl Ref) : funcEntry (fn f) = funcEntry f := by
  unfold funcEntry
  have h1 : ((fn f).args.mapIdx fun i t => (t, argOffset (fn f).args.length i)) =
      (f.args.mapIdx fun i t => (t, argOffset f.args.length i)).map fun x => (tok x.1, x.2) := by
    apply List.ext_getElem?
    intro i
    simp only [fn, List.length_map, List.getElem?_mapIdx, List.getElem?_map]
    cases f.args[i]? <;> rfl
  have h2 : ((funcLocals (fn f).body).map fun l => (l.name, i32 l.off)) =
      ((funcLocals f.body).map fun l => (l.name, i32 l.off)).map fun x => (tok x.1, x.2) := by
    rw [show (fn f).body = bl f.body from rfl, funcLocals_bare, List.map_map, List.map_map]
    rfl
  rw [h1, h2, identsOf_bare, identsOf_bare]
  rfl

theorem pregenItems_bare : ∀ (xs : Prog Ref) (p : Program), pregenItems (prog xs) p = pregenItems xs p
  | [], _ => rfl
  | x :: xs, p => by
    rw [show prog (x :: xs) = item x :: prog xs from rfl]
    cases x with
    | var => simp only [item, pregenItems, pregenItems_bare xs]
    | func f => simp only [item, pregenItems, pregenItems_bare xs, funcEntry_bare]
    | syscall => simp only [item, pregenItems, pregenItems_bare xs]

theorem codegen_bare (p : Prog Ref) : Out2 AlikeP (codegen p) (codegen (prog p)) := by
  unfold codegen pregen
  rw [pregenItems_bare]
  exact .same fun q => genProgram_bare p _

/-! ### The compiler -/

theorem compile_bare (L : Layout) (opt : Bool) (p : Prog Unit) :
    Both AlikeP (compile L opt p) (compile L opt (prog p)) := by
  unfold compile
  rcases To.elim (runSema_bare L p) with ⟨_, _, hx, hy, hs⟩ | ⟨q, hx, hy⟩
  · rw [hx, hy]
    exact hs
  · rw [hx, hy]
    dsimp only
    rcases To.elim (runOptimize_bare opt q) with ⟨_, _, hx, hy, hs⟩ | ⟨q, hx, hy⟩
    · rw [hx, hy]
      exact hs
    · rw [hx, hy]
      have := codegen_bare q
      dsimp only
      generalize codegen q = x at *
      generalize codegen (prog q) = y at *
      cases x <;> cases y <;> exact this

end Ccml.Bare
