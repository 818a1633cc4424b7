import Verif.ParserSafe
/-!
What the parser makes: trees whose tokens come from the token stream, whose literals are not shared, and
whose declared names are identifiers.  Only imports change the list of sources.
-/
namespace Ccml.Made
open Ccml

section
variable (T : Token → Prop)

mutual
/-- An expression made from tokens with `T`; literals have the value of their token and are not shared. -/
def E : Expr Unit → Prop
  | .ident t _ => T t ∧ t.type = .IDENT
  | .int v t c => (∃ k, t = some k ∧ T k ∧ k.type = .INT ∧ v = k.val) ∧ c = none
  | .float v t => ∃ k, t = some k ∧ T k ∧ k.type = .FLOAT ∧ v = k.val
  | .str v t => ∃ k, t = some k ∧ T k ∧ k.type = .STRING ∧ v = k.str
  | .none t => ∃ k, t = some k ∧ T k ∧ k.type = .NONE
  | .arr t es => T t ∧ Es es
  | .member t m _ => T t ∧ T m ∧ t.type = .IDENT
  | .deref t l i => T t ∧ E l ∧ E i
  | .call t c as => T t ∧ E c ∧ Es as
  | .bin op l r => T op ∧ E l ∧ E r
  | .un op e => T op ∧ E e
/-- The same of a list. -/
def Es : List (Expr Unit) → Prop
  | [] => True
  | e :: es => E e ∧ Es es
end

/-- The same of an initialiser. -/
def O : Option (Expr Unit) → Prop
  | none => True
  | some e => E T e

mutual
/-- A statement made from tokens with `T`. -/
def S : Stmt Unit → Prop
  | .var t _ init => T t ∧ t.type = .IDENT ∧ O T init
  | .assign t _ e => T t ∧ t.type = .IDENT ∧ E T e
  | .assignArr t _ i e => T t ∧ t.type = .IDENT ∧ E T i ∧ E T e
  | .assignMem t m _ e => T t ∧ t.type = .IDENT ∧ T m ∧ E T e
  | .call t c as => T t ∧ E T c ∧ Es T as
  | .ifS t c thn he els => T t ∧ E T c ∧ B thn ∧ B els ∧ (he = false → els = [])
  | .whileS t c body => T t ∧ E T c ∧ B body
  | .forS t n _ a b body => T t ∧ T n ∧ n.type = .IDENT ∧ E T a ∧ E T b ∧ B body
  | .ret t e => T t ∧ O T e
/-- The same of a block. -/
def B : List (Stmt Unit) → Prop
  | [] => True
  | s :: ss => S s ∧ B ss
end

/-- The arguments of a function. -/
def Args (as : List Token) : Prop := ∀ a ∈ as, T a ∧ a.type = .IDENT

/-- A function made from tokens with `T`. -/
def F (f : FuncDecl Unit) : Prop :=
  T f.name ∧ f.name.type = .IDENT ∧ Args T f.args ∧ B T f.body ∧ T f.stop

/-- A child of the program made from tokens with `T`. -/
def I : Item Unit → Prop
  | .var t _ init => T t ∧ t.type = .IDENT ∧ O T init
  | .func f => F T f
  | .syscall _ _ => False

/-- The types of tokens that are neither a line end nor the end of the file. -/
def Word (ty : Tok) : Prop := ty ≠ .EOL ∧ ty ≠ .EOF

/-- A state of the parser made from tokens with `T`; line ends and the end of the file need not have it. -/
structure Inv (s : PState) : Prop where
  toks : ∀ t ∈ s.toks, Word t.type → T t
  ops : ∀ t ∈ s.ops, T t
  exps : Es T s.exps

/-- A parser function that keeps the invariant and the sources, with a condition on its result. -/
def Gives {α : Type} (x : PM α) (Q : α → Prop) : Prop :=
  ∀ s a s', Inv T s → x s = .ok (a, s') → Inv T s' ∧ s'.srcs = s.srcs ∧ Q a
end

variable {T : Token → Prop} {α β : Type}

theorem Gives.bind {x : PM α} {f : α → PM β} {Q : α → Prop} {R : β → Prop} (h : Gives T x Q)
    (hf : ∀ a, Q a → Gives T (f a) R) : Gives T (x >>= f) R := by
  intro s b s' hi h2
  rw [pm_bind] at h2
  split at h2
  · cases h2
  · rename_i a s1 h1
    obtain ⟨k1, k2, k3⟩ := h s a s1 hi h1
    obtain ⟨m1, m2, m3⟩ := hf a k3 s1 b s' k1 h2
    exact ⟨m1, m2.trans k2, m3⟩

theorem Gives.pure {a : α} {Q : α → Prop} (h : Q a) : Gives T (Pure.pure a : PM α) Q := by
  intro s b s' hi h2
  cases h2
  exact ⟨hi, rfl, h⟩

theorem Gives.mono {x : PM α} {Q R : α → Prop} (h : Gives T x Q) (k : ∀ a, Q a → R a) : Gives T x R :=
  fun s a s' hi hx => let ⟨h1, h2, h3⟩ := h s a s' hi hx; ⟨h1, h2, k a h3⟩

theorem fault_gives {f : Fault} {Q : α → Prop} : Gives T (pFault f : PM α) Q := by
  intro s a s' _ h; cases h

theorem errTok_ne {γ : Type} {l : SrcLine} {pre post : String} {t : Token} {x : γ} :
    (errTok l pre t post : Comp γ) ≠ .ok x := by
  unfold errTok
  split <;> nofun

theorem pErr_gives {l : SrcLine} {pre post : String} {t : Token} {Q : α → Prop} :
    Gives T (pErr l pre t post : PM α) Q := fun _ _ _ _ h => absurd h errTok_ne

theorem pErrHere_gives {pre post : String} {t : Token} {Q : α → Prop} :
    Gives T (pErrHere pre t post : PM α) Q := fun _ _ _ _ h => absurd h errTok_ne

theorem Inv.drop {s : PState} {t : Token} {ts : List Token} (h : Inv T s) (hs : s.toks = t :: ts) (l : SrcLine) :
    Inv T { s with toks := ts, line := l } ∧ (Word t.type → T t) :=
  ⟨⟨fun u hu => h.toks u (by rw [hs]; exact List.mem_cons_of_mem _ hu), h.ops, h.exps⟩,
    h.toks t (by rw [hs]; exact List.mem_cons_self ..)⟩

theorem popTok_gives : Gives T popTok fun t => Word t.type → T t := by
  intro s a s' hi h
  unfold popTok at h
  split at h
  · cases h
  · rename_i t ts hs
    cases h
    exact ⟨(hi.drop hs _).1, rfl, (hi.drop hs a.line).2⟩

theorem peekTok_gives : Gives T peekTok fun t => Word t.type → T t := by
  intro s a s' hi h
  unfold peekTok at h
  split at h
  · cases h
  · rename_i t ts hs
    cases h
    exact ⟨hi, rfl, (hi.drop hs a.line).2⟩

theorem isOperator_gives : Gives T isOperator fun _ => True := by
  refine Gives.bind (Q := fun _ => True) ?_ fun _ _ => Gives.pure trivial
  intro s a s' hi h
  unfold nextType at h
  split at h
  · cases h
  · cases h
    exact ⟨hi, rfl, trivial⟩

/-- The same from states whose next token is a word if `P`. -/
def GivesAt (T : Token → Prop) (P : Prop) (x : PM α) (Q : α → Prop) : Prop :=
  ∀ s a s', (P → ∀ t ∈ s.toks.head?, Word t.type) → Inv T s → x s = .ok (a, s') → Inv T s' ∧ s'.srcs = s.srcs ∧ Q a

theorem Gives.at {x : PM α} {Q : α → Prop} {P : Prop} (h : Gives T x Q) : GivesAt T P x Q :=
  fun s a s' _ hi hx => h s a s' hi hx

theorem popTok_at {P : Prop} (hP : P) : GivesAt T P popTok T := by
  intro s a s' hh hi h
  obtain ⟨h1, h2, h3⟩ := popTok_gives s a s' hi h
  refine ⟨h1, h2, h3 ?_⟩
  unfold popTok at h
  split at h
  · cases h
  · rename_i t ts hs
    cases h
    exact hh hP a (by rw [hs]; rfl)

theorem GivesAt.bind {x : PM α} {f : α → PM β} {Q : α → Prop} {R : β → Prop} {P : Prop} (h : GivesAt T P x Q)
    (hf : ∀ a, Q a → Gives T (f a) R) : GivesAt T P (x >>= f) R := by
  intro s b s' hh hi h2
  rw [pm_bind] at h2
  split at h2
  · cases h2
  · rename_i a s1 h1
    obtain ⟨k1, k2, k3⟩ := h s a s1 hh hi h1
    obtain ⟨m1, m2, m3⟩ := hf a k3 s1 b s' k1 h2
    exact ⟨m1, m2.trans k2, m3⟩

theorem isOperator_bind {f : Bool → PM β} {R : β → Prop} (h : ∀ b, GivesAt T (b = true) (f b) R) :
    Gives T (isOperator >>= f) R := by
  intro s b s' hi h2
  rw [pm_bind] at h2
  split at h2
  · cases h2
  · rename_i a s1 h1
    refine (?_ : _ ∧ _)
    unfold isOperator at h1
    rw [pm_bind] at h1
    unfold nextType at h1
    split at h1
    · cases h1
    · rename_i ty s2 h3
      split at h3
      · cases h3
      · rename_i t ts hs
        cases h3
        cases h1
        refine h _ s b s' ?_ hi h2
        intro ho u hu
        rw [hs] at hu
        cases hu
        constructor
        all_goals
          intro hue
          rw [hue] at ho
          exact absurd ho (by decide)

theorem peekTok_bind {f : Token → PM β} {R : β → Prop} (h : ∀ p : Token, GivesAt T (Word p.type) (f p) R) :
    Gives T (peekTok >>= f) R := by
  intro s b s' hi h2
  rw [pm_bind] at h2
  split at h2
  · cases h2
  · rename_i a s1 h1
    unfold peekTok at h1
    split at h1
    · cases h1
    · rename_i t ts hs
      cases h1
      refine h _ s b s' ?_ hi h2
      intro ho u hu
      rw [hs] at hu
      cases hu
      exact ho

/-- The token that was found, if any. -/
def Hit (T : Token → Prop) (ty : Tok) : Option Token → Prop
  | none => True
  | some t => (Word ty → T t) ∧ t.type = ty

theorem found_gives (ty : Tok) : Gives T (found ty) (Hit T ty) := by
  intro s a s' hi h
  unfold found at h
  split at h
  · cases h
  · rename_i t ts hs
    split at h
    · rename_i ht
      cases h
      exact ⟨(hi.drop hs _).1, rfl, fun h => (hi.drop hs t.line).2 (ht ▸ h), ht⟩
    · cases h
      exact ⟨hi, rfl, trivial⟩

theorem popType_gives (ty : Tok) : Gives T (popType ty) fun t => (Word ty → T t) ∧ t.type = ty := by
  intro s a s' hi h
  unfold popType at h
  split at h
  · cases h
  · rename_i t ts hs
    split at h
    · rename_i ht
      cases h
      exact ⟨(hi.drop hs _).1, rfl, fun h => (hi.drop hs a.line).2 (ht ▸ h), ht⟩
    · unfold unexpectedToken at h
      split at h <;> cases h

theorem skip_sub : ∀ (ts : List Token) (l : SrcLine) {us : List Token} {l' : SrcLine},
    skipEols.go ts l = .ok (us, l') → ∀ t ∈ us, t ∈ ts
  | [], l, us, l', h => by rw [skipEols.go] at h; cases h
  | t :: ts, l, us, l', h => by
    rw [skipEols.go] at h
    split at h
    · intro u hu
      exact List.mem_cons_of_mem _ (skip_sub ts _ h u hu)
    · cases h
      exact fun u hu => hu

theorem skipEols_gives : Gives T skipEols fun _ => True := by
  intro s a s' hi h
  unfold skipEols at h
  split at h
  · cases h
  · rename_i ts l hg
    cases h
    exact ⟨⟨fun t ht => hi.toks t (skip_sub _ _ hg t ht), hi.ops, hi.exps⟩, rfl, trivial⟩

theorem pushExp_gives {e : Expr Unit} (he : E T e) : Gives T (pushExp e) fun _ => True := by
  intro s a s' hi h
  cases h
  exact ⟨⟨hi.toks, hi.ops, by rw [Es]; exact ⟨he, hi.exps⟩⟩, rfl, trivial⟩

theorem popExp_gives {f : Fault} : Gives T (popExp f) (E T) := by
  intro s a s' hi h
  unfold popExp at h
  split at h
  · cases h
  · rename_i e es hs
    cases h
    have := hi.exps
    rw [hs, Es] at this
    exact ⟨⟨hi.toks, hi.ops, this.2⟩, rfl, this.1⟩

theorem reduceOp_made {o : Token} {es es' : List (Expr Unit)} (ho : T o) (he : Es T es)
    (h : reduceOp o es = .ok es') : Es T es' := by
  unfold reduceOp at h
  split at h
  · split at h
    · cases h
      simp only [Es] at he ⊢
      rw [E]
      exact ⟨⟨ho, he.2.1, he.1⟩, he.2.2⟩
    · cases h
  · split at h
    · split at h
      · cases h
        simp only [Es] at he ⊢
        rw [E]
        exact ⟨⟨ho, he.1⟩, he.2⟩
      · cases h
    · cases h
      exact he

theorem reduceLoop_made (prec tide : Nat) : ∀ (os : List Token) (es : List (Expr Unit)) {os' : List Token}
    {es' : List (Expr Unit)}, (∀ t ∈ os, T t) → Es T es → reduceLoop prec tide os es = .ok (os', es') →
    (∀ t ∈ os', T t) ∧ Es T es'
  | [], es, os', es', ho, he, h => by rw [reduceLoop] at h; cases h; exact ⟨ho, he⟩
  | o :: os, es, os', es', ho, he, h => by
    rw [reduceLoop] at h
    split at h
    · split at h
      · cases h; exact ⟨ho, he⟩
      · split at h
        · cases h
        · rename_i es1 h1
          exact reduceLoop_made prec tide os es1 (fun t ht => ho t (List.mem_cons_of_mem _ ht))
            (reduceOp_made (ho o (List.mem_cons_self ..)) he h1) h
    · cases h; exact ⟨ho, he⟩

theorem opPush_gives {op : Token} {tide : Nat} (ho : T op) : Gives T (opPush op tide) fun _ => True := by
  intro s a s' hi h
  unfold opPush at h
  split at h
  · cases h
  · rename_i os es hg
    cases h
    obtain ⟨k1, k2⟩ := reduceLoop_made _ _ _ _ hi.ops hi.exps hg
    refine ⟨⟨hi.toks, ?_, k2⟩, rfl, trivial⟩
    intro t ht
    rcases List.mem_cons.1 ht with rfl | ht
    · exact ho
    · exact k1 t ht

theorem opPopAll_gives {tide : Nat} : Gives T (opPopAll tide) fun _ => True := by
  intro s a s' hi h
  unfold opPopAll at h
  split at h
  · cases h
  · rename_i os es hg
    cases h
    obtain ⟨k1, k2⟩ := reduceLoop_made _ _ _ _ hi.ops hi.exps hg
    exact ⟨⟨hi.toks, k1, k2⟩, rfl, trivial⟩

theorem literal_type {t : Token} {e : Expr Unit} (h : literalNode t = some e) : Word t.type := by
  constructor
  all_goals
    intro ht
    unfold literalNode at h
    rw [ht] at h
    cases h

theorem literalNode_made {t : Token} {e : Expr Unit} (ht : T t) (h : literalNode t = some e) : E T e := by
  unfold literalNode at h
  split at h <;> cases h <;> rw [E]
  all_goals rename_i hk
  · exact ⟨⟨t, rfl, ht, hk, rfl⟩, rfl⟩
  · exact ⟨t, rfl, ht, hk, rfl⟩
  · exact ⟨t, rfl, ht, hk, rfl⟩
  · exact ⟨t, rfl, ht, hk⟩

theorem get_gives : Gives T (get : PM PState) fun _ => True := by
  intro s a s' hi h
  cases h
  exact ⟨hi, rfl, trivial⟩

/-- The statements about the functions for expressions, at one amount of fuel. -/
structure Exprs (T : Token → Prop) (n : Nat) : Prop where
  ex : ∀ tide, Gives T (parseExprEx n tide) fun _ => True
  tail : ∀ tide, Gives T (parseTail n tide) fun _ => True
  post : Gives T (parsePostfix n) fun _ => True
  lhs : Gives T (parseLhs n) fun _ => True
  expr : Gives T (parseExpr n) (E T)
  list : Gives T (parseExprList n) (Es T)
  args : Gives T (parseCallArgs n) (Es T)

theorem exprs : ∀ n, Exprs T n
  | 0 => by
    constructor
    all_goals first
      | (intro tide; simp only [parseExprEx, parseTail]; exact fault_gives)
      | (simp only [parsePostfix, parseLhs, parseExpr, parseExprList, parseCallArgs]; exact fault_gives)
  | n + 1 => by
    have ih := exprs n
    constructor
    · intro tide
      rw [parseExprEx]
      refine (found_gives _).bind fun r hr => ?_
      cases r with
      | some t => exact (ih.ex _).bind fun _ _ => opPush_gives (hr.1 ⟨nofun, nofun⟩)
      | none =>
        refine (found_gives _).bind fun r hr => ?_
        cases r with
        | some t =>
          refine (ih.ex _).bind fun _ _ => popExp_gives.bind fun e he => pushExp_gives ?_
          rw [E]; exact ⟨hr.1 ⟨nofun, nofun⟩, he⟩
        | none => exact ih.lhs.bind fun _ _ => ih.post.bind fun _ _ => ih.tail _
    · intro tide
      rw [parseTail]
      refine isOperator_bind fun b => ?_
      cases b with
      | true => exact (popTok_at rfl).bind fun t ht => (opPush_gives ht).bind fun _ _ => ih.ex _
      | false => exact (Gives.pure trivial).at
    · rw [parsePostfix]
      refine (found_gives _).bind fun r hr => ?_
      cases r with
      | some t =>
        refine popExp_gives.bind fun l hl => ih.expr.bind fun i hi => (pushExp_gives ?_).bind fun _ _ =>
          (popType_gives _).bind fun _ _ => ih.post
        rw [E]; exact ⟨hr.1 ⟨nofun, nofun⟩, hl, hi⟩
      | none =>
        refine (found_gives _).bind fun r hr => ?_
        cases r with
        | some t =>
          refine ih.args.bind fun as ha => popExp_gives.bind fun c hc => (pushExp_gives ?_).bind fun _ _ => ih.post
          rw [E]; exact ⟨hr.1 ⟨nofun, nofun⟩, hc, ha⟩
        | none => exact Gives.pure trivial
    · rw [parseLhs]
      refine (found_gives _).bind fun r hr => ?_
      cases r with
      | some t =>
        refine ih.list.bind fun es he => (pushExp_gives ?_).bind fun _ _ => (popType_gives _).bind fun _ _ =>
          Gives.pure trivial
        rw [E]; exact ⟨hr.1 ⟨nofun, nofun⟩, he⟩
      | none =>
        refine (found_gives _).bind fun r hr => ?_
        cases r with
        | some t =>
          exact ih.expr.bind fun e he => (pushExp_gives he).bind fun _ _ => (popType_gives _).bind fun _ _ =>
            Gives.pure trivial
        | none =>
          refine (found_gives _).bind fun r hr => ?_
          cases r with
          | some t =>
            refine (found_gives _).bind fun r2 _ => ?_
            cases r2 with
            | some _ =>
              refine (popType_gives _).bind fun m hm => pushExp_gives ?_
              rw [E]; exact ⟨hr.1 ⟨nofun, nofun⟩, hm.1 ⟨nofun, nofun⟩, hr.2⟩
            | none => exact pushExp_gives (by rw [E]; exact ⟨hr.1 ⟨nofun, nofun⟩, hr.2⟩)
          | none =>
            refine popTok_gives.bind fun t ht => ?_
            cases hl : literalNode t with
            | some e => exact pushExp_gives (literalNode_made (ht (literal_type hl)) hl)
            | none => exact pErrHere_gives
    · rw [parseExpr]
      exact get_gives.bind fun s _ => (ih.ex _).bind fun _ _ => opPopAll_gives.bind fun _ _ => popExp_gives
    · rw [parseExprList]
      refine ih.expr.bind fun e he => (found_gives _).bind fun r _ => ?_
      cases r with
      | some _ => exact ih.list.bind fun es hs => Gives.pure (by rw [Es]; exact ⟨he, hs⟩)
      | none => exact Gives.pure (by simp only [Es]; exact ⟨he, trivial⟩)
    · rw [parseCallArgs]
      refine (found_gives _).bind fun r _ => ?_
      cases r with
      | some _ => exact Gives.pure (by rw [Es]; trivial)
      | none => exact ih.list.bind fun es hs => (popType_gives _).bind fun _ _ => Gives.pure hs

theorem expr_gives (n : Nat) : Gives T (parseExpr n) (E T) := (exprs n).expr

theorem declVar_gives (n : Nat) : Gives T (parseDeclVar n) fun r => (T r.1 ∧ r.1.type = .IDENT) ∧ O T r.2 := by
  unfold parseDeclVar
  refine (popType_gives _).bind fun t ht => (found_gives _).bind fun r _ => ?_
  cases r with
  | some _ => exact (expr_gives n).bind fun e he => Gives.pure ⟨⟨ht.1 ⟨nofun, nofun⟩, ht.2⟩, he⟩
  | none => exact Gives.pure ⟨⟨ht.1 ⟨nofun, nofun⟩, ht.2⟩, trivial⟩

theorem compound_gives (n : Nat) {t : Token} (ht : T t ∧ t.type = .IDENT) {P : Prop} (hP : P) :
    GivesAt T P (parseCompound n t) (S T) := by
  unfold parseCompound
  refine (popTok_at hP).bind fun op ho => (found_gives _).bind fun r _ => ?_
  cases r with
  | some _ =>
    refine (expr_gives n).bind fun e he => Gives.pure ?_
    simp only [S, E]
    exact ⟨ht.1, ht.2, ho, ht, he⟩
  | none =>
    intro s a s' _ h
    cases h

theorem named_gives (n : Nat) {t : Token} (ht : T t ∧ t.type = .IDENT) : Gives T (parseNamed n t) (S T) := by
  unfold parseNamed
  refine peekTok_bind fun p => ?_
  split
  · rename_i hp; exact compound_gives n ht (by rw [hp]; exact ⟨nofun, nofun⟩)
  · rename_i hp; exact compound_gives n ht (by rw [hp]; exact ⟨nofun, nofun⟩)
  · rename_i hp; exact compound_gives n ht (by rw [hp]; exact ⟨nofun, nofun⟩)
  · rename_i hp; exact compound_gives n ht (by rw [hp]; exact ⟨nofun, nofun⟩)
  · refine Gives.at ?_
    unfold parseMemberAssign
    refine (popType_gives _).bind fun _ _ => (popType_gives _).bind fun m hm => (popType_gives _).bind fun _ _ =>
      (expr_gives n).bind fun e he => Gives.pure ?_
    rw [S]; exact ⟨ht.1, ht.2, hm.1 ⟨nofun, nofun⟩, he⟩
  · refine Gives.at (popTok_gives.bind fun _ _ => ?_)
    unfold parseAssign
    exact (expr_gives n).bind fun e he => Gives.pure (by rw [S]; exact ⟨ht.1, ht.2, he⟩)
  · rename_i hp
    refine (popTok_at (by rw [hp]; exact ⟨nofun, nofun⟩)).bind fun c hc => (exprs n).args.bind fun as ha => Gives.pure ?_
    rw [S, E]; exact ⟨hc, ht, ha⟩
  · refine Gives.at (popTok_gives.bind fun _ _ => ?_)
    unfold parseArraySet
    exact (expr_gives n).bind fun i hi => (popType_gives _).bind fun _ _ => (popType_gives _).bind fun _ _ =>
      (expr_gives n).bind fun e he => Gives.pure (by rw [S]; exact ⟨ht.1, ht.2, hi, he⟩)
  · exact pErrHere_gives.at

theorem condition_gives (n : Nat) : Gives T (parseCondition n) (E T) := by
  unfold parseCondition
  exact (popType_gives _).bind fun _ _ => (expr_gives n).bind fun e he => (popType_gives _).bind fun _ _ =>
    (popType_gives _).bind fun _ _ => Gives.pure he

theorem forHead_gives (n : Nat) : Gives T (parseForHead n) fun r =>
    (T r.1 ∧ r.1.type = .IDENT) ∧ E T r.2.1 ∧ E T r.2.2 := by
  unfold parseForHead
  exact (popType_gives _).bind fun _ _ => (popType_gives _).bind fun t ht => (popType_gives _).bind fun _ _ =>
    (expr_gives n).bind fun a ha => (popType_gives _).bind fun _ _ => (expr_gives n).bind fun b hb =>
    (popType_gives _).bind fun _ _ => (popType_gives _).bind fun _ _ => Gives.pure ⟨⟨ht.1 ⟨nofun, nofun⟩, ht.2⟩, ha, hb⟩

theorem return_gives (n : Nat) {t : Token} (ht : T t) : Gives T (parseReturn n t) (S T) := by
  unfold parseReturn
  refine peekTok_gives.bind fun p _ => ?_
  split
  · exact Gives.pure (by rw [S]; exact ⟨ht, trivial⟩)
  · exact (expr_gives n).bind fun e he => Gives.pure (by rw [S]; exact ⟨ht, he⟩)

/-- The statements about the functions for statements. -/
structure Stmts (T : Token → Prop) (n : Nat) : Prop where
  stmt : Gives T (parseStmt n) (S T)
  kind : ∀ t : Token, (Word t.type → T t) → Gives T (parseStmtKind n t) (S T)
  block : Gives T (parseBlock n) (B T)
  thn : Gives T (parseThen n) fun r => B T r.1

theorem stmts : ∀ n, Stmts T n
  | 0 => by
    constructor
    all_goals first
      | (intro t _; simp only [parseStmtKind]; exact fault_gives)
      | (simp only [parseStmt, parseBlock, parseThen]; exact fault_gives)
  | n + 1 => by
    have ih := stmts n
    constructor
    · rw [parseStmt]
      exact skipEols_gives.bind fun _ _ => popTok_gives.bind fun t ht => (ih.kind t ht).bind fun s hs =>
        (popType_gives _).bind fun _ _ => skipEols_gives.bind fun _ _ => Gives.pure hs
    · intro t ht
      rw [parseStmtKind]
      split
      · exact (declVar_gives n).bind fun r hr => Gives.pure (by rw [S]; exact ⟨hr.1.1, hr.1.2, hr.2⟩)
      · rename_i h
        exact named_gives n ⟨ht (by rw [h]; exact ⟨nofun, nofun⟩), h⟩
      · rename_i hk
        replace ht := ht (by rw [hk]; exact ⟨nofun, nofun⟩)
        refine (condition_gives n).bind fun c hc => ih.thn.bind fun r hr => ?_
        obtain ⟨thn, b⟩ := r
        cases b with
        | true =>
          exact ih.block.bind fun els he => Gives.pure (by rw [S]; exact ⟨ht, hc, hr, he, nofun⟩)
        | false => exact Gives.pure (by rw [S]; exact ⟨ht, hc, hr, by rw [B]; trivial, fun _ => rfl⟩)
      · rename_i hk
        replace ht := ht (by rw [hk]; exact ⟨nofun, nofun⟩)
        exact (condition_gives n).bind fun c hc => ih.block.bind fun b hb => Gives.pure (by
          rw [S]; exact ⟨ht, hc, hb⟩)
      · rename_i hk
        replace ht := ht (by rw [hk]; exact ⟨nofun, nofun⟩)
        exact (forHead_gives n).bind fun r hr => ih.block.bind fun b hb => Gives.pure (by
          rw [S]; exact ⟨ht, hr.1.1, hr.1.2, hr.2.1, hr.2.2, hb⟩)
      · rename_i hk
        exact return_gives n (ht (by rw [hk]; exact ⟨nofun, nofun⟩))
      · exact pErrHere_gives
    · rw [parseBlock]
      refine (found_gives _).bind fun r _ => ?_
      cases r with
      | some _ => exact Gives.pure (by rw [B]; trivial)
      | none => exact ih.stmt.bind fun s hs => ih.block.bind fun ss hss => Gives.pure (by rw [B]; exact ⟨hs, hss⟩)
    · rw [parseThen]
      refine (found_gives _).bind fun r _ => ?_
      cases r with
      | some _ => exact Gives.pure (by rw [B]; trivial)
      | none =>
        refine (found_gives _).bind fun r _ => ?_
        cases r with
        | some _ => exact (popType_gives _).bind fun _ _ => Gives.pure (by rw [B]; trivial)
        | none => exact ih.stmt.bind fun s hs => ih.thn.bind fun r hr => Gives.pure (by rw [B]; exact ⟨hs, hr⟩)

theorem body_gives : ∀ n, Gives T (parseBody n) fun r => B T r.1 ∧ T r.2
  | 0 => by rw [parseBody]; exact fault_gives
  | n + 1 => by
    rw [parseBody]
    refine (found_gives _).bind fun r hr => ?_
    cases r with
    | some t => exact Gives.pure ⟨by rw [B]; trivial, hr.1 ⟨nofun, nofun⟩⟩
    | none => exact (stmts n).stmt.bind fun s hs => (body_gives n).bind fun r hr => Gives.pure ⟨by
        rw [B]; exact ⟨hs, hr.1⟩, hr.2⟩

theorem argNames_gives : ∀ n, Gives T (parseArgNames n) (Args T)
  | 0 => by rw [parseArgNames]; exact fault_gives
  | n + 1 => by
    rw [parseArgNames]
    refine (popType_gives _).bind fun a ha => (found_gives _).bind fun r _ => ?_
    cases r with
    | some _ =>
      refine (argNames_gives n).bind fun as has => Gives.pure ?_
      intro b hb
      rcases List.mem_cons.1 hb with rfl | hb
      · exact ⟨ha.1 ⟨nofun, nofun⟩, ha.2⟩
      · exact has b hb
    | none =>
      refine Gives.pure ?_
      intro b hb
      cases List.mem_singleton.1 hb
      exact ⟨ha.1 ⟨nofun, nofun⟩, ha.2⟩

theorem args_gives (n : Nat) : Gives T (parseArgs n) (Args T) := by
  unfold parseArgs
  refine (popType_gives _).bind fun _ _ => (found_gives _).bind fun r _ => ?_
  cases r with
  | some _ => exact Gives.pure (by intro a ha; cases ha)
  | none => exact (argNames_gives n).bind fun as ha => (popType_gives _).bind fun _ _ => Gives.pure ha

theorem function_gives (n : Nat) : Gives T (parseFunction n) (F T) := by
  unfold parseFunction
  exact (popType_gives _).bind fun t ht => (args_gives n).bind fun as ha => (popType_gives _).bind fun _ _ =>
    (body_gives n).bind fun r hr => Gives.pure ⟨ht.1 ⟨nofun, nofun⟩, ht.2, ha, hr.1, hr.2⟩

/-! ### Imports -/

/-- The list of sources grew by loading files that were not there. -/
inductive Grown (fs : Str → Option Str) : List Source → List Source → Prop
  | refl {ss} : Grown fs ss ss
  | step {ss ss1 ss2 path} : loadSource fs ss path = (true, ss1) → Grown fs ss1 ss2 → Grown fs ss ss2

theorem Grown.trans {fs : Str → Option Str} {a b c : List Source} (h : Grown fs a b) (k : Grown fs b c) :
    Grown fs a c := by
  induction h with
  | refl => exact k
  | step h _ ih => exact .step h (ih k)

theorem import_made {fs : Str → Option Str} {cur : Source} {s s' : PState} (hi : Inv T s)
    (h : parseImport fs cur s = .ok ((), s')) : Inv T s' ∧ Grown fs s.srcs s'.srcs := by
  unfold parseImport at h
  rw [pm_bind] at h
  split at h
  · cases h
  · rename_i t s1 h1
    obtain ⟨k1, k2, _⟩ := popType_gives _ s t s1 hi h1
    split at h
    · rename_i ss hl
      cases h
      rw [k2] at hl
      exact ⟨⟨k1.toks, k1.ops, k1.exps⟩, .step hl .refl⟩
    · exact absurd h errTok_ne

/-- The children of the program come from the tokens; the sources grow by imports. -/
theorem items_made {fs : Str → Option Str} {cur : Source} : ∀ (n : Nat) {s s' : PState} {is : List (Item Unit)},
    Inv T s → parseItems fs cur n s = .ok (is, s') → Inv T s' ∧ Grown fs s.srcs s'.srcs ∧ ∀ i ∈ is, I T i
  | 0, s, s', is, _, h => by rw [parseItems] at h; cases h
  | n + 1, s, s', is, hi, h => by
    rw [parseItems, pm_bind] at h
    split at h
    · cases h
    · rename_i r s1 h1
      obtain ⟨k1, k2, k3⟩ := found_gives _ s r s1 hi h1
      cases r with
      | some t => cases h; exact ⟨k1, k2 ▸ .refl, by simp⟩
      | none =>
        dsimp only at h
        rw [pm_bind] at h
        split at h
        · cases h
        · rename_i t s2 h2
          obtain ⟨m1, m2, m3⟩ := popTok_gives s1 t s2 k1 h2
          have e : s2.srcs = s.srcs := m2.trans k2
          have step : ∀ {α : Type} {x : PM α} {Q : α → Prop} {f : α → Item Unit}, Gives T x Q →
              (∀ a, Q a → I T (f a)) →
              (x >>= fun a => parseItems fs cur n >>= fun is => Pure.pure (f a :: is)) s2 = .ok (is, s') →
              Inv T s' ∧ Grown fs s.srcs s'.srcs ∧ ∀ i ∈ is, I T i := by
            intro α x Q f hx hf h
            rw [pm_bind] at h
            split at h
            · cases h
            · rename_i a s3 h3
              obtain ⟨n1, n2, n3⟩ := hx s2 a s3 m1 h3
              rw [pm_bind] at h
              split at h
              · cases h
              · rename_i js s4 h4
                cases h
                obtain ⟨g1, g2, g3⟩ := items_made n n1 h4
                rw [n2, e] at g2
                refine ⟨g1, g2, fun i hi => ?_⟩
                rcases List.mem_cons.1 hi with rfl | hi
                · exact hf a n3
                · exact g3 i hi
          generalize t.type = ty at h
          split at h
          · obtain ⟨g1, g2, g3⟩ := items_made n m1 h
            rw [e] at g2
            exact ⟨g1, g2, g3⟩
          · exact step (f := fun r => .var r.1 false r.2) (declVar_gives n) (fun a ha => ⟨ha.1.1, ha.1.2, ha.2⟩) h
          · exact step (f := fun r => .var r.1 true r.2) (declVar_gives n) (fun a ha => ⟨ha.1.1, ha.1.2, ha.2⟩) h
          · exact step (f := .func) (function_gives n) (fun a ha => ha) h
          · rw [pm_bind] at h
            split at h
            · cases h
            · rename_i u s3 h3
              obtain ⟨n1, n2⟩ := import_made m1 h3
              obtain ⟨g1, g2, g3⟩ := items_made n n1 h
              rw [e] at n2
              exact ⟨g1, n2.trans g2, g3⟩
          · rw [pm_bind] at h
            split at h
            · cases h
            · exact absurd h errTok_ne

/-- What `parse` makes. -/
theorem parse_made {fs : Str → Option Str} {cur : Source} {srcs : List Source} {left : List (Expr Unit)}
    {toks : List Token} {is : List (Item Unit)} {s' : PState} (ht : ∀ t ∈ toks, Word t.type → T t) (hl : Es T left)
    (h : parse fs cur srcs left toks = .ok (is, s')) :
    Grown fs srcs s'.srcs ∧ (∀ i ∈ is, I T i) ∧ Es T s'.exps := by
  obtain ⟨h1, h2, h3⟩ := items_made _ ⟨ht, by simp, hl⟩ h
  exact ⟨h2, h3, h1.exps⟩

end Ccml.Made
