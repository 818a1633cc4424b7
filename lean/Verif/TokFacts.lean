import Verif.AsmProg
import Verif.Build
import Verif.Whole
import Verif.ParserTree
/-!
Where the tokens of the line table come from.  `T` is any condition on tokens; a tree whose tokens meet
it is turned into a tree of that kind by every pass, except that the name of a constant is replaced by
the literal of its declaration, and that literals made by the compiler have no token.
-/
namespace Ccml.Toks
open Ccml

section
variable {D : Type} (T : Token → Prop)

mutual
/-- The tokens of an expression meet `T`; only integer literals may have none. -/
def E : Expr D → Prop
  | .ident t _ => T t
  | .int _ t _ => ∀ k ∈ t, T k
  | .float _ t => ∃ k, t = some k ∧ T k
  | .str _ t => ∃ k, t = some k ∧ T k
  | .none t => ∃ k, t = some k ∧ T k
  | .member t m _ => T t ∧ T m
  | .arr t es => T t ∧ Es es
  | .deref t l i => T t ∧ E l ∧ E i
  | .call t c as => T t ∧ E c ∧ Es as
  | .bin op l r => T op ∧ E l ∧ E r
  | .un op e => T op ∧ E e
/-- The same of a list. -/
def Es : List (Expr D) → Prop
  | [] => True
  | e :: es => E e ∧ Es es
end

/-- The same of an expression that may be missing. -/
def O : Option (Expr D) → Prop
  | none => True
  | some e => E T e

mutual
/-- The tokens of a statement meet `T`. -/
def S : Stmt D → Prop
  | .var t _ init => T t ∧ O T init
  | .assign t _ e => T t ∧ E T e
  | .assignArr t _ i e => T t ∧ E T i ∧ E T e
  | .assignMem t m _ e => T t ∧ T m ∧ E T e
  | .call t c as => T t ∧ E T c ∧ Es T as
  | .ifS t c thn _ els => T t ∧ E T c ∧ B thn ∧ B els
  | .whileS t c body => T t ∧ E T c ∧ B body
  | .forS t n _ a b body => T t ∧ T n ∧ E T a ∧ E T b ∧ B body
  | .ret t e => T t ∧ O T e
/-- The same of a block. -/
def B : List (Stmt D) → Prop
  | [] => True
  | s :: ss => S s ∧ B ss
end

/-- The tokens of a child of the program meet `T`; those of the value of a constant meet `C`. -/
def I (C : Token → Prop) : Item D → Prop
  | .var t c init => T t ∧ O T init ∧ (c = true → O C init)
  | .func f => T f.name ∧ B T f.body ∧ T f.stop
  | .syscall .. => True
end

/-- The tokens of child `i` of a program (the first is child `k`) meet `Q i`, those of constants `C`. -/
def P {D : Type} (Q : Nat → Token → Prop) (C : Token → Prop) (k : Nat) (p : Prog D) : Prop :=
  ∀ i x, p[i]? = some x → I (Q (k + i)) C x

variable {T C : Token → Prop} {Q : Nat → Token → Prop} {D : Type}

theorem P.head {k : Nat} {x : Item D} {xs : Prog D} (h : P Q C k (x :: xs)) : I (Q k) C x := h 0 x rfl

theorem P.tail {k : Nat} {x : Item D} {xs : Prog D} (h : P Q C k (x :: xs)) : P Q C (k + 1) xs := by
  intro i y hy
  have := h (i + 1) y hy
  rwa [show k + (i + 1) = k + 1 + i from by omega] at this

theorem P.nil {k : Nat} : P Q C k ([] : Prog D) := by intro i x h; cases h

theorem P.cons {k : Nat} {x : Item D} {xs : Prog D} (h : I (Q k) C x) (ht : P Q C (k + 1) xs) :
    P Q C k (x :: xs) := by
  intro i y hy
  cases i with
  | zero => cases hy; exact h
  | succ i =>
    have := ht i y hy
    rwa [show k + 1 + i = k + (i + 1) from by omega] at this

/-! ### Naming -/


mutual
theorem annE_toks {lk : Look} : ∀ {e : Expr Unit} {e' : Expr Ref}, E T e → annE lk e = .ok e' → E T e'
  | .ident t _, e', hs, h => by
    rw [annE] at h; split at h
    · unfold unknownIdentifier errTok at h; split at h <;> cases h
    · cases h; simpa only [E] using hs
  | .int .., e', hs, h => by rw [annE] at h; cases h; simpa only [E] using hs
  | .float .., e', hs, h => by rw [annE] at h; cases h; simpa only [E] using hs
  | .str .., e', hs, h => by rw [annE] at h; cases h; simpa only [E] using hs
  | .none .., e', hs, h => by rw [annE] at h; cases h; simpa only [E] using hs
  | .member t m _, e', hs, h => by
    rw [annE] at h; split at h
    · unfold unknownIdentifier errTok at h; split at h <;> cases h
    · split at h
      · cases h; simpa only [E] using hs
      · cases h
  | .arr t es, e', hs, h => by
    rw [annE] at h; split at h
    · cases h
    · rename_i es' h1
      cases h
      simp only [E] at hs ⊢
      exact ⟨hs.1, annEs_toks hs.2 h1⟩
  | .deref t l i, e', hs, h => by
    rw [annE] at h; split at h
    · cases h
    · rename_i l' h1
      split at h
      · cases h
      · rename_i i' h2
        cases h
        simp only [E] at hs ⊢
        exact ⟨hs.1, annE_toks hs.2.1 h1, annE_toks hs.2.2 h2⟩
  | .call t c as, e', hs, h => by
    rw [annE] at h; split at h
    · cases h
    · rename_i l' h1
      split at h
      · cases h
      · rename_i i' h2
        cases h
        simp only [E] at hs ⊢
        exact ⟨hs.1, annE_toks hs.2.1 h2, annEs_toks hs.2.2 h1⟩
  | .bin op l r, e', hs, h => by
    rw [annE] at h; split at h
    · cases h
    · rename_i l' h1
      split at h
      · cases h
      · rename_i i' h2
        cases h
        simp only [E] at hs ⊢
        exact ⟨hs.1, annE_toks hs.2.1 h1, annE_toks hs.2.2 h2⟩
  | .un op a, e', hs, h => by
    rw [annE] at h; split at h
    · cases h
    · rename_i l' h1
      cases h
      simp only [E] at hs ⊢
      exact ⟨hs.1, annE_toks hs.2 h1⟩
theorem annEs_toks {lk : Look} : ∀ {es : List (Expr Unit)} {es' : List (Expr Ref)}, Es T es → annEs lk es = .ok es' →
    Es T es'
  | [], es', _, h => by rw [annEs] at h; cases h; simp only [Es]
  | e :: es, es', hs, h => by
    rw [annEs] at h; split at h
    · cases h
    · rename_i l' h1
      split at h
      · cases h
      · rename_i i' h2
        cases h
        simp only [Es] at hs ⊢
        exact ⟨annE_toks hs.1 h1, annEs_toks hs.2 h2⟩
end

theorem annO_toks {lk : Look} {e : Option (Expr Unit)} {e' : Option (Expr Ref)} (hs : O T e)
    (h : annO lk e = .ok e') : O T e' := by
  cases e with
  | none => cases h; exact trivial
  | some e =>
    rw [annO] at h; split at h
    · cases h
    · rename_i h1
      cases h
      exact annE_toks hs h1

mutual
theorem annS_toks {en : AnnEnv} : ∀ {s : Stmt Unit} {outer : List Scope} {cur : Scope} {k : Nat} {s' : Stmt Ref}
    {cur' : Scope} {k' : Nat}, S T s → annS en outer cur k s = .ok (s', cur', k') → S T s'
  | .var t _ init, outer, cur, k, s', cur', k', hs, h => by
    rw [annS] at h; split at h
    · cases h
    · rename_i h1
      cases h
      simp only [S] at hs ⊢
      exact ⟨hs.1, annO_toks hs.2 h1⟩
  | .assign t _ e, outer, cur, k, s', cur', k', hs, h => by
    rw [annS] at h; split at h
    · cases h
    · rename_i h1
      split at h
      · cases h
      · cases h
        simp only [S] at hs ⊢
        exact ⟨hs.1, annE_toks hs.2 h1⟩
  | .assignArr t _ i e, outer, cur, k, s', cur', k', hs, h => by
    rw [annS] at h; split at h
    · cases h
    · rename_i h1
      split at h
      · cases h
      · rename_i h2
        split at h
        · cases h
        · cases h
          simp only [S] at hs ⊢
          exact ⟨hs.1, annE_toks hs.2.1 h1, annE_toks hs.2.2 h2⟩
  | .assignMem t m _ e, outer, cur, k, s', cur', k', hs, h => by
    rw [annS] at h; split at h
    · cases h
    · rename_i h1
      split at h
      · cases h
      · cases h
        simp only [S] at hs ⊢
        exact ⟨hs.1, hs.2.1, annE_toks hs.2.2 h1⟩
  | .call t c as, outer, cur, k, s', cur', k', hs, h => by
    rw [annS] at h; split at h
    · cases h
    · rename_i h1
      split at h
      · cases h
      · rename_i h2
        cases h
        simp only [S] at hs ⊢
        exact ⟨hs.1, annE_toks hs.2.1 h2, annEs_toks hs.2.2 h1⟩
  | .ifS t c thn he els, outer, cur, k, s', cur', k', hs, h => by
    rw [annS] at h; split at h
    · cases h
    · rename_i h1
      split at h
      · cases h
      · rename_i h2
        split at h
        · cases h
        · rename_i h3
          cases h
          simp only [S] at hs ⊢
          exact ⟨hs.1, annE_toks hs.2.1 h1, annB_toks hs.2.2.1 h2, annB_toks hs.2.2.2 h3⟩
  | .whileS t c body, outer, cur, k, s', cur', k', hs, h => by
    rw [annS] at h; split at h
    · cases h
    · rename_i h1
      split at h
      · cases h
      · rename_i h2
        cases h
        simp only [S] at hs ⊢
        exact ⟨hs.1, annE_toks hs.2.1 h1, annB_toks hs.2.2 h2⟩
  | .forS t n _ a b body, outer, cur, k, s', cur', k', hs, h => by
    rw [annS] at h; split at h
    · cases h
    · split at h
      · cases h
      · rename_i h1
        split at h
        · cases h
        · rename_i h2
          split at h
          · cases h
          · rename_i h3
            cases h
            simp only [S] at hs ⊢
            exact ⟨hs.1, hs.2.1, annE_toks hs.2.2.1 h1, annE_toks hs.2.2.2.1 h2, annB_toks hs.2.2.2.2 h3⟩
  | .ret t e, outer, cur, k, s', cur', k', hs, h => by
    rw [annS] at h; split at h
    · cases h
    · rename_i h1
      cases h
      simp only [S] at hs ⊢
      exact ⟨hs.1, annO_toks hs.2 h1⟩
theorem annB_toks {en : AnnEnv} : ∀ {ss : List (Stmt Unit)} {outer : List Scope} {cur : Scope} {k : Nat}
    {ss' : List (Stmt Ref)} {cur' : Scope} {k' : Nat}, B T ss → annB en outer cur k ss = .ok (ss', cur', k') →
    B T ss'
  | [], outer, cur, k, s', cur', k', hs, h => by rw [annB] at h; cases h; simp only [B]
  | s :: ss, outer, cur, k, s', cur', k', hs, h => by
    rw [annB] at h; split at h
    · cases h
    · rename_i h1
      split at h
      · cases h
      · rename_i h2
        cases h
        simp only [B] at hs ⊢
        exact ⟨annS_toks hs.1 h1, annB_toks hs.2 h2⟩
end

theorem annItem_toks {L : Layout} {p : Prog Unit} {i : Nat} {x : Item Unit} {y : Item Ref} (hs : I T C x)
    (h : annItem L p i x = .ok y) : I T C y := by
  cases x with
  | var t c init =>
    rw [annItem] at h; split at h
    · cases h
    · rename_i h1; cases h; exact ⟨hs.1, annO_toks hs.2.1 h1, fun hc => annO_toks (hs.2.2 hc) h1⟩
  | func f =>
    rw [annItem] at h; split at h
    · cases h
    · rename_i h1; cases h; exact ⟨hs.1, annB_toks hs.2.1 h1, hs.2.2⟩
  | syscall n a => rw [annItem] at h; cases h; exact trivial

theorem annItems_toks {L : Layout} {p : Prog Unit} : ∀ {i k : Nat} {xs : List (Item Unit)} {ys : Prog Ref},
    P Q C k xs → annItems L p i xs = .ok ys → P Q C k ys
  | i, k, [], ys, _, h => by rw [annItems] at h; cases h; exact .nil
  | i, k, x :: xs, ys, hs, h => by
    rw [annItems] at h; split at h
    · cases h
    · rename_i h1
      split at h
      · cases h
      · rename_i h2
        cases h
        exact .cons (annItem_toks hs.head h1) (annItems_toks hs.tail h2)

/-! ### Constants -/

theorem P.set {p : Prog D} {k : Nat} (hp : P Q C k p) {i : Nat} {x : Item D} (h : I (Q (k + i)) C x) :
    P Q C k (p.set i x) := by
  intro j y hy
  rw [List.getElem?_set] at hy
  split at hy
  · rename_i e
    split at hy
    · cases hy; exact e ▸ h
    · cases hy
  · exact hp j y hy

theorem globalInit_toks {p : Prog Ref} {e : Expr Ref} {e' : Option (Expr Ref)} {ch : Bool} (hs : E T e)
    (h : globalInit p e = .ok (e', ch)) : O T e' := by
  unfold globalInit at h
  split at h
  · cases h; exact trivial
  · split at h
    · cases h
    · cases h; simp [O, E]
    · cases h; exact hs
  · split at h
    · cases h
    · cases h; simp [O, E]
    · cases h; exact hs
  · cases h; exact hs

theorem globalPass_toks : ∀ {is : List Nat} {p q : Prog Ref} {ch ch' : Bool}, P Q C 0 p →
    globalPass is p ch = .ok (q, ch') → P Q C 0 q
  | [], p, q, ch, ch', hp, h => by rw [globalPass] at h; cases h; exact hp
  | i :: is, p, q, ch, ch', hp, h => by
    rw [globalPass] at h
    split at h
    · rename_i t c e h1
      split at h
      · cases h
      · rename_i h2
        have hi := hp i _ h1
        refine globalPass_toks (hp.set ?_) h
        exact ⟨hi.1, globalInit_toks hi.2.1 h2, fun hc => globalInit_toks (hi.2.2 hc) h2⟩
    · exact globalPass_toks hp h

theorem globalLoop_toks : ∀ {n : Nat} {p q : Prog Ref}, P Q C 0 p → globalLoop n p = .ok q → P Q C 0 q
  | 0, p, q, _, h => by rw [globalLoop] at h; cases h
  | n + 1, p, q, hp, h => by
    rw [globalLoop] at h
    split at h
    · cases h
    · rename_i h1; exact globalLoop_toks (globalPass_toks hp h1) h
    · rename_i h1; cases h; exact globalPass_toks hp h1

theorem globalVars_toks {p q : Prog Ref} (hp : P Q C 0 p) (h : globalVars p = .ok q) : P Q C 0 q := by
  unfold globalVars at h
  split at h
  · cases h
  · rename_i h1
    split at h
    · cases h
    · rename_i h2; cases h; exact globalPass_toks (globalLoop_toks hp h1) h2

mutual
theorem E.mono {T' : Token → Prop} (hT : ∀ t, T t → T' t) : ∀ {e : Expr D}, E T e → E T' e
  | .ident .., h => by simp only [E] at h ⊢; exact hT _ h
  | .int .., h => by simp only [E] at h ⊢; exact fun k hk => hT _ (h k hk)
  | .float .., h => by simp only [E] at h ⊢; obtain ⟨k, h1, h2⟩ := h; exact ⟨k, h1, hT _ h2⟩
  | .str .., h => by simp only [E] at h ⊢; obtain ⟨k, h1, h2⟩ := h; exact ⟨k, h1, hT _ h2⟩
  | .none .., h => by simp only [E] at h ⊢; obtain ⟨k, h1, h2⟩ := h; exact ⟨k, h1, hT _ h2⟩
  | .member .., h => by simp only [E] at h ⊢; exact ⟨hT _ h.1, hT _ h.2⟩
  | .arr .., h => by simp only [E] at h ⊢; exact ⟨hT _ h.1, Es.mono hT h.2⟩
  | .deref .., h => by simp only [E] at h ⊢; exact ⟨hT _ h.1, E.mono hT h.2.1, E.mono hT h.2.2⟩
  | .call .., h => by simp only [E] at h ⊢; exact ⟨hT _ h.1, E.mono hT h.2.1, Es.mono hT h.2.2⟩
  | .bin .., h => by simp only [E] at h ⊢; exact ⟨hT _ h.1, E.mono hT h.2.1, E.mono hT h.2.2⟩
  | .un .., h => by simp only [E] at h ⊢; exact ⟨hT _ h.1, E.mono hT h.2⟩
theorem Es.mono {T' : Token → Prop} (hT : ∀ t, T t → T' t) : ∀ {es : List (Expr D)}, Es T es → Es T' es
  | [], _ => by simp only [Es]
  | e :: es, h => by simp only [Es] at h ⊢; exact ⟨E.mono hT h.1, Es.mono hT h.2⟩
end

theorem O.mono {T' : Token → Prop} (hT : ∀ t, T t → T' t) {e : Option (Expr D)} (h : O T e) : O T' e := by
  cases e with
  | none => exact trivial
  | some e => exact E.mono hT h

theorem constIdent_toks {p : Prog Ref} (hp : P Q C 0 p) (hC : ∀ t, C t → T t) {t : Token} {r : Ref} {e : Expr Ref}
    (ht : T t) (h : constIdent p t r = .ok e) : E T e := by
  unfold constIdent at h
  split at h
  · split at h
    · rename_i h1
      have hi := O.mono hC ((hp _ _ h1).2.2 rfl)
      split at h
      · cases h; simpa only [O, E] using hi
      · cases h; simpa only [O, E] using hi
      · cases h; simpa only [O, E] using hi
      · cases h; simpa only [O, E] using hi
      · unfold errTok at h; split at h <;> cases h
    · cases h; simpa only [E] using ht
  · cases h; simpa only [E] using ht

theorem callee_toks {c c' : Expr Ref} (h : E T c) (h' : E T c') :
    E T (match c with | .ident n r => .ident n r | _ => c') := by
  split
  · exact h
  · exact h'

mutual
theorem constE_toks {p : Prog Ref} (hp : P Q C 0 p) (hC : ∀ t, C t → T t) : ∀ {e e' : Expr Ref}, E T e → constE p e = .ok e' → E T e'
  | .ident t r, e', hs, h => by rw [constE] at h; exact constIdent_toks hp hC (by simpa only [E] using hs) h
  | .int .., e', hs, h => by rw [constE] at h; cases h; exact hs
  | .float .., e', hs, h => by rw [constE] at h; cases h; exact hs
  | .str .., e', hs, h => by rw [constE] at h; cases h; exact hs
  | .none .., e', hs, h => by rw [constE] at h; cases h; exact hs
  | .member .., e', hs, h => by rw [constE] at h; cases h; exact hs
  | .arr t es, e', hs, h => by
    rw [constE] at h; split at h
    · cases h
    · rename_i h1
      cases h
      simp only [E] at hs ⊢
      exact ⟨hs.1, constEs_toks hp hC hs.2 h1⟩
  | .deref t l i, e', hs, h => by
    rw [constE] at h; split at h
    · cases h
    · rename_i h1
      split at h
      · cases h
      · rename_i h2
        cases h
        simp only [E] at hs ⊢
        exact ⟨hs.1, constE_toks hp hC hs.2.1 h1, constE_toks hp hC hs.2.2 h2⟩
  | .call t c as, e', hs, h => by
    rw [constE] at h; split at h
    · cases h
    · rename_i h1
      split at h
      · cases h
      · rename_i h2
        cases h
        simp only [E] at hs ⊢
        exact ⟨hs.1, callee_toks hs.2.1 (constE_toks hp hC hs.2.1 h2), constEs_toks hp hC hs.2.2 h1⟩
  | .bin op l r, e', hs, h => by
    rw [constE] at h; split at h
    · cases h
    · rename_i h1
      split at h
      · cases h
      · rename_i h2
        cases h
        simp only [E] at hs ⊢
        exact ⟨hs.1, constE_toks hp hC hs.2.1 h1, constE_toks hp hC hs.2.2 h2⟩
  | .un op a, e', hs, h => by
    rw [constE] at h; split at h
    · cases h
    · rename_i h1
      cases h
      simp only [E] at hs ⊢
      exact ⟨hs.1, constE_toks hp hC hs.2 h1⟩
theorem constEs_toks {p : Prog Ref} (hp : P Q C 0 p) (hC : ∀ t, C t → T t) : ∀ {es es' : List (Expr Ref)}, Es T es → constEs p es = .ok es' →
    Es T es'
  | [], es', _, h => by rw [constEs] at h; cases h; simp only [Es]
  | e :: es, es', hs, h => by
    rw [constEs] at h; split at h
    · cases h
    · rename_i h1
      split at h
      · cases h
      · rename_i h2
        cases h
        simp only [Es] at hs ⊢
        exact ⟨constE_toks hp hC hs.1 h1, constEs_toks hp hC hs.2 h2⟩
end

theorem constO_toks {p : Prog Ref} (hp : P Q C 0 p) (hC : ∀ t, C t → T t) {e e' : Option (Expr Ref)} (hs : O T e)
    (h : constO p e = .ok e') : O T e' := by
  cases e with
  | none => cases h; exact trivial
  | some e =>
    rw [constO] at h; split at h
    · cases h
    · rename_i h1
      cases h
      exact constE_toks hp hC hs h1

mutual
theorem constS_toks {p : Prog Ref} (hp : P Q C 0 p) (hC : ∀ t, C t → T t) : ∀ {s s' : Stmt Ref}, S T s → constS p s = .ok s' → S T s'
  | .var t _ init, s', hs, h => by
    rw [constS] at h; split at h
    · cases h
    · rename_i h1
      cases h
      simp only [S] at hs ⊢
      exact ⟨hs.1, constO_toks hp hC hs.2 h1⟩
  | .assign t _ e, s', hs, h => by
    rw [constS] at h; split at h
    · unfold errTok at h; split at h <;> cases h
    · split at h
      · cases h
      · rename_i h1
        cases h
        simp only [S] at hs ⊢
        exact ⟨hs.1, constE_toks hp hC hs.2 h1⟩
  | .assignArr t _ i e, s', hs, h => by
    rw [constS] at h; split at h
    · cases h
    · rename_i h1
      split at h
      · cases h
      · rename_i h2
        cases h
        simp only [S] at hs ⊢
        exact ⟨hs.1, constE_toks hp hC hs.2.1 h1, constE_toks hp hC hs.2.2 h2⟩
  | .assignMem t m _ e, s', hs, h => by
    rw [constS] at h; split at h
    · cases h
    · rename_i h1
      cases h
      simp only [S] at hs ⊢
      exact ⟨hs.1, hs.2.1, constE_toks hp hC hs.2.2 h1⟩
  | .call t c as, s', hs, h => by
    rw [constS] at h; split at h
    · cases h
    · rename_i h1
      split at h
      · cases h
      · rename_i h2
        cases h
        simp only [S] at hs ⊢
        exact ⟨hs.1, callee_toks hs.2.1 (constE_toks hp hC hs.2.1 h2), constEs_toks hp hC hs.2.2 h1⟩
  | .ifS t c thn he els, s', hs, h => by
    rw [constS] at h; split at h
    · cases h
    · rename_i h1
      split at h
      · cases h
      · rename_i h2
        split at h
        · cases h
        · rename_i h3
          cases h
          simp only [S] at hs ⊢
          exact ⟨hs.1, constE_toks hp hC hs.2.1 h1, constB_toks hp hC hs.2.2.1 h2, constB_toks hp hC hs.2.2.2 h3⟩
  | .whileS t c body, s', hs, h => by
    rw [constS] at h; split at h
    · cases h
    · rename_i h1
      split at h
      · cases h
      · rename_i h2
        cases h
        simp only [S] at hs ⊢
        exact ⟨hs.1, constE_toks hp hC hs.2.1 h1, constB_toks hp hC hs.2.2 h2⟩
  | .forS t n _ a b body, s', hs, h => by
    rw [constS] at h; split at h
    · cases h
    · rename_i h1
      split at h
      · cases h
      · rename_i h2
        split at h
        · cases h
        · rename_i h3
          cases h
          simp only [S] at hs ⊢
          exact ⟨hs.1, hs.2.1, constE_toks hp hC hs.2.2.1 h1, constE_toks hp hC hs.2.2.2.1 h2, constB_toks hp hC hs.2.2.2.2 h3⟩
  | .ret t e, s', hs, h => by
    rw [constS] at h; split at h
    · cases h
    · rename_i h1
      cases h
      simp only [S] at hs ⊢
      exact ⟨hs.1, constO_toks hp hC hs.2 h1⟩
theorem constB_toks {p : Prog Ref} (hp : P Q C 0 p) (hC : ∀ t, C t → T t) : ∀ {ss ss' : List (Stmt Ref)}, B T ss → constB p ss = .ok ss' →
    B T ss'
  | [], ss', _, h => by rw [constB] at h; cases h; simp only [B]
  | s :: ss, ss', hs, h => by
    rw [constB] at h; split at h
    · cases h
    · rename_i h1
      split at h
      · cases h
      · rename_i h2
        cases h
        simp only [B] at hs ⊢
        exact ⟨constS_toks hp hC hs.1 h1, constB_toks hp hC hs.2 h2⟩
end


theorem constItem_toks {p : Prog Ref} (hp : P Q C 0 p) (hC : ∀ t, C t → T t) {x y : Item Ref} (hs : I T C x)
    (h : constItem p x = .ok y) : I T C y := by
  cases x with
  | var t c init =>
    rw [constItem] at h; split at h
    · cases h
    · rename_i h1
      split at h
      · unfold errTok at h; split at h <;> cases h
      · cases h
        exact ⟨hs.1, constO_toks hp hC hs.2.1 h1, fun hc => constO_toks hp (fun _ h => h) (hs.2.2 hc) h1⟩
  | func f =>
    rw [constItem] at h; split at h
    · cases h
    · rename_i h1; cases h; exact ⟨hs.1, constB_toks hp hC hs.2.1 h1, hs.2.2⟩
  | syscall n a => rw [constItem] at h; cases h; exact trivial

theorem constPass_toks (hC : ∀ i t, C t → Q i t) : ∀ {is : List Nat} {p q : Prog Ref}, P Q C 0 p →
    constPass is p = .ok q → P Q C 0 q
  | [], p, q, hp, h => by rw [constPass] at h; cases h; exact hp
  | i :: is, p, q, hp, h => by
    rw [constPass] at h
    split at h
    · exact constPass_toks hC hp h
    · rename_i x h1
      split at h
      · cases h
      · rename_i h2
        exact constPass_toks hC (hp.set (constItem_toks hp (hC _) (hp i _ h1) h2)) h

theorem runSema_toks (hC : ∀ i t, C t → Q i t) {L : Layout} {p : Prog Unit} {q : Prog Ref} (hp : P Q C 0 p)
    (h : runSema L p = .ok q) : P Q C 0 q := by
  unfold runSema at h
  split at h
  · cases h
  · rename_i h1
    split at h
    · cases h
    · rename_i h2
      split at h
      · cases h
      · rename_i h3
        split at h
        · cases h
        · split at h
          · cases h
          · cases h
            exact constPass_toks hC (globalVars_toks (annItems_toks hp h1) h2) h3

/-! ### The optimiser -/

theorem cut_toks : ∀ {ss : List (Stmt D)}, B T ss → B T (cutAfterRet ss)
  | [], h => h
  | s :: ss, h => by
    simp only [B] at h
    rw [cutAfterRet]
    split
    · simp only [B]; exact ⟨h.1, trivial⟩
    · simp only [B]; exact ⟨h.1, cut_toks h.2⟩

theorem foldTop_toks {e e' : Expr D} (hs : E T e) (h : foldTop e = .ok e') : E T e' := by
  unfold foldTop at h
  split at h
  · cases h
  · split at h
    · cases h; simp [E]
    · cases h; exact hs

mutual
theorem foldS_toks : ∀ {s s' : Stmt D}, S T s → foldS s = .ok s' → S T s'
  | .var t _ init, s', hs, h => by
    rw [foldS] at h; split at h
    · cases h
    · cases h; exact hs
  | .assign t _ e, s', hs, h => by
    rw [foldS] at h; split at h
    · cases h
    · rename_i h1
      cases h
      simp only [S] at hs ⊢
      exact ⟨hs.1, foldTop_toks hs.2 h1⟩
  | .assignArr t _ i e, s', hs, h => by
    rw [foldS] at h; split at h
    · cases h
    · split at h
      · cases h
      · cases h; exact hs
  | .assignMem t m _ e, s', hs, h => by
    rw [foldS] at h; split at h
    · cases h
    · cases h; exact hs
  | .call t c as, s', hs, h => by
    rw [foldS] at h; split at h
    · cases h
    · split at h
      · cases h
      · cases h; exact hs
  | .ifS t c thn he els, s', hs, h => by
    rw [foldS] at h; split at h
    · cases h
    · rename_i h1
      split at h
      · cases h
      · rename_i h2
        split at h
        · cases h
        · rename_i h3
          cases h
          simp only [S] at hs ⊢
          exact ⟨hs.1, foldTop_toks hs.2.1 h1, foldB_toks hs.2.2.1 h2, foldB_toks hs.2.2.2 h3⟩
  | .whileS t c body, s', hs, h => by
    rw [foldS] at h; split at h
    · cases h
    · rename_i h1
      split at h
      · cases h
      · rename_i h2
        cases h
        simp only [S] at hs ⊢
        exact ⟨hs.1, foldTop_toks hs.2.1 h1, foldB_toks hs.2.2 h2⟩
  | .forS t n _ a b body, s', hs, h => by
    rw [foldS] at h; split at h
    · cases h
    · split at h
      · cases h
      · split at h
        · cases h
        · rename_i h3
          cases h
          simp only [S] at hs ⊢
          exact ⟨hs.1, hs.2.1, hs.2.2.1, hs.2.2.2.1, foldB_toks hs.2.2.2.2 h3⟩
  | .ret t none, s', hs, h => by
    simp only [foldS] at h
    cases h; exact hs
  | .ret t (some e), s', hs, h => by
    simp only [foldS] at h
    split at h
    · cases h
    · rename_i h1
      cases h
      simp only [S, O] at hs ⊢
      exact ⟨hs.1, foldTop_toks hs.2 h1⟩
theorem foldB_toks : ∀ {ss ss' : List (Stmt D)}, B T ss → foldB ss = .ok ss' → B T ss'
  | [], ss', _, h => by rw [foldB] at h; cases h; simp only [B]
  | s :: ss, ss', hs, h => by
    rw [foldB] at h; split at h
    · cases h
    · rename_i h1
      split at h
      · cases h
      · rename_i h2
        cases h
        simp only [B] at hs ⊢
        exact ⟨foldS_toks hs.1 h1, foldB_toks hs.2 h2⟩
end


theorem constFold_toks : ∀ {p q : Prog D} {k : Nat}, P Q C k p → constFold p = .ok q → P Q C k q
  | [], q, k, hp, h => by rw [constFold] at h; cases h; exact hp
  | x :: xs, q, k, hp, h => by
    rw [constFold] at h; split at h
    · cases h
    · rename_i y h1
      split at h
      · cases h
      · rename_i h2
        cases h
        refine .cons ?_ (constFold_toks hp.tail h2)
        have hx := hp.head
        cases x with
        | var t c init =>
          rw [foldItem] at h1; split at h1
          · cases h1
          · cases h1; exact hx
        | func f =>
          rw [foldItem] at h1; split at h1
          · cases h1
          · rename_i h3; cases h1; exact ⟨hx.1, foldB_toks hx.2.1 h3, hx.2.2⟩
        | syscall n a => cases h1; exact trivial

mutual
theorem pruneS_toks : ∀ (m : List Nat) {s : Stmt D}, S T s → S T (pruneS m s).1
  | m, .ifS t c thn he els, hs => by
    simp only [S] at hs
    have h1 := pruneB_toks m hs.2.2.1
    have h2 := pruneB_toks (pruneB m thn).2 hs.2.2.2
    have hc := hs.2.1
    have ht := hs.1
    rw [pruneS]
    dsimp only
    split
    · simp only [E] at hc
      split
      · simp only [S, E, B]; exact ⟨ht, hc, h1, trivial⟩
      · split <;> (simp only [S, E, B]; refine ⟨ht, hc, ?_, trivial⟩; split; exact h2; simp only [B])
    · simp only [S]; exact ⟨ht, hc, h1, h2⟩
  | m, .whileS t c body, hs => by
    simp only [S] at hs
    have h1 := pruneB_toks m hs.2.2
    have hc := hs.2.1
    have ht := hs.1
    rw [pruneS]
    dsimp only
    split
    · simp only [E] at hc
      split
      · simp only [S, E, B]; exact ⟨ht, hc, trivial⟩
      · simp only [S, E]; exact ⟨ht, hc, h1⟩
    · simp only [S]; exact ⟨ht, hc, h1⟩
  | m, .forS t n d a b body, hs => by
    simp only [S] at hs
    have h1 := pruneB_toks m hs.2.2.2.2
    rw [pruneS]
    simp only [S]
    exact ⟨hs.1, hs.2.1, hs.2.2.1, hs.2.2.2.1, h1⟩
  | m, .var .., hs => by rw [pruneS] <;> simp_all
  | m, .assign .., hs => by rw [pruneS] <;> simp_all
  | m, .assignArr .., hs => by rw [pruneS] <;> simp_all
  | m, .assignMem .., hs => by rw [pruneS] <;> simp_all
  | m, .call .., hs => by rw [pruneS] <;> simp_all
  | m, .ret .., hs => by rw [pruneS] <;> simp_all
theorem pruneB_toks : ∀ (m : List Nat) {ss : List (Stmt D)}, B T ss → B T (pruneB m ss).1
  | m, [], hs => by rw [pruneB]; exact hs
  | m, s :: ss, hs => by
    simp only [B] at hs
    rw [pruneB]
    simp only [B]
    exact ⟨pruneS_toks m hs.1, pruneB_toks _ hs.2⟩
end

theorem pruneItems_toks : ∀ (m : List Nat) {p : Prog D} {k : Nat}, P Q C k p → P Q C k (pruneItems m p).1
  | m, [], k, hp => hp
  | m, x :: xs, k, hp => by
    have hx := hp.head
    have hxs := hp.tail
    cases x with
    | func f =>
      rw [pruneItems]
      exact .cons ⟨hx.1, pruneB_toks m hx.2.1, hx.2.2⟩ (pruneItems_toks _ hxs)
    | var t c init =>
      rw [pruneItems]
      · exact .cons hx (pruneItems_toks _ hxs)
      · simp
    | syscall n a =>
      rw [pruneItems]
      · exact .cons hx (pruneItems_toks _ hxs)
      · simp

mutual
theorem patchE_toks (m : List Nat) : ∀ {e : Expr D}, E T e → E T (patchE m e)
  | .int .., h => by rw [patchE]; simpa only [E] using h
  | .arr t es, h => by rw [patchE]; simp only [E] at h ⊢; exact ⟨h.1, patchEs_toks m h.2⟩
  | .deref t l i, h => by rw [patchE]; simp only [E] at h ⊢; exact ⟨h.1, patchE_toks m h.2.1, patchE_toks m h.2.2⟩
  | .call t c as, h => by rw [patchE]; simp only [E] at h ⊢; exact ⟨h.1, patchE_toks m h.2.1, patchEs_toks m h.2.2⟩
  | .bin op l r, h => by rw [patchE]; simp only [E] at h ⊢; exact ⟨h.1, patchE_toks m h.2.1, patchE_toks m h.2.2⟩
  | .un op a, h => by rw [patchE]; simp only [E] at h ⊢; exact ⟨h.1, patchE_toks m h.2⟩
  | .ident .., h => by rw [patchE] <;> simp_all
  | .float .., h => by rw [patchE] <;> simp_all
  | .str .., h => by rw [patchE] <;> simp_all
  | .none .., h => by rw [patchE] <;> simp_all
  | .member .., h => by rw [patchE] <;> simp_all
theorem patchEs_toks (m : List Nat) : ∀ {es : List (Expr D)}, Es T es → Es T (patchEs m es)
  | [], h => by rw [patchEs]; exact h
  | e :: es, h => by rw [patchEs]; simp only [Es] at h ⊢; exact ⟨patchE_toks m h.1, patchEs_toks m h.2⟩
end

theorem patchO_toks (m : List Nat) {e : Option (Expr D)} (h : O T e) : O T (e.map (patchE m)) := by
  cases e with
  | none => exact trivial
  | some e => exact patchE_toks m h

mutual
theorem patchS_toks (m : List Nat) : ∀ {s : Stmt D}, S T s → S T (patchS m s)
  | .var .., h => by rw [patchS]; simp only [S] at h ⊢; exact ⟨h.1, patchO_toks m h.2⟩
  | .assign .., h => by rw [patchS]; simp only [S] at h ⊢; exact ⟨h.1, patchE_toks m h.2⟩
  | .assignArr .., h => by rw [patchS]; simp only [S] at h ⊢; exact ⟨h.1, patchE_toks m h.2.1, patchE_toks m h.2.2⟩
  | .assignMem .., h => by rw [patchS]; simp only [S] at h ⊢; exact ⟨h.1, h.2.1, patchE_toks m h.2.2⟩
  | .call .., h => by rw [patchS]; simp only [S] at h ⊢; exact ⟨h.1, patchE_toks m h.2.1, patchEs_toks m h.2.2⟩
  | .ifS .., h => by
    rw [patchS]; simp only [S] at h ⊢
    exact ⟨h.1, patchE_toks m h.2.1, patchB_toks m h.2.2.1, patchB_toks m h.2.2.2⟩
  | .whileS .., h => by rw [patchS]; simp only [S] at h ⊢; exact ⟨h.1, patchE_toks m h.2.1, patchB_toks m h.2.2⟩
  | .forS .., h => by
    rw [patchS]; simp only [S] at h ⊢
    exact ⟨h.1, h.2.1, patchE_toks m h.2.2.1, patchE_toks m h.2.2.2.1, patchB_toks m h.2.2.2.2⟩
  | .ret .., h => by rw [patchS]; simp only [S] at h ⊢; exact ⟨h.1, patchO_toks m h.2⟩
theorem patchB_toks (m : List Nat) : ∀ {ss : List (Stmt D)}, B T ss → B T (patchB m ss)
  | [], h => by rw [patchB]; exact h
  | s :: ss, h => by rw [patchB]; simp only [B] at h ⊢; exact ⟨patchS_toks m h.1, patchB_toks m h.2⟩
end

theorem P.map {p : Prog D} {k : Nat} (hp : P Q C k p) {f : Item D → Item D}
    (hf : ∀ {T : Token → Prop} x, I T C x → I T C (f x)) : P Q C k (p.map f) := by
  intro i y hy
  rw [List.getElem?_map] at hy
  obtain ⟨x, hx, rfl⟩ := Option.map_eq_some_iff.1 hy
  exact hf x (hp i x hx)

theorem runOptimize_toks {opt : Bool} {p q : Prog D} (hp : P Q C 0 p) (h : runOptimize opt p = .ok q) :
    P Q C 0 q := by
  unfold runOptimize at h
  split at h
  · split at h
    · cases h
    · rename_i p1 h1
      cases h
      have hq : P Q C 0 (postRet p) := by
        unfold postRet
        refine hp.map fun x this => ?_
        cases x with
        | func f => exact ⟨this.1, cut_toks this.2.1, this.2.2⟩
        | var t c init => exact this
        | syscall n a => exact this
      have h2 := pruneItems_toks [] (constFold_toks hq h1)
      unfold ifRemove
      refine P.map h2 fun x this => ?_
      cases x with
      | func f => exact ⟨this.1, patchB_toks _ this.2.1, this.2.2⟩
      | var t c init => exact ⟨this.1, patchO_toks _ this.2.1, fun hc => patchO_toks _ (this.2.2 hc)⟩
      | syscall n a => exact this
  · cases h; exact hp

end Ccml.Toks
