import Verif.AsmProg
import Verif.Build
import Verif.Whole
/-!
Where the strings of a compiled program come from.  `W` is any condition on strings; a tree whose
literals and member names meet it is turned into a tree of that kind by every pass.
-/
namespace Ccml.Strs
open Ccml

section
variable {D : Type} (W : Str → Prop)

mutual
/-- The strings of an expression meet `W`. -/
def E : Expr D → Prop
  | .str s _ => W s
  | .member _ m _ => W m.str
  | .arr _ es => Es es
  | .deref _ l i => E l ∧ E i
  | .call _ c as => E c ∧ Es as
  | .bin _ l r => E l ∧ E r
  | .un _ e => E e
  | .ident .. => True
  | .int .. => True
  | .float .. => True
  | .none .. => True
/-- The same of a list. -/
def Es : List (Expr D) → Prop
  | [] => True
  | e :: es => E e ∧ Es es
end

/-- The same of an expression that may be missing. -/
def O : Option (Expr D) → Prop
  | none => True
  | some e => E W e

mutual
/-- The strings of a statement meet `W`. -/
def S : Stmt D → Prop
  | .var _ _ init => O W init
  | .assign _ _ e => E W e
  | .assignArr _ _ i e => E W i ∧ E W e
  | .assignMem _ m _ e => W m.str ∧ E W e
  | .call _ c as => E W c ∧ Es W as
  | .ifS _ c thn _ els => E W c ∧ B thn ∧ B els
  | .whileS _ c body => E W c ∧ B body
  | .forS _ _ _ a b body => E W a ∧ E W b ∧ B body
  | .ret _ e => O W e
/-- The same of a block. -/
def B : List (Stmt D) → Prop
  | [] => True
  | s :: ss => S s ∧ B ss
end

/-- The strings of a child of the program meet `W`. -/
def I : Item D → Prop
  | .var _ _ init => O W init
  | .func f => B W f.body
  | .syscall .. => True

/-- The strings of a program meet `W`. -/
def P (p : Prog D) : Prop := ∀ x ∈ p, I W x
end

variable {W : Str → Prop} {D : Type}

/-! ### Naming -/

mutual
theorem annE_strs {lk : Look} : ∀ {e : Expr Unit} {e' : Expr Ref}, E W e → annE lk e = .ok e' → E W e'
  | .ident t _, e', _, h => by
    rw [annE] at h; split at h
    · unfold unknownIdentifier errTok at h; split at h <;> cases h
    · cases h; simp only [E]
  | .int .., e', _, h => by rw [annE] at h; cases h; simp only [E]
  | .float .., e', _, h => by rw [annE] at h; cases h; simp only [E]
  | .str .., e', hs, h => by rw [annE] at h; cases h; simpa only [E] using hs
  | .none .., e', _, h => by rw [annE] at h; cases h; simp only [E]
  | .member t m _, e', hs, h => by
    rw [annE] at h; split at h
    · unfold unknownIdentifier errTok at h; split at h <;> cases h
    · split at h
      · cases h; simpa only [E] using hs
      · cases h
  | .arr t es, e', hs, h => by
    rw [annE] at h; split at h
    · cases h
    · rename_i es' h1
      cases h
      simp only [E] at hs ⊢
      exact annEs_strs hs h1
  | .deref t l i, e', hs, h => by
    rw [annE] at h; split at h
    · cases h
    · rename_i l' h1
      split at h
      · cases h
      · rename_i i' h2
        cases h
        simp only [E] at hs ⊢
        exact ⟨annE_strs hs.1 h1, annE_strs hs.2 h2⟩
  | .call t c as, e', hs, h => by
    rw [annE] at h; split at h
    · cases h
    · rename_i l' h1
      split at h
      · cases h
      · rename_i i' h2
        cases h
        simp only [E] at hs ⊢
        exact ⟨annE_strs hs.1 h2, annEs_strs hs.2 h1⟩
  | .bin op l r, e', hs, h => by
    rw [annE] at h; split at h
    · cases h
    · rename_i l' h1
      split at h
      · cases h
      · rename_i i' h2
        cases h
        simp only [E] at hs ⊢
        exact ⟨annE_strs hs.1 h1, annE_strs hs.2 h2⟩
  | .un op a, e', hs, h => by
    rw [annE] at h; split at h
    · cases h
    · rename_i l' h1
      cases h
      simp only [E] at hs ⊢
      exact annE_strs hs h1
theorem annEs_strs {lk : Look} : ∀ {es : List (Expr Unit)} {es' : List (Expr Ref)}, Es W es → annEs lk es = .ok es' →
    Es W es'
  | [], es', _, h => by rw [annEs] at h; cases h; simp only [Es]
  | e :: es, es', hs, h => by
    rw [annEs] at h; split at h
    · cases h
    · rename_i l' h1
      split at h
      · cases h
      · rename_i i' h2
        cases h
        simp only [Es] at hs ⊢
        exact ⟨annE_strs hs.1 h1, annEs_strs hs.2 h2⟩
end

theorem annO_strs {lk : Look} {e : Option (Expr Unit)} {e' : Option (Expr Ref)} (hs : O W e)
    (h : annO lk e = .ok e') : O W e' := by
  cases e with
  | none => cases h; exact trivial
  | some e =>
    rw [annO] at h; split at h
    · cases h
    · rename_i h1
      cases h
      exact annE_strs hs h1

mutual
theorem annS_strs {en : AnnEnv} : ∀ {s : Stmt Unit} {outer : List Scope} {cur : Scope} {k : Nat} {s' : Stmt Ref}
    {cur' : Scope} {k' : Nat}, S W s → annS en outer cur k s = .ok (s', cur', k') → S W s'
  | .var t _ init, outer, cur, k, s', cur', k', hs, h => by
    rw [annS] at h; split at h
    · cases h
    · rename_i h1
      cases h
      simp only [S] at hs ⊢
      exact annO_strs hs h1
  | .assign t _ e, outer, cur, k, s', cur', k', hs, h => by
    rw [annS] at h; split at h
    · cases h
    · rename_i h1
      split at h
      · cases h
      · cases h
        simp only [S] at hs ⊢
        exact annE_strs hs h1
  | .assignArr t _ i e, outer, cur, k, s', cur', k', hs, h => by
    rw [annS] at h; split at h
    · cases h
    · rename_i h1
      split at h
      · cases h
      · rename_i h2
        split at h
        · cases h
        · cases h
          simp only [S] at hs ⊢
          exact ⟨annE_strs hs.1 h1, annE_strs hs.2 h2⟩
  | .assignMem t m _ e, outer, cur, k, s', cur', k', hs, h => by
    rw [annS] at h; split at h
    · cases h
    · rename_i h1
      split at h
      · cases h
      · cases h
        simp only [S] at hs ⊢
        exact ⟨hs.1, annE_strs hs.2 h1⟩
  | .call t c as, outer, cur, k, s', cur', k', hs, h => by
    rw [annS] at h; split at h
    · cases h
    · rename_i h1
      split at h
      · cases h
      · rename_i h2
        cases h
        simp only [S] at hs ⊢
        exact ⟨annE_strs hs.1 h2, annEs_strs hs.2 h1⟩
  | .ifS t c thn he els, outer, cur, k, s', cur', k', hs, h => by
    rw [annS] at h; split at h
    · cases h
    · rename_i h1
      split at h
      · cases h
      · rename_i h2
        split at h
        · cases h
        · rename_i h3
          cases h
          simp only [S] at hs ⊢
          exact ⟨annE_strs hs.1 h1, annB_strs hs.2.1 h2, annB_strs hs.2.2 h3⟩
  | .whileS t c body, outer, cur, k, s', cur', k', hs, h => by
    rw [annS] at h; split at h
    · cases h
    · rename_i h1
      split at h
      · cases h
      · rename_i h2
        cases h
        simp only [S] at hs ⊢
        exact ⟨annE_strs hs.1 h1, annB_strs hs.2 h2⟩
  | .forS t n _ a b body, outer, cur, k, s', cur', k', hs, h => by
    rw [annS] at h; split at h
    · cases h
    · split at h
      · cases h
      · rename_i h1
        split at h
        · cases h
        · rename_i h2
          split at h
          · cases h
          · rename_i h3
            cases h
            simp only [S] at hs ⊢
            exact ⟨annE_strs hs.1 h1, annE_strs hs.2.1 h2, annB_strs hs.2.2 h3⟩
  | .ret t e, outer, cur, k, s', cur', k', hs, h => by
    rw [annS] at h; split at h
    · cases h
    · rename_i h1
      cases h
      simp only [S] at hs ⊢
      exact annO_strs hs h1
theorem annB_strs {en : AnnEnv} : ∀ {ss : List (Stmt Unit)} {outer : List Scope} {cur : Scope} {k : Nat}
    {ss' : List (Stmt Ref)} {cur' : Scope} {k' : Nat}, B W ss → annB en outer cur k ss = .ok (ss', cur', k') →
    B W ss'
  | [], outer, cur, k, s', cur', k', hs, h => by rw [annB] at h; cases h; simp only [B]
  | s :: ss, outer, cur, k, s', cur', k', hs, h => by
    rw [annB] at h; split at h
    · cases h
    · rename_i h1
      split at h
      · cases h
      · rename_i h2
        cases h
        simp only [B] at hs ⊢
        exact ⟨annS_strs hs.1 h1, annB_strs hs.2 h2⟩
end

theorem annItem_strs {L : Layout} {p : Prog Unit} {i : Nat} {x : Item Unit} {y : Item Ref} (hs : I W x)
    (h : annItem L p i x = .ok y) : I W y := by
  cases x with
  | var t c init =>
    rw [annItem] at h; split at h
    · cases h
    · rename_i h1; cases h; exact annO_strs hs h1
  | func f =>
    rw [annItem] at h; split at h
    · cases h
    · rename_i h1; cases h; exact annB_strs hs h1
  | syscall n a => rw [annItem] at h; cases h; exact trivial

theorem annItems_strs {L : Layout} {p : Prog Unit} : ∀ {i : Nat} {xs : List (Item Unit)} {ys : Prog Ref},
    (∀ x ∈ xs, I W x) → annItems L p i xs = .ok ys → P W ys
  | i, [], ys, _, h => by rw [annItems] at h; cases h; intro x hx; cases hx
  | i, x :: xs, ys, hs, h => by
    rw [annItems] at h; split at h
    · cases h
    · rename_i h1
      split at h
      · cases h
      · rename_i h2
        cases h
        intro y hy
        rcases List.mem_cons.1 hy with rfl | hy
        · exact annItem_strs (hs x (by simp)) h1
        · exact annItems_strs (fun z hz => hs z (by simp [hz])) h2 y hy

/-! ### Constants -/

theorem P.at {p : Prog D} (hp : P W p) {i : Nat} {x : Item D} (h : p[i]? = some x) : I W x :=
  hp x (List.mem_of_getElem? h)

theorem P.set {p : Prog D} (hp : P W p) {i : Nat} {x : Item D} (h : I W x) : P W (p.set i x) := by
  intro y hy
  rcases List.mem_or_eq_of_mem_set hy with hy | rfl
  · exact hp y hy
  · exact h

theorem globalInit_strs {p : Prog Ref} {e : Expr Ref} {e' : Option (Expr Ref)} {ch : Bool} (hs : E W e)
    (h : globalInit p e = .ok (e', ch)) : O W e' := by
  unfold globalInit at h
  split at h
  · cases h; exact trivial
  · split at h
    · cases h
    · cases h; simp only [O, E]
    · cases h; exact hs
  · split at h
    · cases h
    · cases h; simp only [O, E]
    · cases h; exact hs
  · cases h; exact hs

theorem globalPass_strs : ∀ {is : List Nat} {p q : Prog Ref} {ch ch' : Bool}, P W p →
    globalPass is p ch = .ok (q, ch') → P W q
  | [], p, q, ch, ch', hp, h => by rw [globalPass] at h; cases h; exact hp
  | i :: is, p, q, ch, ch', hp, h => by
    rw [globalPass] at h
    split at h
    · rename_i t c e h1
      split at h
      · cases h
      · rename_i h2
        refine globalPass_strs (hp.set ?_) h
        exact globalInit_strs (hp.at h1) h2
    · exact globalPass_strs hp h

theorem globalLoop_strs : ∀ {n : Nat} {p q : Prog Ref}, P W p → globalLoop n p = .ok q → P W q
  | 0, p, q, _, h => by rw [globalLoop] at h; cases h
  | n + 1, p, q, hp, h => by
    rw [globalLoop] at h
    split at h
    · cases h
    · rename_i h1; exact globalLoop_strs (globalPass_strs hp h1) h
    · rename_i h1; cases h; exact globalPass_strs hp h1

theorem globalVars_strs {p q : Prog Ref} (hp : P W p) (h : globalVars p = .ok q) : P W q := by
  unfold globalVars at h
  split at h
  · cases h
  · rename_i h1
    split at h
    · cases h
    · rename_i h2; cases h; exact globalPass_strs (globalLoop_strs hp h1) h2

theorem constIdent_strs {p : Prog Ref} (hp : P W p) {t : Token} {r : Ref} {e : Expr Ref}
    (h : constIdent p t r = .ok e) : E W e := by
  unfold constIdent at h
  split at h
  · split at h
    · rename_i h1
      have hi := hp.at h1
      split at h
      · cases h; simp only [E]
      · cases h; simpa only [I, O, E] using hi
      · cases h; simp only [E]
      · cases h; simp only [E]
      · unfold errTok at h; split at h <;> cases h
    · cases h; simp only [E]
  · cases h; simp only [E]

theorem callee_strs {c c' : Expr Ref} (h : E W c) (h' : E W c') :
    E W (match c with | .ident n r => .ident n r | _ => c') := by
  split
  · simp only [E]
  · exact h'

mutual
theorem constE_strs {p : Prog Ref} (hp : P W p) : ∀ {e e' : Expr Ref}, E W e → constE p e = .ok e' → E W e'
  | .ident t r, e', _, h => by rw [constE] at h; exact constIdent_strs hp h
  | .int .., e', _, h => by rw [constE] at h; cases h; simp only [E]
  | .float .., e', _, h => by rw [constE] at h; cases h; simp only [E]
  | .str .., e', hs, h => by rw [constE] at h; cases h; exact hs
  | .none .., e', _, h => by rw [constE] at h; cases h; simp only [E]
  | .member .., e', hs, h => by rw [constE] at h; cases h; exact hs
  | .arr t es, e', hs, h => by
    rw [constE] at h; split at h
    · cases h
    · rename_i h1
      cases h
      simp only [E] at hs ⊢
      exact constEs_strs hp hs h1
  | .deref t l i, e', hs, h => by
    rw [constE] at h; split at h
    · cases h
    · rename_i h1
      split at h
      · cases h
      · rename_i h2
        cases h
        simp only [E] at hs ⊢
        exact ⟨constE_strs hp hs.1 h1, constE_strs hp hs.2 h2⟩
  | .call t c as, e', hs, h => by
    rw [constE] at h; split at h
    · cases h
    · rename_i h1
      split at h
      · cases h
      · rename_i h2
        cases h
        simp only [E] at hs ⊢
        exact ⟨callee_strs hs.1 (constE_strs hp hs.1 h2), constEs_strs hp hs.2 h1⟩
  | .bin op l r, e', hs, h => by
    rw [constE] at h; split at h
    · cases h
    · rename_i h1
      split at h
      · cases h
      · rename_i h2
        cases h
        simp only [E] at hs ⊢
        exact ⟨constE_strs hp hs.1 h1, constE_strs hp hs.2 h2⟩
  | .un op a, e', hs, h => by
    rw [constE] at h; split at h
    · cases h
    · rename_i h1
      cases h
      simp only [E] at hs ⊢
      exact constE_strs hp hs h1
theorem constEs_strs {p : Prog Ref} (hp : P W p) : ∀ {es es' : List (Expr Ref)}, Es W es → constEs p es = .ok es' →
    Es W es'
  | [], es', _, h => by rw [constEs] at h; cases h; simp only [Es]
  | e :: es, es', hs, h => by
    rw [constEs] at h; split at h
    · cases h
    · rename_i h1
      split at h
      · cases h
      · rename_i h2
        cases h
        simp only [Es] at hs ⊢
        exact ⟨constE_strs hp hs.1 h1, constEs_strs hp hs.2 h2⟩
end

theorem constO_strs {p : Prog Ref} (hp : P W p) {e e' : Option (Expr Ref)} (hs : O W e)
    (h : constO p e = .ok e') : O W e' := by
  cases e with
  | none => cases h; exact trivial
  | some e =>
    rw [constO] at h; split at h
    · cases h
    · rename_i h1
      cases h
      exact constE_strs hp hs h1

mutual
theorem constS_strs {p : Prog Ref} (hp : P W p) : ∀ {s s' : Stmt Ref}, S W s → constS p s = .ok s' → S W s'
  | .var t _ init, s', hs, h => by
    rw [constS] at h; split at h
    · cases h
    · rename_i h1
      cases h
      simp only [S] at hs ⊢
      exact constO_strs hp hs h1
  | .assign t _ e, s', hs, h => by
    rw [constS] at h; split at h
    · unfold errTok at h; split at h <;> cases h
    · split at h
      · cases h
      · rename_i h1
        cases h
        simp only [S] at hs ⊢
        exact constE_strs hp hs h1
  | .assignArr t _ i e, s', hs, h => by
    rw [constS] at h; split at h
    · cases h
    · rename_i h1
      split at h
      · cases h
      · rename_i h2
        cases h
        simp only [S] at hs ⊢
        exact ⟨constE_strs hp hs.1 h1, constE_strs hp hs.2 h2⟩
  | .assignMem t m _ e, s', hs, h => by
    rw [constS] at h; split at h
    · cases h
    · rename_i h1
      cases h
      simp only [S] at hs ⊢
      exact ⟨hs.1, constE_strs hp hs.2 h1⟩
  | .call t c as, s', hs, h => by
    rw [constS] at h; split at h
    · cases h
    · rename_i h1
      split at h
      · cases h
      · rename_i h2
        cases h
        simp only [S] at hs ⊢
        exact ⟨callee_strs hs.1 (constE_strs hp hs.1 h2), constEs_strs hp hs.2 h1⟩
  | .ifS t c thn he els, s', hs, h => by
    rw [constS] at h; split at h
    · cases h
    · rename_i h1
      split at h
      · cases h
      · rename_i h2
        split at h
        · cases h
        · rename_i h3
          cases h
          simp only [S] at hs ⊢
          exact ⟨constE_strs hp hs.1 h1, constB_strs hp hs.2.1 h2, constB_strs hp hs.2.2 h3⟩
  | .whileS t c body, s', hs, h => by
    rw [constS] at h; split at h
    · cases h
    · rename_i h1
      split at h
      · cases h
      · rename_i h2
        cases h
        simp only [S] at hs ⊢
        exact ⟨constE_strs hp hs.1 h1, constB_strs hp hs.2 h2⟩
  | .forS t n _ a b body, s', hs, h => by
    rw [constS] at h; split at h
    · cases h
    · rename_i h1
      split at h
      · cases h
      · rename_i h2
        split at h
        · cases h
        · rename_i h3
          cases h
          simp only [S] at hs ⊢
          exact ⟨constE_strs hp hs.1 h1, constE_strs hp hs.2.1 h2, constB_strs hp hs.2.2 h3⟩
  | .ret t e, s', hs, h => by
    rw [constS] at h; split at h
    · cases h
    · rename_i h1
      cases h
      simp only [S] at hs ⊢
      exact constO_strs hp hs h1
theorem constB_strs {p : Prog Ref} (hp : P W p) : ∀ {ss ss' : List (Stmt Ref)}, B W ss → constB p ss = .ok ss' →
    B W ss'
  | [], ss', _, h => by rw [constB] at h; cases h; simp only [B]
  | s :: ss, ss', hs, h => by
    rw [constB] at h; split at h
    · cases h
    · rename_i h1
      split at h
      · cases h
      · rename_i h2
        cases h
        simp only [B] at hs ⊢
        exact ⟨constS_strs hp hs.1 h1, constB_strs hp hs.2 h2⟩
end

theorem constItem_strs {p : Prog Ref} (hp : P W p) {x y : Item Ref} (hs : I W x) (h : constItem p x = .ok y) :
    I W y := by
  cases x with
  | var t c init =>
    rw [constItem] at h; split at h
    · cases h
    · rename_i h1
      split at h
      · unfold errTok at h; split at h <;> cases h
      · cases h; exact constO_strs hp hs h1
  | func f =>
    rw [constItem] at h; split at h
    · cases h
    · rename_i h1; cases h; exact constB_strs hp hs h1
  | syscall n a => rw [constItem] at h; cases h; exact trivial

theorem constPass_strs : ∀ {is : List Nat} {p q : Prog Ref}, P W p → constPass is p = .ok q → P W q
  | [], p, q, hp, h => by rw [constPass] at h; cases h; exact hp
  | i :: is, p, q, hp, h => by
    rw [constPass] at h
    split at h
    · exact constPass_strs hp h
    · rename_i x h1
      split at h
      · cases h
      · rename_i h2
        exact constPass_strs (hp.set (constItem_strs hp (hp.at h1) h2)) h

theorem runSema_strs {L : Layout} {p : Prog Unit} {q : Prog Ref} (hp : P W p) (h : runSema L p = .ok q) : P W q := by
  unfold runSema at h
  split at h
  · cases h
  · rename_i h1
    split at h
    · cases h
    · rename_i h2
      split at h
      · cases h
      · rename_i h3
        split at h
        · cases h
        · split at h
          · cases h
          · cases h
            exact constPass_strs (globalVars_strs (annItems_strs hp h1) h2) h3

/-! ### The optimiser -/

theorem cut_strs : ∀ {ss : List (Stmt D)}, B W ss → B W (cutAfterRet ss)
  | [], h => h
  | s :: ss, h => by
    simp only [B] at h
    rw [cutAfterRet]
    split
    · simp only [B]; exact ⟨h.1, trivial⟩
    · simp only [B]; exact ⟨h.1, cut_strs h.2⟩

theorem foldTop_strs {e e' : Expr D} (hs : E W e) (h : foldTop e = .ok e') : E W e' := by
  unfold foldTop at h
  split at h
  · cases h
  · split at h
    · cases h; simp only [E]
    · cases h; exact hs

mutual
theorem foldS_strs : ∀ {s s' : Stmt D}, S W s → foldS s = .ok s' → S W s'
  | .var t _ init, s', hs, h => by
    rw [foldS] at h; split at h
    · cases h
    · cases h; exact hs
  | .assign t _ e, s', hs, h => by
    rw [foldS] at h; split at h
    · cases h
    · rename_i h1
      cases h
      simp only [S] at hs ⊢
      exact foldTop_strs hs h1
  | .assignArr t _ i e, s', hs, h => by
    rw [foldS] at h; split at h
    · cases h
    · split at h
      · cases h
      · cases h; exact hs
  | .assignMem t m _ e, s', hs, h => by
    rw [foldS] at h; split at h
    · cases h
    · cases h; exact hs
  | .call t c as, s', hs, h => by
    rw [foldS] at h; split at h
    · cases h
    · split at h
      · cases h
      · cases h; exact hs
  | .ifS t c thn he els, s', hs, h => by
    rw [foldS] at h; split at h
    · cases h
    · rename_i h1
      split at h
      · cases h
      · rename_i h2
        split at h
        · cases h
        · rename_i h3
          cases h
          simp only [S] at hs ⊢
          exact ⟨foldTop_strs hs.1 h1, foldB_strs hs.2.1 h2, foldB_strs hs.2.2 h3⟩
  | .whileS t c body, s', hs, h => by
    rw [foldS] at h; split at h
    · cases h
    · rename_i h1
      split at h
      · cases h
      · rename_i h2
        cases h
        simp only [S] at hs ⊢
        exact ⟨foldTop_strs hs.1 h1, foldB_strs hs.2 h2⟩
  | .forS t n _ a b body, s', hs, h => by
    rw [foldS] at h; split at h
    · cases h
    · split at h
      · cases h
      · split at h
        · cases h
        · rename_i h3
          cases h
          simp only [S] at hs ⊢
          exact ⟨hs.1, hs.2.1, foldB_strs hs.2.2 h3⟩
  | .ret t none, s', hs, h => by
    simp only [foldS] at h
    cases h; exact hs
  | .ret t (some e), s', hs, h => by
    simp only [foldS] at h
    split at h
    · cases h
    · rename_i h1
      cases h
      simp only [S, O] at hs ⊢
      exact foldTop_strs hs h1
theorem foldB_strs : ∀ {ss ss' : List (Stmt D)}, B W ss → foldB ss = .ok ss' → B W ss'
  | [], ss', _, h => by rw [foldB] at h; cases h; simp only [B]
  | s :: ss, ss', hs, h => by
    rw [foldB] at h; split at h
    · cases h
    · rename_i h1
      split at h
      · cases h
      · rename_i h2
        cases h
        simp only [B] at hs ⊢
        exact ⟨foldS_strs hs.1 h1, foldB_strs hs.2 h2⟩
end

theorem constFold_strs : ∀ {p q : Prog D}, P W p → constFold p = .ok q → P W q
  | [], q, hp, h => by rw [constFold] at h; cases h; exact hp
  | x :: xs, q, hp, h => by
    rw [constFold] at h; split at h
    · cases h
    · rename_i y h1
      split at h
      · cases h
      · rename_i h2
        cases h
        intro z hz
        rcases List.mem_cons.1 hz with rfl | hz
        · have hx := hp x (by simp)
          cases x with
          | var t c init =>
            rw [foldItem] at h1; split at h1
            · cases h1
            · cases h1; exact hx
          | func f =>
            rw [foldItem] at h1; split at h1
            · cases h1
            · rename_i h3; cases h1; exact foldB_strs hx h3
          | syscall n a => cases h1; exact trivial
        · exact constFold_strs (fun w hw => hp w (by simp [hw])) h2 z hz

mutual
theorem pruneS_strs : ∀ (m : List Nat) {s : Stmt D}, S W s → S W (pruneS m s).1
  | m, .ifS t c thn he els, hs => by
    simp only [S] at hs
    have h1 := pruneB_strs m hs.2.1
    have h2 := pruneB_strs (pruneB m thn).2 hs.2.2
    have hc := hs.1
    rw [pruneS]
    dsimp only
    split
    · split
      · simp only [S, E, B]; exact ⟨trivial, h1, trivial⟩
      · split <;> (simp only [S, E, B]; refine ⟨trivial, ?_, trivial⟩; split; exact h2; simp only [B])
    · simp only [S]; exact ⟨hc, h1, h2⟩
  | m, .whileS t c body, hs => by
    simp only [S] at hs
    have h1 := pruneB_strs m hs.2
    have hc := hs.1
    rw [pruneS]
    dsimp only
    split
    · split
      · simp only [S, E, B]; trivial
      · simp only [S, E]; exact ⟨trivial, h1⟩
    · simp only [S]; exact ⟨hc, h1⟩
  | m, .forS t n d a b body, hs => by
    simp only [S] at hs
    have h1 := pruneB_strs m hs.2.2
    rw [pruneS]
    simp only [S]
    exact ⟨hs.1, hs.2.1, h1⟩
  | m, .var .., hs => by rw [pruneS] <;> simp_all
  | m, .assign .., hs => by rw [pruneS] <;> simp_all
  | m, .assignArr .., hs => by rw [pruneS] <;> simp_all
  | m, .assignMem .., hs => by rw [pruneS] <;> simp_all
  | m, .call .., hs => by rw [pruneS] <;> simp_all
  | m, .ret .., hs => by rw [pruneS] <;> simp_all
theorem pruneB_strs : ∀ (m : List Nat) {ss : List (Stmt D)}, B W ss → B W (pruneB m ss).1
  | m, [], hs => by rw [pruneB]; exact hs
  | m, s :: ss, hs => by
    simp only [B] at hs
    rw [pruneB]
    simp only [B]
    exact ⟨pruneS_strs m hs.1, pruneB_strs _ hs.2⟩
end

theorem pruneItems_strs : ∀ (m : List Nat) {p : Prog D}, P W p → P W (pruneItems m p).1
  | m, [], hp => hp
  | m, x :: xs, hp => by
    have hx := hp x (by simp)
    have hxs : P W xs := fun w hw => hp w (by simp [hw])
    cases x with
    | func f =>
      rw [pruneItems]
      intro z hz
      rcases List.mem_cons.1 hz with rfl | hz
      · exact pruneB_strs m hx
      · exact pruneItems_strs _ hxs z hz
    | var t c init =>
      rw [pruneItems]
      · intro z hz
        rcases List.mem_cons.1 hz with rfl | hz
        · exact hx
        · exact pruneItems_strs _ hxs z hz
      · simp
    | syscall n a =>
      rw [pruneItems]
      · intro z hz
        rcases List.mem_cons.1 hz with rfl | hz
        · exact hx
        · exact pruneItems_strs _ hxs z hz
      · simp

mutual
theorem patchE_strs (m : List Nat) : ∀ {e : Expr D}, E W e → E W (patchE m e)
  | .int .., h => by rw [patchE]; simp only [E]
  | .arr t es, h => by rw [patchE]; simp only [E] at h ⊢; exact patchEs_strs m h
  | .deref t l i, h => by rw [patchE]; simp only [E] at h ⊢; exact ⟨patchE_strs m h.1, patchE_strs m h.2⟩
  | .call t c as, h => by rw [patchE]; simp only [E] at h ⊢; exact ⟨patchE_strs m h.1, patchEs_strs m h.2⟩
  | .bin op l r, h => by rw [patchE]; simp only [E] at h ⊢; exact ⟨patchE_strs m h.1, patchE_strs m h.2⟩
  | .un op a, h => by rw [patchE]; simp only [E] at h ⊢; exact patchE_strs m h
  | .ident .., h => by rw [patchE] <;> simp_all
  | .float .., h => by rw [patchE] <;> simp_all
  | .str .., h => by rw [patchE] <;> simp_all
  | .none .., h => by rw [patchE] <;> simp_all
  | .member .., h => by rw [patchE] <;> simp_all
theorem patchEs_strs (m : List Nat) : ∀ {es : List (Expr D)}, Es W es → Es W (patchEs m es)
  | [], h => by rw [patchEs]; exact h
  | e :: es, h => by rw [patchEs]; simp only [Es] at h ⊢; exact ⟨patchE_strs m h.1, patchEs_strs m h.2⟩
end

theorem patchO_strs (m : List Nat) {e : Option (Expr D)} (h : O W e) : O W (e.map (patchE m)) := by
  cases e with
  | none => exact trivial
  | some e => exact patchE_strs m h

mutual
theorem patchS_strs (m : List Nat) : ∀ {s : Stmt D}, S W s → S W (patchS m s)
  | .var .., h => by rw [patchS]; simp only [S] at h ⊢; exact patchO_strs m h
  | .assign .., h => by rw [patchS]; simp only [S] at h ⊢; exact patchE_strs m h
  | .assignArr .., h => by rw [patchS]; simp only [S] at h ⊢; exact ⟨patchE_strs m h.1, patchE_strs m h.2⟩
  | .assignMem .., h => by rw [patchS]; simp only [S] at h ⊢; exact ⟨h.1, patchE_strs m h.2⟩
  | .call .., h => by rw [patchS]; simp only [S] at h ⊢; exact ⟨patchE_strs m h.1, patchEs_strs m h.2⟩
  | .ifS .., h => by
    rw [patchS]; simp only [S] at h ⊢; exact ⟨patchE_strs m h.1, patchB_strs m h.2.1, patchB_strs m h.2.2⟩
  | .whileS .., h => by rw [patchS]; simp only [S] at h ⊢; exact ⟨patchE_strs m h.1, patchB_strs m h.2⟩
  | .forS .., h => by
    rw [patchS]; simp only [S] at h ⊢; exact ⟨patchE_strs m h.1, patchE_strs m h.2.1, patchB_strs m h.2.2⟩
  | .ret .., h => by rw [patchS]; simp only [S] at h ⊢; exact patchO_strs m h
theorem patchB_strs (m : List Nat) : ∀ {ss : List (Stmt D)}, B W ss → B W (patchB m ss)
  | [], h => by rw [patchB]; exact h
  | s :: ss, h => by rw [patchB]; simp only [B] at h ⊢; exact ⟨patchS_strs m h.1, patchB_strs m h.2⟩
end

theorem runOptimize_strs {opt : Bool} {p q : Prog D} (hp : P W p) (h : runOptimize opt p = .ok q) : P W q := by
  unfold runOptimize at h
  split at h
  · split at h
    · cases h
    · rename_i p1 h1
      cases h
      have hq : P W (postRet p) := by
        intro y hy
        unfold postRet at hy
        obtain ⟨x, hx, rfl⟩ := List.mem_map.1 hy
        have := hp x hx
        cases x with
        | func f => exact cut_strs this
        | var t c init => exact this
        | syscall n a => exact this
      have h2 := pruneItems_strs [] (constFold_strs hq h1)
      intro y hy
      unfold ifRemove at hy
      obtain ⟨x, hx, rfl⟩ := List.mem_map.1 hy
      have := h2 x hx
      cases x with
      | func f => exact patchB_strs _ this
      | var t c init => exact patchO_strs _ this
      | syscall n a => exact this
  · cases h; exact hp

/-! ### The table of strings -/

mutual
theorem E.strs : ∀ {e : Expr Ref}, E W e → ∀ s ∈ strsE e, W s
  | .str s t, h, x, hx => by
    simp only [strsE, List.mem_singleton] at hx; subst hx; simpa only [E] using h
  | .member t m r, h, x, hx => by
    simp only [strsE, List.mem_singleton] at hx; subst hx; simpa only [E] using h
  | .arr t es, h, x, hx => by simp only [strsE, E] at hx h; exact Es.strs h x hx
  | .deref t l i, h, x, hx => by
    simp only [strsE, E, List.mem_append] at hx h
    exact hx.elim (E.strs h.2 x) (E.strs h.1 x)
  | .call t c as, h, x, hx => by
    simp only [strsE, E, List.mem_append] at hx h
    exact hx.elim (Es.strs h.2 x) (E.strs h.1 x)
  | .bin op l r, h, x, hx => by
    simp only [strsE, E, List.mem_append] at hx h
    exact hx.elim (E.strs h.1 x) (E.strs h.2 x)
  | .un op a, h, x, hx => by simp only [strsE, E] at hx h; exact E.strs h x hx
  | .ident .., h, x, hx => by simp [strsE] at hx
  | .int .., h, x, hx => by simp [strsE] at hx
  | .float .., h, x, hx => by simp [strsE] at hx
  | .none .., h, x, hx => by simp [strsE] at hx
theorem Es.strs : ∀ {es : List (Expr Ref)}, Es W es → ∀ s ∈ strsEs es, W s
  | [], h, x, hx => by simp [strsEs] at hx
  | e :: es, h, x, hx => by
    simp only [strsEs, Es, List.mem_append] at hx h
    exact hx.elim (E.strs h.1 x) (Es.strs h.2 x)
end

mutual
theorem S.strs : ∀ {s : Stmt Ref}, S W s → ∀ x ∈ strsS s, W x
  | .var t r none, h, x, hx => by simp [strsS] at hx
  | .var t r (some e), h, x, hx => by simp only [strsS, S, O] at hx h; exact h.strs x hx
  | .assign t r e, h, x, hx => by simp only [strsS, S] at hx h; exact h.strs x hx
  | .assignArr t r i e, h, x, hx => by
    simp only [strsS, S, List.mem_append] at hx h
    exact hx.elim (h.2.strs x) (h.1.strs x)
  | .assignMem t m r e, h, x, hx => by
    simp only [strsS, S, List.mem_append, List.mem_singleton] at hx h
    exact hx.elim (h.2.strs x) (fun e => e ▸ h.1)
  | .call t c as, h, x, hx => by
    simp only [strsS, S, List.mem_append] at hx h
    exact hx.elim (h.2.strs x) (h.1.strs x)
  | .ifS t c thn he els, h, x, hx => by
    simp only [strsS, S, List.mem_append] at hx h
    rcases hx with (hx | hx) | hx
    · exact h.1.strs x hx
    · exact B.strs h.2.1 x hx
    · split at hx
      · exact B.strs h.2.2 x hx
      · cases hx
  | .whileS t c body, h, x, hx => by
    simp only [strsS, S, List.mem_append] at hx h
    exact hx.elim (B.strs h.2 x) (h.1.strs x)
  | .forS t n r a b body, h, x, hx => by
    simp only [strsS, S, List.mem_append] at hx h
    rcases hx with (hx | hx) | hx
    · exact h.1.strs x hx
    · exact B.strs h.2.2 x hx
    · exact h.2.1.strs x hx
  | .ret t none, h, x, hx => by simp [strsS] at hx
  | .ret t (some e), h, x, hx => by simp only [strsS, S, O] at hx h; exact h.strs x hx
theorem B.strs : ∀ {ss : List (Stmt Ref)}, B W ss → ∀ x ∈ strsB ss, W x
  | [], h, x, hx => by simp [strsB] at hx
  | s :: ss, h, x, hx => by
    simp only [strsB, B, List.mem_append] at hx h
    exact hx.elim (S.strs h.1 x) (B.strs h.2 x)
end

theorem initFrom_strs : ∀ {p : Prog Ref} {i : Nat}, P W p → B W (initFrom i p)
  | [], i, hp => by simp only [initFrom, B]
  | x :: xs, i, hp => by
    have hxs : P W xs := fun w hw => hp w (by simp [hw])
    have hx := hp x (by simp)
    have ih := initFrom_strs (i := i + 1) hxs
    cases x with
    | var t c init =>
      cases init with
      | none => simpa only [initFrom] using ih
      | some e =>
        cases c with
        | true => simpa only [initFrom] using ih
        | false =>
          simp only [initFrom, B, S]
          exact ⟨hx, ih⟩
    | func f => simpa only [initFrom] using ih
    | syscall n a => simpa only [initFrom] using ih

theorem segs_strs {p : Prog Ref} {sys : List Syscall} : ∀ {xs : Prog Ref} {pc si : Nat} {segs : List Seg}, P W xs →
    segsOf p sys pc si xs = .ok segs → ∀ x ∈ segsStrs segs, W x
  | [], pc, si, segs, hp, h => by simp only [segsOf] at h; cases h; simp [segsStrs]
  | x :: xs, pc, si, segs, hp, h => by
    have hxs : P W xs := fun w hw => hp w (by simp [hw])
    have hx := hp x (by simp)
    cases x with
    | var t c init => simp only [segsOf] at h; exact segs_strs hxs h
    | syscall n a => simp only [segsOf] at h; exact segs_strs hxs h
    | func f =>
      simp only [segsOf] at h
      obtain ⟨a, _, h⟩ := bind_ok.1 h
      obtain ⟨r, h2, h⟩ := bind_ok.1 h
      cases h
      intro s hs
      simp only [segsStrs, List.flatMap_cons, List.mem_append] at hs
      rcases hs with hs | hs
      · exact B.strs hx s hs
      · exact segs_strs hxs h2 s hs

/-- The strings of generated code come from the tree. -/
theorem generated_strs {p : Prog Ref} {prog : Program} {segs : List Seg} {es : List Function} (hp : P W p)
    (h : Generated p prog segs es) : ∀ s ∈ prog.strings, W s := by
  obtain ⟨l, a, i, h1, _, h3, h4⟩ := h.funcs
  rw [h.strings, h4, segsStrs_append]
  intro s hs
  rcases List.mem_append.1 hs with hs | hs
  · exact segs_strs hp h1 s hs
  · subst h3
    simp only [segsStrs, List.flatMap_cons, List.flatMap_nil, List.append_nil] at hs
    exact B.strs (initFrom_strs hp) s hs

end Ccml.Strs
