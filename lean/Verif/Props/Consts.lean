import Verif.Props.Static
/-!
Constants (C20): they are never assigned, no use of one is left in the tree that code is generated
from, and the uses that were there have become the declared literal.
-/
set_option linter.unusedSimpArgs false
set_option linter.unusedSectionVars false
namespace Ccml.Props
open Sem (State Res Vars Flow CallF evalE evalEs evalS evalB callFn Ctx literal)

/-! ### What the theorems speak about -/

/-- A reference to a constant of a program. -/
def IsConst (q : Prog Ref) (r : Ref) : Prop := ∃ i t e, r = .item i ∧ q[i]? = some (.var t true e)

mutual
/-- The variables a statement changes with `=`. -/
def assignedS : Stmt Ref → List Ref
  | .assign _ r _ => [r]
  | .ifS _ _ thn _ els => assignedB thn ++ assignedB els
  | .whileS _ _ body => assignedB body
  | .forS _ _ _ _ _ body => assignedB body
  | _ => []
/-- The same for a block. -/
def assignedB : List (Stmt Ref) → List Ref
  | [] => []
  | s :: ss => assignedS s ++ assignedB ss
end

mutual
/-- All names in an expression. -/
def namesE : Expr Ref → List Ref
  | .ident _ r => [r]
  | .member _ _ r => [r]
  | .arr _ es => namesEs es
  | .deref _ l i => namesE l ++ namesE i
  | .call _ c as => namesEs as ++ namesE c
  | .bin _ l r => namesE l ++ namesE r
  | .un _ a => namesE a
  | _ => []
/-- The same for a list. -/
def namesEs : List (Expr Ref) → List Ref
  | [] => []
  | e :: es => namesE e ++ namesEs es
end

/-- An expression that may be missing. -/
def namesO : Option (Expr Ref) → List Ref
  | none => []
  | some e => namesE e

mutual
/-- All names in a statement: in its expressions, and every variable that is assigned, counted by a
`for`, or whose elements or members are assigned. -/
def namesS : Stmt Ref → List Ref
  | .var _ _ init => namesO init
  | .assign _ r e => r :: namesE e
  | .assignArr _ r i e => r :: (namesE i ++ namesE e)
  | .assignMem _ _ r e => r :: namesE e
  | .call _ c as => namesEs as ++ namesE c
  | .ifS _ c thn h els => namesE c ++ (namesB thn ++ (if h then namesB els else []))
  | .whileS _ c body => namesE c ++ namesB body
  | .forS _ _ r a b body => r :: (namesE a ++ (namesE b ++ namesB body))
  | .ret _ e => namesO e
/-- The same for a block. -/
def namesB : List (Stmt Ref) → List Ref
  | [] => []
  | s :: ss => namesS s ++ namesB ss
end

mutual
/-- The names an expression reads as values: all but a name that is called directly and the variable
whose member is taken. -/
def readE : Expr Ref → List Ref
  | .ident _ r => [r]
  | .arr _ es => readEs es
  | .deref _ l i => readE l ++ readE i
  | .call _ (.ident _ _) as => readEs as
  | .call _ c as => readEs as ++ readE c
  | .bin _ l r => readE l ++ readE r
  | .un _ a => readE a
  | _ => []
/-- The same for a list. -/
def readEs : List (Expr Ref) → List Ref
  | [] => []
  | e :: es => readE e ++ readEs es
end

/-- An expression that may be missing. -/
def readO : Option (Expr Ref) → List Ref
  | none => []
  | some e => readE e

/-- The names a call reads as values. -/
def readCall (c : Expr Ref) (as : List (Expr Ref)) : List Ref :=
  match c with
  | .ident _ _ => readEs as
  | c => readEs as ++ readE c

mutual
/-- The names a statement reads as values. -/
def readS : Stmt Ref → List Ref
  | .var _ _ init => readO init
  | .assign _ _ e => readE e
  | .assignArr _ _ i e => readE i ++ readE e
  | .assignMem _ _ _ e => readE e
  | .call _ c as => readCall c as
  | .ifS _ c thn _ els => readE c ++ (readB thn ++ readB els)
  | .whileS _ c body => readE c ++ readB body
  | .forS _ _ _ a b body => readE a ++ (readE b ++ readB body)
  | .ret _ e => readO e
/-- The same for a block. -/
def readB : List (Stmt Ref) → List Ref
  | [] => []
  | s :: ss => readS s ++ readB ss
end

/-! ### How the pass goes through the program -/

/-- Constants with a literal are the same in both. -/
def Keeps (p q : Prog Ref) : Prop :=
  ∀ (i : Nat) t e, p[i]? = some (.var t true (some e)) → (literal e).isSome = true →
    q[i]? = some (.var t true (some e))

theorem Keeps.refl (p : Prog Ref) : Keeps p p := fun _ _ _ h _ => h

theorem Keeps.trans {p q r : Prog Ref} (h : Keeps p q) (k : Keeps q r) : Keeps p r :=
  fun i t e h1 h2 => k i t e (h i t e h1 h2) h2

theorem constE_literal {p : Prog Ref} {e : Expr Ref} (h : (literal e).isSome = true) : constE p e = .ok e := by
  cases e <;> simp [literal] at h <;> rw [constE]

theorem constItem_const {p : Prog Ref} {t : Token} {c : Bool} {init : Option (Expr Ref)} {y : Item Ref}
    (h : constItem p (.var t c init) = .ok y) :
    ∃ init', constO p init = .ok init' ∧ y = .var t c init' ∧ (c = true → init' ≠ none) := by
  rw [constItem] at h
  split at h
  · cases h
  · rename_i i' hi
    split at h
    · exact absurd h errTok_ne
    · rename_i hc
      cases h
      exact ⟨i', hi, rfl, fun h1 h2 => hc ⟨h1, h2⟩⟩

theorem keeps_set {p : Prog Ref} {i : Nat} {x y : Item Ref} (hi : p[i]? = some x) (h : constItem p x = .ok y) :
    Keeps p (p.set i y) := by
  intro j t e hj hl
  by_cases hji : i = j
  · subst hji
    rw [hi] at hj
    cases hj
    obtain ⟨init', h1, rfl, _⟩ := constItem_const h
    rw [constO, constE_literal hl] at h1
    cases h1
    have hlt := (List.getElem?_eq_some_iff.1 hi).1
    rw [List.getElem?_set_self hlt]
  · rw [List.getElem?_set_ne hji]
    exact hj

theorem constPass_keeps : ∀ {is : List Nat} {p q : Prog Ref}, constPass is p = .ok q → Keeps p q
  | [], p, q, h => by rw [constPass] at h; cases h; exact .refl p
  | i :: is, p, q, h => by
    rw [constPass] at h
    split at h
    · exact constPass_keeps h
    · rename_i x hi
      split at h
      · cases h
      · rename_i y hy
        exact (keeps_set hi hy).trans (constPass_keeps h)

/-- What is left alone. -/
theorem constPass_other : ∀ {is : List Nat} {p q : Prog Ref}, constPass is p = .ok q →
    ∀ j, j ∉ is → q[j]? = p[j]?
  | [], p, q, h, j, _ => by rw [constPass] at h; cases h; rfl
  | i :: is, p, q, h, j, hj => by
    rw [constPass] at h
    have h1 : j ∉ is := fun k => hj (List.mem_cons_of_mem _ k)
    have h2 : i ≠ j := fun k => hj (k ▸ List.mem_cons_self ..)
    split at h
    · exact constPass_other h j h1
    · split at h
      · cases h
      · rw [constPass_other h j h1, List.getElem?_set_ne h2]

/-- Every child is treated once, with the program as it is then. -/
theorem constPass_reach {q : Prog Ref} {i : Nat} {x : Item Ref} : ∀ (is : List Nat) (p : Prog Ref), constPass is p = .ok q →
    is.Nodup → i ∈ is → p[i]? = some x →
      ∃ p' js, constPass (i :: js) p' = .ok q ∧ i ∉ js ∧ p'[i]? = some x := by
  intro is
  induction is with
  | nil => intro p h hn hi; simp at hi
  | cons j is ih =>
    intro p h hn hi hx
    obtain ⟨hn1, hn2⟩ := List.nodup_cons.1 hn
    by_cases hji : j = i
    · subst hji
      exact ⟨p, is, h, hn1, hx⟩
    · have hi' : i ∈ is := (List.mem_cons.1 hi).resolve_left fun k => hji k.symm
      rw [constPass] at h
      split at h
      · exact ih p h hn2 hi' hx
      · split at h
        · cases h
        · exact ih _ h hn2 hi' (by rw [List.getElem?_set_ne hji]; exact hx)

theorem constPass_at {q : Prog Ref} {i : Nat} {x : Item Ref} {is : List Nat} {p : Prog Ref} (h : constPass is p = .ok q)
    (hn : is.Nodup) (hi : i ∈ is) (hx : p[i]? = some x) :
    ∃ p' y, constItem p' x = .ok y ∧ q[i]? = some y ∧ Keeps p' q ∧ ∃ js, constPass js p' = .ok q := by
  obtain ⟨p', js, h1, h2, h3⟩ := constPass_reach is p h hn hi hx
  have h4 := h1
  rw [constPass, h3] at h4
  dsimp only at h4
  split at h4
  · cases h4
  · rename_i y hy
    refine ⟨p', y, hy, ?_, constPass_keeps h1, _, h1⟩
    rw [constPass_other h4 i h2, List.getElem?_set_self (List.getElem?_eq_some_iff.1 h3).1]

/-- Which children are constants does not change. -/
theorem constPass_isConst : ∀ {is : List Nat} {p q : Prog Ref}, constPass is p = .ok q →
    ∀ i : Nat, (∃ t e, q[i]? = some (.var t true e)) ↔ (∃ t e, p[i]? = some (.var t true e))
  | [], p, q, h, i => by rw [constPass] at h; cases h; exact Iff.rfl
  | j :: is, p, q, h, i => by
    rw [constPass] at h
    split at h
    · exact constPass_isConst h i
    · rename_i x hx
      split at h
      · cases h
      · rename_i y hy
        refine (constPass_isConst h i).trans ?_
        by_cases hji : j = i
        · subst hji
          rw [List.getElem?_set_self (List.getElem?_eq_some_iff.1 hx).1, hx]
          cases x with
          | var t c init =>
            obtain ⟨init', _, rfl, _⟩ := constItem_const hy
            simp
          | func f =>
            rw [constItem] at hy
            split at hy
            · cases hy
            · cases hy; simp
          | syscall n a => cases hy; simp
        · rw [List.getElem?_set_ne hji]

/-! ### No assignments to constants -/

mutual
theorem constS_assigned {p : Prog Ref} : ∀ (s : Stmt Ref) {s' : Stmt Ref}, constS p s = .ok s' →
    ∀ r ∈ assignedS s', refIsConst p r = false
  | .var t d init, s', h => by
    rw [constS] at h
    split at h
    · cases h
    · cases h; simp [assignedS]
  | .assign t d e, s', h => by
    rw [constS] at h
    split at h
    · exact absurd h errTok_ne
    · rename_i hc
      split at h
      · cases h
      · cases h
        intro r hr
        simp only [assignedS, List.mem_singleton] at hr
        subst hr
        simpa using hc
  | .assignArr t d i e, s', h => by
    rw [constS] at h
    split at h
    · cases h
    · split at h
      · cases h
      · cases h; simp [assignedS]
  | .assignMem t d i e, s', h => by
    rw [constS] at h
    split at h
    · cases h
    · cases h; simp [assignedS]
  | .call t c as, s', h => by
    rw [constS] at h
    split at h
    · cases h
    · split at h
      · cases h
      · cases h; simp [assignedS]
  | .ret t e, s', h => by
    rw [constS] at h
    split at h
    · cases h
    · cases h; simp [assignedS]
  | .ifS t c thn he els, s', h => by
    rw [constS] at h
    split at h
    · cases h
    · split at h
      · cases h
      · rename_i h1
        split at h
        · cases h
        · rename_i h2
          cases h
          intro r hr
          simp only [assignedS, List.mem_append] at hr
          exact hr.elim (constB_assigned thn h1 r) (constB_assigned els h2 r)
  | .whileS t c body, s', h => by
    rw [constS] at h
    split at h
    · cases h
    · split at h
      · cases h
      · rename_i h1
        cases h
        intro r hr
        exact constB_assigned body h1 r hr
  | .forS t n d a b body, s', h => by
    rw [constS] at h
    split at h
    · cases h
    · split at h
      · cases h
      · split at h
        · cases h
        · rename_i h1
          cases h
          intro r hr
          exact constB_assigned body h1 r hr
theorem constB_assigned {p : Prog Ref} : ∀ (ss : List (Stmt Ref)) {ss' : List (Stmt Ref)},
    constB p ss = .ok ss' → ∀ r ∈ assignedB ss', refIsConst p r = false
  | [], s', h => by
    rw [constB] at h
    cases h
    simp [assignedB]
  | s :: ss, s', h => by
    rw [constB] at h
    split at h
    · cases h
    · rename_i h1
      split at h
      · cases h
      · rename_i h2
        cases h
        intro r hr
        simp only [assignedB, List.mem_append] at hr
        exact hr.elim (constS_assigned s h1 r) (constB_assigned ss h2 r)
end

theorem not_const {p q : Prog Ref} {js : List Nat} (h : constPass js p = .ok q) {r : Ref}
    (hr : refIsConst p r = false) : ¬ IsConst q r := by
  rintro ⟨i, t, e, rfl, hi⟩
  obtain ⟨t', e', h'⟩ := (constPass_isConst h i).1 ⟨t, e, hi⟩
  simp [refIsConst, h'] at hr

/-- The program before the pass has the same children. -/
theorem constPass_length : ∀ {is : List Nat} {p q : Prog Ref}, constPass is p = .ok q → q.length = p.length
  | [], p, q, h => by rw [constPass] at h; cases h; rfl
  | i :: is, p, q, h => by
    rw [constPass] at h
    split at h
    · exact constPass_length h
    · split at h
      · cases h
      · rw [constPass_length h, List.length_set]

/-- Every child of the result comes from one of the program before, at some stage of the pass. -/
theorem consts_at {p q : Prog Ref} (h : consts p = .ok q) {i : Nat} {y : Item Ref} (hy : q[i]? = some y) :
    ∃ p' x, p[i]? = some x ∧ constItem p' x = .ok y ∧ Keeps p' q ∧ ∃ js, constPass js p' = .ok q := by
  have hl : i < p.length := constPass_length h ▸ (List.getElem?_eq_some_iff.1 hy).1
  obtain ⟨p', y', h1, h2, h3, h4⟩ := constPass_at h List.nodup_range (List.mem_range.2 hl)
    (List.getElem?_eq_getElem hl)
  rw [hy] at h2
  cases h2
  exact ⟨p', _, List.getElem?_eq_getElem hl, h1, h3, h4⟩

theorem consts_func {p q : Prog Ref} (h : consts p = .ok q) {i : Nat} {f : FuncDecl Ref}
    (hf : q[i]? = some (.func f)) :
    ∃ p' g, p[i]? = some (.func g) ∧ constB p' g.body = .ok f.body ∧ f = { g with body := f.body } ∧
      Keeps p' q ∧ ∃ js, constPass js p' = .ok q := by
  obtain ⟨p', x, h1, h2, h3, h4⟩ := consts_at h hf
  cases x with
  | var t c init =>
    obtain ⟨init', _, h5, _⟩ := constItem_const h2
    cases h5
  | syscall n a => cases h2
  | func g =>
    rw [constItem] at h2
    split at h2
    · cases h2
    · rename_i hb
      cases h2
      exact ⟨p', g, h1, hb, rfl, h3, h4⟩

/-- C20: in every program that passes the semantic analysis no constant is on the left of `=`. -/
theorem C20_assigned {L : Layout} {p : Prog Unit} {q : Prog Ref} (h : runSema L p = .ok q) {i : Nat}
    {f : FuncDecl Ref} (hf : q[i]? = some (.func f)) : ∀ r ∈ assignedB f.body, ¬ IsConst q r := by
  obtain ⟨q1, q2, _, _, h3, _, _⟩ := runSema_steps h
  obtain ⟨p', g, _, hb, _, _, js, hj⟩ := consts_func h3 hf
  exact fun r hr => not_const hj (constB_assigned _ hb r hr)

/-! ### No uses of constants -/

/-- Every constant has an initialiser afterwards. -/
theorem consts_init {p q : Prog Ref} (h : consts p = .ok q) (i : Nat) (t : Token) :
    q[i]? ≠ some (.var t true none) := by
  intro hi
  obtain ⟨p', x, h1, h2, _⟩ := consts_at h hi
  cases x with
  | var t' c init =>
    obtain ⟨init', _, h5, h6⟩ := constItem_const h2
    cases h5
    exact h6 rfl rfl
  | syscall n a => cases h2
  | func g =>
    rw [constItem] at h2
    split at h2
    · cases h2
    · cases h2

theorem constPass_init : ∀ {is : List Nat} {p q : Prog Ref}, constPass is p = .ok q →
    (∀ (i : Nat) t, q[i]? ≠ some (.var t true none)) → ∀ (i : Nat) t, p[i]? ≠ some (.var t true none)
  | [], p, q, h, hq => by rw [constPass] at h; cases h; exact hq
  | j :: is, p, q, h, hq => by
    rw [constPass] at h
    split at h
    · exact constPass_init h hq
    · rename_i x hx
      split at h
      · cases h
      · rename_i y hy
        intro i t hi
        by_cases hji : j = i
        · subst hji
          rw [hx] at hi
          cases hi
          obtain ⟨init', h1, _, h2⟩ := constItem_const hy
          cases h1
          exact h2 rfl rfl
        · refine constPass_init h hq i t ?_
          rw [List.getElem?_set_ne hji]
          exact hi

section
variable {p : Prog Ref} (hp : ∀ (i : Nat) t, p[i]? ≠ some (.var t true none))
include hp

theorem constIdent_read {t : Token} {r : Ref} {e : Expr Ref} (h : constIdent p t r = .ok e) :
    ∀ x ∈ readE e, refIsConst p x = false := by
  unfold constIdent at h
  split at h
  · rename_i i
    split at h
    · rename_i e' _
      split at h
      · cases h; simp [readE]
      · cases h; simp [readE]
      · cases h; simp [readE]
      · cases h; simp [readE]
      · exact absurd h errTok_ne
    · rename_i hn
      cases h
      intro x hx
      simp only [readE, List.mem_singleton] at hx
      subst hx
      simp only [refIsConst]
      split
      · rename_i t' c e' he
        cases c with
        | false => rfl
        | true =>
          cases e' with
          | none => exact absurd he (hp i _)
          | some e' => exact absurd he (hn _ _)
      · rfl
  · rename_i hr
    cases h
    intro x hx
    simp only [readE, List.mem_singleton] at hx
    subst hx
    cases x with
    | item i => exact absurd rfl (hr i)
    | arg => rfl
    | loc => rfl

mutual
theorem constE_read : ∀ (e : Expr Ref) {e' : Expr Ref}, constE p e = .ok e' →
    ∀ x ∈ readE e', refIsConst p x = false
  | .ident t r, e', h => by rw [constE] at h; exact constIdent_read hp h
  | .int .., e', h => by rw [constE] at h; cases h; simp [readE]
  | .float .., e', h => by rw [constE] at h; cases h; simp [readE]
  | .str .., e', h => by rw [constE] at h; cases h; simp [readE]
  | .none _, e', h => by rw [constE] at h; cases h; simp [readE]
  | .member .., e', h => by rw [constE] at h; cases h; simp [readE]
  | .arr t es, e', h => by
    rw [constE] at h
    split at h
    · cases h
    · rename_i h1
      cases h
      exact constEs_read es h1
  | .deref t l i, e', h => by
    rw [constE] at h
    split at h
    · cases h
    · rename_i h1
      split at h
      · cases h
      · rename_i h2
        cases h
        intro x hx
        simp only [readE, List.mem_append] at hx
        exact hx.elim (constE_read l h1 x) (constE_read i h2 x)
  | .call t c as, e', h => by
    rw [constE] at h
    split at h
    · cases h
    · rename_i h1
      split at h
      · cases h
      · rename_i c' h2
        cases h
        have hc := constE_read c h2
        have ha := constEs_read as h1
        split
        · rename_i n r _
          intro x hx
          exact ha x hx
        · intro x hx
          unfold readE at hx
          split at hx
          · simp_all
          · simp_all
          · simp_all
          · rename_i heq; cases heq; exact ha x hx
          · rename_i heq; cases heq
            exact (List.mem_append.1 hx).elim (ha x) (hc x)
          · simp_all
          · simp_all
          · simp_all
  | .bin op l r, e', h => by
    rw [constE] at h
    split at h
    · cases h
    · rename_i h1
      split at h
      · cases h
      · rename_i h2
        cases h
        intro x hx
        simp only [readE, List.mem_append] at hx
        exact hx.elim (constE_read l h1 x) (constE_read r h2 x)
  | .un op a, e', h => by
    rw [constE] at h
    split at h
    · cases h
    · rename_i h1
      cases h
      intro x hx
      rw [readE] at hx
      exact constE_read a h1 x hx
theorem constEs_read : ∀ (es : List (Expr Ref)) {es' : List (Expr Ref)}, constEs p es = .ok es' →
    ∀ x ∈ readEs es', refIsConst p x = false
  | [], es', h => by rw [constEs] at h; cases h; simp [readEs]
  | e :: es, es', h => by
    rw [constEs] at h
    split at h
    · cases h
    · rename_i h1
      split at h
      · cases h
      · rename_i h2
        cases h
        intro x hx
        simp only [readEs, List.mem_append] at hx
        exact hx.elim (constE_read e h1 x) (constEs_read es h2 x)
end

theorem constO_read {e e' : Option (Expr Ref)} (h : constO p e = .ok e') :
    ∀ x ∈ readO e', refIsConst p x = false := by
  cases e with
  | none => cases h; simp [readO]
  | some e =>
    rw [constO] at h
    split at h
    · cases h
    · rename_i h1
      cases h
      exact constE_read hp e h1

mutual
theorem constS_read : ∀ (s : Stmt Ref) {s' : Stmt Ref}, constS p s = .ok s' →
    ∀ x ∈ readS s', refIsConst p x = false
  | .var t d init, s', h => by
    rw [constS] at h
    split at h
    · cases h
    · rename_i h1
      cases h
      exact constO_read hp h1
  | .assign t d e, s', h => by
    rw [constS] at h
    split at h
    · exact absurd h errTok_ne
    · split at h
      · cases h
      · rename_i h1
        cases h
        exact constE_read hp e h1
  | .assignArr t d i e, s', h => by
    rw [constS] at h
    split at h
    · cases h
    · rename_i h1
      split at h
      · cases h
      · rename_i h2
        cases h
        intro x hx
        simp only [readS, List.mem_append] at hx
        exact hx.elim (constE_read hp i h1 x) (constE_read hp e h2 x)
  | .assignMem t d i e, s', h => by
    rw [constS] at h
    split at h
    · cases h
    · rename_i h1
      cases h
      exact constE_read hp e h1
  | .call t c as, s', h => by
    rw [constS] at h
    split at h
    · cases h
    · rename_i h1
      split at h
      · cases h
      · rename_i c' h2
        cases h
        have hc := constE_read hp c h2
        have ha := constEs_read hp as h1
        intro x hx
        simp only [readS, readCall] at hx
        split at hx
        · exact ha x hx
        · rcases List.mem_append.1 hx with k | k
          · exact ha x k
          · split at k
            · simp_all
            · exact hc x k
  | .ret t e, s', h => by
    rw [constS] at h
    split at h
    · cases h
    · rename_i h1
      cases h
      exact constO_read hp h1
  | .ifS t c thn he els, s', h => by
    rw [constS] at h
    split at h
    · cases h
    · rename_i h0
      split at h
      · cases h
      · rename_i h1
        split at h
        · cases h
        · rename_i h2
          cases h
          intro r hr
          simp only [readS, List.mem_append] at hr
          exact hr.elim (constE_read hp c h0 r) fun hr => hr.elim (constB_read thn h1 r) (constB_read els h2 r)
  | .whileS t c body, s', h => by
    rw [constS] at h
    split at h
    · cases h
    · rename_i h0
      split at h
      · cases h
      · rename_i h1
        cases h
        intro r hr
        simp only [readS, List.mem_append] at hr
        exact hr.elim (constE_read hp c h0 r) (constB_read body h1 r)
  | .forS t n d a b body, s', h => by
    rw [constS] at h
    split at h
    · cases h
    · rename_i h0
      split at h
      · cases h
      · rename_i h2
        split at h
        · cases h
        · rename_i h1
          cases h
          intro r hr
          simp only [readS, List.mem_append] at hr
          exact hr.elim (constE_read hp a h0 r) fun hr => hr.elim (constE_read hp b h2 r) (constB_read body h1 r)
theorem constB_read : ∀ (ss : List (Stmt Ref)) {ss' : List (Stmt Ref)},
    constB p ss = .ok ss' → ∀ r ∈ readB ss', refIsConst p r = false
  | [], s', h => by
    rw [constB] at h
    cases h
    simp [readB]
  | s :: ss, s', h => by
    rw [constB] at h
    split at h
    · cases h
    · rename_i h1
      split at h
      · cases h
      · rename_i h2
        cases h
        intro r hr
        simp only [readB, List.mem_append] at hr
        exact hr.elim (constS_read s h1 r) (constB_read ss h2 r)
end
end

/-- C20: in every program that passes the semantic analysis no expression in a function reads a
constant as a value. -/
theorem C20_read {L : Layout} {p : Prog Unit} {q : Prog Ref} (h : runSema L p = .ok q) {i : Nat}
    {f : FuncDecl Ref} (hf : q[i]? = some (.func f)) : ∀ r ∈ readB f.body, ¬ IsConst q r := by
  obtain ⟨q1, q2, _, _, h3, _, _⟩ := runSema_steps h
  obtain ⟨p', g, _, hb, _, _, js, hj⟩ := consts_func h3 hf
  exact fun r hr => not_const hj (constB_read (constPass_init hj (consts_init h3)) _ hb r hr)

/-- C20: nor does an initialiser. -/
theorem C20_read_init {L : Layout} {p : Prog Unit} {q : Prog Ref} (h : runSema L p = .ok q) {i : Nat}
    {t : Token} {c : Bool} {e : Expr Ref} (hf : q[i]? = some (.var t c (some e))) :
    ∀ r ∈ readE e, ¬ IsConst q r := by
  obtain ⟨q1, q2, _, _, h3, _, _⟩ := runSema_steps h
  obtain ⟨p', x, _, h2, _, js, hj⟩ := consts_at h3 hf
  cases x with
  | syscall n a => cases h2
  | func g =>
    rw [constItem] at h2
    split at h2
    · cases h2
    · cases h2
  | var t' c' init =>
    obtain ⟨init', h4, h5, _⟩ := constItem_const h2
    cases h5
    exact fun r hr => not_const hj (constO_read (constPass_init hj (consts_init h3)) h4 r hr)

/-! ### None is left in the translated tree -/

theorem place_const {g : GenCtx} {r : Ref} {x : Op × Op × I32} (h : varPlace g r = .ok x) : ¬ IsConst g.prog r := by
  rintro ⟨i, t, e, rfl, hi⟩
  simp [varPlace, hi] at h

theorem genGet_const {g : GenCtx} {r : Ref} {t : Option Token} {b b' : Builder} (h : genGet g r t b = .ok b') :
    ¬ IsConst g.prog r := by
  obtain ⟨x, hx, _⟩ := bind_ok.1 h
  exact place_const hx

theorem genSet_const {g : GenCtx} {r : Ref} {t : Option Token} {b b' : Builder} (h : genSet g r t b = .ok b') :
    ¬ IsConst g.prog r := by
  obtain ⟨x, hx, _⟩ := bind_ok.1 h
  exact place_const hx

theorem genIdent_const {g : GenCtx} {r : Ref} {t : Token} {b b' : Builder} (h : genIdent g t r b = .ok b') :
    ¬ IsConst g.prog r := by
  rintro ⟨i, t', e, rfl, hi⟩
  rw [genIdent, hi] at h
  exact genGet_const h ⟨i, t', e, rfl, hi⟩

theorem genInvoke_const {g : GenCtx} {t : Token} {c : Expr Ref} {n : Nat} {b b' : Builder}
    {callee : Builder → Out Builder} (hc : ∀ b b', callee b = .ok b' → ∀ r ∈ namesE c, ¬ IsConst g.prog r)
    (h : genInvoke g t c n callee b = .ok b') : ∀ r ∈ namesE c, ¬ IsConst g.prog r := by
  unfold genInvoke at h
  dsimp only at h
  split at h
  · rename_i nm i
    split at h
    · rename_i f hf
      intro r hr
      simp only [namesE, List.mem_singleton] at hr
      subst hr
      rintro ⟨j, t', e, hj, hi⟩
      cases hj
      rw [hf] at hi
      cases hi
    · rename_i s a hf
      intro r hr
      simp only [namesE, List.mem_singleton] at hr
      subst hr
      rintro ⟨j, t', e, hj, hi⟩
      cases hj
      rw [hf] at hi
      cases hi
    · obtain ⟨b1, h1, _⟩ := bind_ok.1 h
      exact hc _ _ h1
  · obtain ⟨b1, h1, _⟩ := bind_ok.1 h
    exact hc _ _ h1

mutual
theorem genE_const {g : GenCtx} : ∀ (e : Expr Ref) (b b' : Builder), genE g e b = .ok b' →
    ∀ r ∈ namesE e, ¬ IsConst g.prog r
  | .ident t r, b, b', h => by
    rw [genE] at h
    intro x hx
    simp only [namesE, List.mem_singleton] at hx
    subst hx
    exact genIdent_const h
  | .int .., b, b', h => by simp [namesE]
  | .float .., b, b', h => by simp [namesE]
  | .str .., b, b', h => by simp [namesE]
  | .none _, b, b', h => by simp [namesE]
  | .member t m r, b, b', h => by
    rw [genE] at h
    obtain ⟨b1, h1, _⟩ := bind_ok.1 h
    intro x hx
    simp only [namesE, List.mem_singleton] at hx
    subst hx
    exact genGet_const h1
  | .arr t es, b, b', h => by
    rw [genE] at h
    obtain ⟨b1, h1, _⟩ := bind_ok.1 h
    intro x hx
    rw [namesE] at hx
    exact genEs_const es _ _ h1 x hx
  | .deref t l i, b, b', h => by
    rw [genE] at h
    obtain ⟨b1, h1, h⟩ := bind_ok.1 h
    obtain ⟨b2, h2, h⟩ := bind_ok.1 h
    intro x hx
    rw [namesE, List.mem_append] at hx
    exact hx.elim (genE_const l _ _ h2 x) (genE_const i _ _ h1 x)
  | .call t c as, b, b', h => by
    rw [genE] at h
    obtain ⟨b1, h1, h⟩ := bind_ok.1 h
    intro x hx
    rw [namesE, List.mem_append] at hx
    exact hx.elim (genEs_const as _ _ h1 x) (genInvoke_const (fun b b' k => genE_const c b b' k) h x)
  | .bin op l r, b, b', h => by
    rw [genE] at h
    obtain ⟨b1, h1, h⟩ := bind_ok.1 h
    obtain ⟨b2, h2, h⟩ := bind_ok.1 h
    intro x hx
    rw [namesE, List.mem_append] at hx
    exact hx.elim (genE_const l _ _ h1 x) (genE_const r _ _ h2 x)
  | .un op a, b, b', h => by
    rw [genE] at h
    obtain ⟨b1, h1, h⟩ := bind_ok.1 h
    intro x hx
    rw [namesE] at hx
    exact genE_const a _ _ h1 x hx
theorem genEs_const {g : GenCtx} : ∀ (es : List (Expr Ref)) (b b' : Builder), genEs g es b = .ok b' →
    ∀ r ∈ namesEs es, ¬ IsConst g.prog r
  | [], b, b', h => by simp [namesEs]
  | e :: es, b, b', h => by
    rw [genEs] at h
    obtain ⟨b1, h1, h⟩ := bind_ok.1 h
    intro x hx
    rw [namesEs, List.mem_append] at hx
    exact hx.elim (genE_const e _ _ h1 x) (genEs_const es _ _ h x)
end

mutual
theorem genS_const {g : GenCtx} : ∀ (s : Stmt Ref) (b b' : Builder), genS g s b = .ok b' →
    ∀ r ∈ namesS s, ¬ IsConst g.prog r
  | .var t d none, b, b', h => by simp [namesS, namesO]
  | .var t d (some e), b, b', h => by
    rw [genS] at h
    obtain ⟨b1, h1, h⟩ := bind_ok.1 h
    intro x hx
    rw [namesS, namesO] at hx
    exact genE_const e _ _ h1 x hx
  | .assign t d e, b, b', h => by
    rw [genS] at h
    obtain ⟨b1, h1, h⟩ := bind_ok.1 h
    intro x hx
    rw [namesS, List.mem_cons] at hx
    exact hx.elim (fun k => k ▸ genSet_const h) (genE_const e _ _ h1 x)
  | .assignArr t d i e, b, b', h => by
    rw [genS] at h
    obtain ⟨b1, h1, h⟩ := bind_ok.1 h
    obtain ⟨b2, h2, h⟩ := bind_ok.1 h
    obtain ⟨b3, h3, h⟩ := bind_ok.1 h
    intro x hx
    rw [namesS, List.mem_cons, List.mem_append] at hx
    exact hx.elim (fun k => k ▸ genGet_const h3) fun hx => hx.elim (genE_const i _ _ h2 x) (genE_const e _ _ h1 x)
  | .assignMem t m d e, b, b', h => by
    rw [genS] at h
    obtain ⟨b1, h1, h⟩ := bind_ok.1 h
    obtain ⟨b2, h2, h⟩ := bind_ok.1 h
    intro x hx
    rw [namesS, List.mem_cons] at hx
    exact hx.elim (fun k => k ▸ genGet_const h2) (genE_const e _ _ h1 x)
  | .call t c as, b, b', h => by
    rw [genS] at h
    obtain ⟨b1, h1, h⟩ := bind_ok.1 h
    obtain ⟨b2, h2, h⟩ := bind_ok.1 h
    intro x hx
    rw [namesS, List.mem_append] at hx
    exact hx.elim (genEs_const as _ _ h1 x) (genInvoke_const (fun b b' k => genE_const c b b' k) h2 x)
  | .ret t none, b, b', h => by simp [namesS, namesO]
  | .ret t (some e), b, b', h => by
    rw [genS] at h
    obtain ⟨b1, h1, h⟩ := bind_ok.1 h
    intro x hx
    rw [namesS, namesO] at hx
    exact genE_const e _ _ h1 x hx
  | .ifS t c thn false els, b, b', h => by
    rw [genS] at h
    obtain ⟨b1, h1, h⟩ := bind_ok.1 h
    obtain ⟨b2, h2, h⟩ := bind_ok.1 h
    obtain ⟨b3, h3, h⟩ := bind_ok.1 h
    obtain ⟨b4, h4, h⟩ := bind_ok.1 h
    intro x hx
    simp only [namesS, List.mem_append] at hx
    exact hx.elim (genE_const c _ _ h1 x) fun hx => hx.elim (genB_const thn _ _ h4 x) (fun k => by simp at k)
  | .ifS t c thn true els, b, b', h => by
    rw [genS] at h
    obtain ⟨b1, h1, h⟩ := bind_ok.1 h
    obtain ⟨b2, h2, h⟩ := bind_ok.1 h
    obtain ⟨b3, h3, h⟩ := bind_ok.1 h
    obtain ⟨b4, h4, h⟩ := bind_ok.1 h
    obtain ⟨b5, h5, h⟩ := bind_ok.1 h
    obtain ⟨b6, h6, h⟩ := bind_ok.1 h
    obtain ⟨b7, h7, h⟩ := bind_ok.1 h
    obtain ⟨b8, h8, h⟩ := bind_ok.1 h
    intro x hx
    simp only [namesS, List.mem_append] at hx
    exact hx.elim (genE_const c _ _ h1 x) fun hx => hx.elim (genB_const thn _ _ h4 x)
      (fun k => genB_const els _ _ h8 x (by simpa using k))
  | .whileS t c body, b, b', h => by
    rw [genS] at h
    obtain ⟨b1, h1, h⟩ := bind_ok.1 h
    obtain ⟨b2, h2, h⟩ := bind_ok.1 h
    obtain ⟨b3, h3, h⟩ := bind_ok.1 h
    obtain ⟨b4, h4, h⟩ := bind_ok.1 h
    obtain ⟨b5, h5, h⟩ := bind_ok.1 h
    obtain ⟨b6, h6, h⟩ := bind_ok.1 h
    intro x hx
    rw [namesS, List.mem_append] at hx
    exact hx.elim (genE_const c _ _ h6 x) (genB_const body _ _ h4 x)
  | .forS t n d a z body, b, b', h => by
    rw [genS] at h
    obtain ⟨b1, h1, h⟩ := bind_ok.1 h
    obtain ⟨b2, h2, h⟩ := bind_ok.1 h
    obtain ⟨b3, h3, h⟩ := bind_ok.1 h
    obtain ⟨b4, h4, h⟩ := bind_ok.1 h
    obtain ⟨b5, h5, h⟩ := bind_ok.1 h
    obtain ⟨b6, h6, h⟩ := bind_ok.1 h
    obtain ⟨b7, h7, h⟩ := bind_ok.1 h
    obtain ⟨b8, h8, h⟩ := bind_ok.1 h
    obtain ⟨b9, h9, h⟩ := bind_ok.1 h
    obtain ⟨b10, h10, h⟩ := bind_ok.1 h
    obtain ⟨b11, h11, h⟩ := bind_ok.1 h
    obtain ⟨b12, h12, h⟩ := bind_ok.1 h
    obtain ⟨b13, h13, h⟩ := bind_ok.1 h
    intro x hx
    rw [namesS, List.mem_cons, List.mem_append, List.mem_append] at hx
    exact hx.elim (fun k => k ▸ genSet_const h2) fun hx => hx.elim (genE_const a _ _ h1 x) fun hx =>
      hx.elim (genE_const z _ _ h13 x) (genB_const body _ _ h6 x)
theorem genB_const {g : GenCtx} : ∀ (ss : List (Stmt Ref)) (b b' : Builder), genB g ss b = .ok b' →
    ∀ r ∈ namesB ss, ¬ IsConst g.prog r
  | [], b, b', h => by simp [namesB]
  | s :: ss, b, b', h => by
    rw [genB] at h
    obtain ⟨b1, h1, h⟩ := bind_ok.1 h
    intro x hx
    rw [namesB, List.mem_append] at hx
    exact hx.elim (genS_const s _ _ h1 x) (genB_const ss _ _ h x)
end

theorem genItems_const {q : Prog Ref} : ∀ (xs : List (Item Ref)) (i : Nat) (b b' : Builder),
    genItems q i xs b = .ok b' → ∀ f, .func f ∈ xs → ∀ r ∈ namesB f.body, ¬ IsConst q r
  | [], i, b, b', h, f, hf => by simp at hf
  | .var t c init :: xs, i, b, b', h, f, hf => by
    rw [genItems] at h
    exact genItems_const xs _ _ _ h f (by simpa using hf)
  | .syscall n a :: xs, i, b, b', h, f, hf => by
    rw [genItems] at h
    exact genItems_const xs _ _ _ h f (by simpa using hf)
  | .func g :: xs, i, b, b', h, f, hf => by
    rw [genItems] at h
    obtain ⟨b1, h1, h⟩ := bind_ok.1 h
    rcases List.mem_cons.1 hf with k | k
    · cases k
      rw [genFunc] at h1
      obtain ⟨b2, h2, h1⟩ := bind_ok.1 h1
      obtain ⟨b3, h3, h1⟩ := bind_ok.1 h1
      obtain ⟨b4, h4, h1⟩ := bind_ok.1 h1
      exact genB_const (g := funcCtx q _) _ _ _ h4
    · exact genItems_const xs _ _ _ h f k

/-- C20: in the tree that code is generated from no function mentions a constant at all, neither in
an expression nor as the target of any assignment or the counter of a `for`. -/
theorem C20_compiled {q : Prog Ref} {prog : Program} (h : codegen q = .ok prog) {i : Nat}
    {f : FuncDecl Ref} (hf : q[i]? = some (.func f)) : ∀ r ∈ namesB f.body, ¬ IsConst q r := by
  rw [codegen] at h
  obtain ⟨b1, h1, h⟩ := bind_ok.1 h
  rw [genProgram] at h
  obtain ⟨b2, h2, h⟩ := bind_ok.1 h
  exact genItems_const q 0 _ _ h2 f (List.mem_of_getElem? hf)

theorem initFrom_mem : ∀ (xs : List (Item Ref)) (i j : Nat) (t : Token) (e : Expr Ref),
    xs[j]? = some (.var t false (some e)) → ∀ r ∈ namesE e, r ∈ namesB (initFrom i xs)
  | [], i, j, t, e, h => by simp at h
  | x :: xs, i, 0, t, e, h => by
    simp only [List.getElem?_cons_zero, Option.some.injEq] at h
    subst h
    intro r hr
    rw [initFrom, namesB, namesS]
    exact List.mem_append_left _ (List.mem_cons_of_mem _ hr)
  | x :: xs, i, j + 1, t, e, h => by
    intro r hr
    have ih := initFrom_mem xs (i + 1) j t e (by simpa using h) r hr
    unfold initFrom
    split
    · simp_all
    · rename_i heq
      cases heq
      rw [namesB]
      exact List.mem_append_right _ ih
    · rename_i heq
      cases heq
      exact ih

/-- C20: nor does the initialiser of a variable. -/
theorem C20_compiled_init {q : Prog Ref} {prog : Program} (h : codegen q = .ok prog) {i : Nat}
    {t : Token} {e : Expr Ref} (hf : q[i]? = some (.var t false (some e))) :
    ∀ r ∈ namesE e, ¬ IsConst q r := by
  rw [codegen] at h
  obtain ⟨b1, h1, h⟩ := bind_ok.1 h
  rw [genProgram] at h
  obtain ⟨b2, h2, h⟩ := bind_ok.1 h
  obtain ⟨b3, h3, h⟩ := bind_ok.1 h
  rw [genInit] at h3
  obtain ⟨b4, h4, h3⟩ := bind_ok.1 h3
  obtain ⟨b5, h5, h3⟩ := bind_ok.1 h3
  obtain ⟨b6, h6, h3⟩ := bind_ok.1 h3
  exact fun r hr => genB_const (g := initCtx q) _ _ _ h6 r (initFrom_mem q 0 i t e hf r hr)

/-! ### The value of a constant -/

section
variable {p q : Prog Ref} (hk : Keeps p q) (cx : Ctx)
include hk

theorem constIdent_eval {t : Token} {r : Ref} {e : Expr Ref} (h : constIdent p t r = .ok e) (callF : CallF)
    (ρ : Vars) (w : State) : evalE (cx.withProg q) callF ρ e w = (cx.withProg q).ident ρ r w := by
  unfold constIdent at h
  split at h
  · rename_i i
    split at h
    · rename_i t' e' he
      have key : ∀ v, literal e' = some v → (cx.withProg q).ident ρ (.item i) w = .ok v w := by
        intro v hv
        have := hk i t' e' he (by rw [hv]; rfl)
        have hp : (cx.withProg q).prog[i]? = some (.var t' true (some e')) := this
        unfold Ctx.ident
        simp only [hp, hv]
      split at h
      · cases h; rw [key _ rfl, evalE]
      · cases h; rw [key _ rfl, evalE]
      · cases h; rw [key _ rfl, evalE]
      · cases h; rw [key _ rfl, evalE]
      · exact absurd h errTok_ne
    · cases h; rw [evalE]
  · cases h; rw [evalE]

mutual
theorem constE_eval (callF : CallF) (ρ : Vars) : ∀ (e : Expr Ref) {e' : Expr Ref} (_ : constE p e = .ok e')
    (w : State), evalE (cx.withProg q) callF ρ e' w = evalE (cx.withProg q) callF ρ e w
  | .ident t r, e', h, w => by
    rw [constE] at h
    rw [constIdent_eval hk cx h, evalE]
  | .int .., e', h, w => by rw [constE] at h; cases h; rfl
  | .float .., e', h, w => by rw [constE] at h; cases h; rfl
  | .str .., e', h, w => by rw [constE] at h; cases h; rfl
  | .none _, e', h, w => by rw [constE] at h; cases h; rfl
  | .member .., e', h, w => by rw [constE] at h; cases h; rfl
  | .arr t es, e', h, w => by
    rw [constE] at h
    split at h
    · cases h
    · rename_i h1
      cases h
      rw [evalE, evalE, constEs_eval callF ρ es h1]
  | .deref t l i, e', h, w => by
    rw [constE] at h
    split at h
    · cases h
    · rename_i h1
      split at h
      · cases h
      · rename_i h2
        cases h
        rw [evalE, evalE, constE_eval callF ρ i h2]
        congr 1; funext a w
        rw [constE_eval callF ρ l h1]
  | .call t c as, e', h, w => by
    rw [constE] at h
    split at h
    · cases h
    · rename_i h1
      split at h
      · cases h
      · rename_i c' h2
        cases h
        have hc := constE_eval callF ρ c h2
        rw [evalE, evalE, constEs_eval callF ρ as h1]
        congr 1; funext a w
        congr 1
        split
        · rfl
        · exact hc w
  | .bin op l r, e', h, w => by
    rw [constE] at h
    split at h
    · cases h
    · rename_i h1
      split at h
      · cases h
      · rename_i h2
        cases h
        rw [evalE, evalE, constE_eval callF ρ l h1]
        congr 1; funext a w
        rw [constE_eval callF ρ r h2]
  | .un op a, e', h, w => by
    rw [constE] at h
    split at h
    · cases h
    · rename_i h1
      cases h
      rw [evalE, evalE, constE_eval callF ρ a h1]
theorem constEs_eval (callF : CallF) (ρ : Vars) : ∀ (es : List (Expr Ref)) {es' : List (Expr Ref)}
    (_ : constEs p es = .ok es') (w : State),
    evalEs (cx.withProg q) callF ρ es' w = evalEs (cx.withProg q) callF ρ es w
  | [], es', h, w => by rw [constEs] at h; cases h; rfl
  | e :: es, es', h, w => by
    rw [constEs] at h
    split at h
    · cases h
    · rename_i h1
      split at h
      · cases h
      · rename_i h2
        cases h
        rw [evalEs, evalEs, constE_eval callF ρ e h1]
        congr 1; funext a w
        rw [constEs_eval callF ρ es h2]
end

mutual
theorem constS_eval (callF : CallF) (zi : Ref → Bool) (n : Nat) : ∀ (s : Stmt Ref) {s' : Stmt Ref}
    (_ : constS p s = .ok s') (ρ : Vars) (w : State),
    evalS (cx.withProg q) callF zi n s' ρ w = evalS (cx.withProg q) callF zi n s ρ w
  | .var t r init, s', h, ρ, w => by
    rw [constS] at h
    split at h
    · cases h
    · rename_i i' h1
      cases h
      cases init with
      | none => cases h1; rfl
      | some e =>
        rw [constO] at h1
        split at h1
        · cases h1
        · rename_i h2
          cases h1
          unfold evalS
          cases r <;> try rfl
          dsimp only
          rw [constE_eval hk cx callF ρ e h2]
  | .assign t r e, s', h, ρ, w => by
    rw [constS] at h
    split at h
    · exact absurd h errTok_ne
    · split at h
      · cases h
      · rename_i h1
        cases h
        unfold evalS
        rw [constE_eval hk cx callF ρ e h1]
  | .assignArr t r i e, s', h, ρ, w => by
    rw [constS] at h
    split at h
    · cases h
    · rename_i h1
      split at h
      · cases h
      · rename_i h2
        cases h
        unfold evalS
        rw [constE_eval hk cx callF ρ e h2]
        congr 1; funext a w
        rw [constE_eval hk cx callF ρ i h1]
  | .assignMem t m r e, s', h, ρ, w => by
    rw [constS] at h
    split at h
    · cases h
    · rename_i h1
      cases h
      unfold evalS
      rw [constE_eval hk cx callF ρ e h1]
  | .call t c as, s', h, ρ, w => by
    rw [constS] at h
    split at h
    · cases h
    · rename_i h1
      split at h
      · cases h
      · rename_i c' h2
        cases h
        have hc := constE_eval hk cx callF ρ c h2
        unfold evalS
        rw [constEs_eval hk cx callF ρ as h1]
        congr 1; funext a w
        congr 1
        split
        · rfl
        · exact hc w
  | .ret t none, s', h, ρ, w => by
    rw [constS] at h
    cases h
    rfl
  | .ret t (some e), s', h, ρ, w => by
    rw [constS, constO] at h
    cases h1 : constE p e with
    | error x => rw [h1] at h; cases h
    | ok e' =>
      rw [h1] at h
      cases h
      unfold evalS
      rw [constE_eval hk cx callF ρ e h1]
  | .ifS t c thn he els, s', h, ρ, w => by
    rw [constS] at h
    split at h
    · cases h
    · rename_i h0
      split at h
      · cases h
      · rename_i h1
        split at h
        · cases h
        · rename_i h2
          cases h
          unfold evalS
          rw [constE_eval hk cx callF ρ c h0]
          congr 1; funext a w
          congr 1; funext x
          rw [constB_eval callF zi n thn h1, constB_eval callF zi n els h2]
  | .whileS t c body, s', h, ρ, w => by
    rw [constS] at h
    split at h
    · cases h
    · rename_i h0
      split at h
      · cases h
      · rename_i h1
        cases h
        unfold evalS
        congr 1
        · funext ρ w
          rw [constE_eval hk cx callF ρ c h0]
        · funext ρ w
          rw [constB_eval callF zi n body h1]
  | .forS t nm r a b body, s', h, ρ, w => by
    rw [constS] at h
    split at h
    · cases h
    · rename_i h0
      split at h
      · cases h
      · rename_i h2
        split at h
        · cases h
        · rename_i h1
          cases h
          unfold evalS
          rw [constE_eval hk cx callF ρ a h0]
          congr 1; funext a w
          congr 1; funext ρ w
          congr 1
          · funext ρ w
            congr 1; funext a w
            rw [constE_eval hk cx callF ρ b h2]
          · funext ρ w
            rw [constB_eval callF zi n body h1]
theorem constB_eval (callF : CallF) (zi : Ref → Bool) (n : Nat) : ∀ (ss : List (Stmt Ref)) {ss' : List (Stmt Ref)}
    (_ : constB p ss = .ok ss') (ρ : Vars) (w : State),
    evalB (cx.withProg q) callF zi n ss' ρ w = evalB (cx.withProg q) callF zi n ss ρ w
  | [], ss', h, ρ, w => by rw [constB] at h; cases h; rfl
  | s :: ss, ss', h, ρ, w => by
    rw [constB] at h
    split at h
    · cases h
    · rename_i h1
      split at h
      · cases h
      · rename_i h2
        cases h
        unfold evalB
        rw [constS_eval callF zi n s h1]
        congr 1; funext a w
        congr 1; funext ρ w
        rw [constB_eval callF zi n ss h2]
end
end

/-! ### Folding of initialisers -/

/-- Constants that are known integers are so in both. -/
def KeepsInt (p q : Prog Ref) : Prop :=
  ∀ (i : Nat) t v k c, p[i]? = some (.var t true (some (.int v k c))) →
    ∃ t' k' c', q[i]? = some (.var t' true (some (.int v k' c')))

theorem KeepsInt.refl (p : Prog Ref) : KeepsInt p p := fun _ _ _ _ _ h => ⟨_, _, _, h⟩

theorem KeepsInt.trans {p q r : Prog Ref} (h : KeepsInt p q) (k : KeepsInt q r) : KeepsInt p r :=
  fun i t v k' c h1 => by
    obtain ⟨t', k'', c', h2⟩ := h i t v k' c h1
    exact k i t' v k'' c' h2

theorem Keeps.int {p q : Prog Ref} (h : Keeps p q) : KeepsInt p q :=
  fun i t v k c h1 => ⟨t, k, c, h i t _ h1 rfl⟩

/-- An expression has the value `v` in every state, as long as the constants of `p` keep theirs. -/
def Means (p : Prog Ref) (e : Expr Ref) (v : I32) : Prop :=
  ∀ q, KeepsInt p q → ∀ (cx : Ctx) callF ρ w, evalE (cx.withProg q) callF ρ e w = .ok (.int v) w

theorem ident_int {q : Prog Ref} {i : Nat} {t : Token} {v : I32} {k : Option Token} {c : Option Nat}
    (h : q[i]? = some (.var t true (some (.int v k c)))) (cx : Ctx) (ρ : Vars) (w : State) :
    (cx.withProg q).ident ρ (.item i) w = .ok (.int v) w := by
  have hp : (cx.withProg q).prog[i]? = some (.var t true (some (.int v k c))) := h
  unfold Ctx.ident
  simp only [hp, literal]

theorem evalG_means (p : Prog Ref) : ∀ (e : Expr Ref) (s s' : EvalSt), evalSupported e = true →
    evalG p e s = .ok s' → s'.valid = true → s.valid = true ∧ ∃ v, s'.stack = v :: s.stack ∧ Means p e v
  | .int v t c, s, s', _, h, hv => by
    rw [evalG] at h
    cases h
    exact ⟨hv, v, rfl, fun q _ cx callF ρ w => by rw [evalE]⟩
  | .ident t r, s, s', _, h, hv => by
    rw [evalG] at h
    unfold evalIdent at h
    split at h
    · rename_i i
      split at h
      · rename_i hi
        cases h
        refine ⟨hv, _, rfl, fun q hq cx callF ρ w => ?_⟩
        obtain ⟨_, _, _, h'⟩ := hq _ _ _ _ _ hi
        rw [evalE, ident_int h']
      · cases h; cases hv
      · cases h
    · cases h; cases hv
  | .un op a, s, s', _, h, hv => by
    rw [evalG] at h
    split at h
    · cases h; cases hv
    · rename_i hs
      split at h
      · cases h
      · rename_i s1 h1
        split at h
        · cases h
        · rename_i v st hst
          split at h
          · rename_i hop
            split at h
            · cases h
            · rename_i x hx
              cases h
              obtain ⟨k1, v', k2, k3⟩ := evalG_means p a s s1 (by simpa using hs) h1 hv
              rw [hst] at k2
              obtain ⟨rfl, rfl⟩ := List.cons.inj k2
              refine ⟨k1, x, rfl, fun q hq cx callF ρ w => ?_⟩
              rw [evalE, k3 q hq]
              show (if op.type = .SUB ∨ op.type = .NOT then Sem.unaryV _ _ _ _ else _) = _
              rw [if_pos (.inl hop), hop]
              show (Sem.exact (-v.toInt)).res w = _
              rw [exact_res, hx]
          · cases h
  | .bin op l r, s, s', _, h, hv => by
    rw [evalG] at h
    split at h
    · cases h; cases hv
    · rename_i hs
      simp only [Bool.or_eq_true, Bool.not_eq_true', not_or, Bool.not_eq_false] at hs
      split at h
      · cases h
      · rename_i s1 h1
        split at h
        · cases h
        · rename_i s2 h2
          split at h
          · rename_i hv2
            cases h
            dsimp only at hv
            rw [hv] at hv2
            cases hv2
          · rename_i hv2
            simp only [Bool.not_eq_true', Bool.not_eq_false] at hv2
            split at h
            · rename_i b a st hst
              split at h
              · cases h
              · rename_i v hc
                cases h
                obtain ⟨k1, v2, k2, k3⟩ := evalG_means p r s1 s2 hs.2 h2 hv2
                obtain ⟨m1, v1, m2, m3⟩ := evalG_means p l s s1 hs.1 h1 k1
                rw [hst, m2] at k2
                simp only [List.cons.injEq] at k2
                obtain ⟨e1, e2, e3⟩ := k2
                rw [← e1] at k3
                rw [← e2] at m3
                refine ⟨m1, v, by rw [e3], fun q hq cx callF ρ w => ?_⟩
                rw [evalE, m3 q hq]
                show ((evalE _ _ _ r w).bind fun b w => _) = _
                rw [k3 q hq]
                show (if op.type = .NOT then Res.undef else Sem.binaryV _ _ _ _ _) = _
                rcases constBin_runs (cx.withProg q).fl op a b w with ⟨x, y1, y2, y3⟩ | ⟨_, y1, _⟩ | ⟨_, y1, _⟩ | ⟨_, y1⟩
                · rw [hc] at y1
                  cases y1
                  rw [if_neg (fun hn => by rw [hn] at y2; simp [binOps] at y2), y3]
                · rw [hc] at y1; cases y1
                · rw [hc] at y1; cases y1
                · rw [hc] at y1; cases y1
            · cases h
  | .float .., _, _, h, _, _ => by cases h
  | .str .., _, _, h, _, _ => by cases h
  | .none .., _, _, h, _, _ => by cases h
  | .arr .., _, _, h, _, _ => by cases h
  | .member .., _, _, h, _, _ => by cases h
  | .deref .., _, _, h, _, _ => by cases h
  | .call .., _, _, h, _, _ => by cases h

theorem evalGlobal_means {p : Prog Ref} {e : Expr Ref} {v : I32} (hs : evalSupported e = true)
    (h : evalGlobal p e = .ok (some v)) : Means p e v := by
  unfold evalGlobal at h
  split at h
  · cases h
  · rename_i s h1
    split at h
    · rename_i x hx
      split at h
      · rename_i hv
        cases h
        obtain ⟨_, v', h2, h3⟩ := evalG_means p e _ _ hs h1 hv
        rw [hx] at h2
        cases h2
        exact h3
      · cases h
    · cases h

/-- Operator nodes. -/
def isOp : Expr Ref → Bool
  | .bin .. | .un .. => true
  | _ => false

/-- What may become of an initialiser: nothing changes, `none` is dropped, or an operator is
replaced by its value. -/
inductive InitStep (p : Prog Ref) : Option (Expr Ref) → Option (Expr Ref) → Prop
  | same (o : Option (Expr Ref)) : InitStep p o o
  | drop (t : Option Token) : InitStep p (some (.none t)) none
  | fold {e : Expr Ref} {v : I32} (k : Option Token) (c : Option Nat) : isOp e = true → Means p e v →
      InitStep p (some e) (some (.int v k c))

/-- What may become of a child of the program. -/
inductive ItemStep (p : Prog Ref) : Item Ref → Item Ref → Prop
  | same (x : Item Ref) : ItemStep p x x
  | var (t : Token) (c : Bool) {o o' : Option (Expr Ref)} : InitStep p o o' → ItemStep p (.var t c o) (.var t c o')

theorem Means.mono {p q : Prog Ref} {e : Expr Ref} {v : I32} (h : Means p e v) (k : KeepsInt p q) : Means q e v :=
  fun r hr => h r (k.trans hr)

theorem InitStep.mono {p q : Prog Ref} {o o' : Option (Expr Ref)} (h : InitStep p o o') (k : KeepsInt p q) :
    InitStep q o o' := by
  cases h with
  | same => exact .same _
  | drop t => exact .drop t
  | fold t c h1 h2 => exact .fold t c h1 (h2.mono k)

theorem InitStep.trans {p : Prog Ref} {o o' o'' : Option (Expr Ref)} (h : InitStep p o o') (k : InitStep p o' o'') :
    InitStep p o o'' := by
  cases h with
  | same => exact k
  | drop t => cases k with
    | same => exact .drop t
  | fold t c h1 h2 => cases k with
    | same => exact .fold t c h1 h2
    | fold t' c' h3 h4 => cases h3

theorem ItemStep.mono {p q : Prog Ref} {x y : Item Ref} (h : ItemStep p x y) (k : KeepsInt p q) : ItemStep q x y := by
  cases h with
  | same => exact .same _
  | var t c h => exact .var t c (h.mono k)

theorem ItemStep.trans {p : Prog Ref} {x y z : Item Ref} (h : ItemStep p x y) (k : ItemStep p y z) : ItemStep p x z := by
  cases h with
  | same => exact k
  | var t c h => cases k with
    | same => exact .var t c h
    | var _ _ k => exact .var t c (h.trans k)

/-- All children. -/
def ProgStep (p q : Prog Ref) : Prop :=
  p.length = q.length ∧ ∀ (i : Nat) x y, p[i]? = some x → q[i]? = some y → ItemStep q x y

theorem ProgStep.keeps {p q : Prog Ref} (h : ProgStep p q) : KeepsInt p q := by
  intro i t v k c hi
  have hl : i < q.length := h.1 ▸ (List.getElem?_eq_some_iff.1 hi).1
  have := h.2 i _ _ hi (List.getElem?_eq_getElem hl)
  cases hx : q[i] with
  | var t' c' o =>
    rw [hx] at this
    rw [List.getElem?_eq_getElem hl, hx]
    cases this with
    | same => exact ⟨_, _, _, rfl⟩
    | var _ _ h => cases h with
      | same => exact ⟨_, _, _, rfl⟩
      | fold k c h1 h2 => cases h1
  | func f => rw [hx] at this; cases this
  | syscall n a => rw [hx] at this; cases this

theorem ProgStep.refl (p : Prog Ref) : ProgStep p p :=
  ⟨rfl, fun i x y h1 h2 => by rw [h1] at h2; cases h2; exact .same _⟩

theorem ProgStep.trans {p q r : Prog Ref} (h : ProgStep p q) (k : ProgStep q r) : ProgStep p r := by
  refine ⟨h.1.trans k.1, fun i x z hx hz => ?_⟩
  have hl : i < q.length := h.1 ▸ (List.getElem?_eq_some_iff.1 hx).1
  exact ((h.2 i x _ hx (List.getElem?_eq_getElem hl)).mono k.keeps).trans (k.2 i _ z (List.getElem?_eq_getElem hl) hz)

theorem globalInit_step {p : Prog Ref} {e : Expr Ref} {o : Option (Expr Ref)} {ch : Bool}
    (h : globalInit p e = .ok (o, ch)) : InitStep p (some e) o := by
  unfold globalInit at h
  have key : evalSupported e = true → isOp e = true → (match evalGlobal p e with
      | .error x => .error x
      | .ok (some v) => .ok (some (.int v none none), true)
      | .ok none => .ok (some e, false) : Comp _) = .ok (o, ch) → InitStep p (some e) o := by
    intro h1 h2 h
    split at h
    · cases h
    · rename_i v hv
      cases h
      exact .fold none none h2 (evalGlobal_means h1 hv)
    · cases h; exact .same _
  split at h
  · cases h; exact .drop _
  · exact key rfl rfl h
  · exact key rfl rfl h
  · cases h; exact .same _

theorem means_set {p : Prog Ref} {i : Nat} {t : Token} {c : Bool} {e : Expr Ref} {o : Option (Expr Ref)}
    (hi : p[i]? = some (.var t c (some e))) (h : InitStep p (some e) o) : KeepsInt p (p.set i (.var t c o)) := by
  intro j t' v k c' hj
  by_cases hji : i = j
  · subst hji
    rw [hi] at hj
    cases hj
    rw [List.getElem?_set_self (List.getElem?_eq_some_iff.1 hi).1]
    cases h with
    | same => exact ⟨_, _, _, rfl⟩
    | fold _ _ h1 _ => cases h1
  · rw [List.getElem?_set_ne hji]
    exact ⟨_, _, _, hj⟩

theorem progStep_set {p : Prog Ref} {i : Nat} {t : Token} {c : Bool} {e : Expr Ref} {o : Option (Expr Ref)}
    (hi : p[i]? = some (.var t c (some e))) (h : InitStep p (some e) o) : ProgStep p (p.set i (.var t c o)) := by
  have hk := means_set hi h
  refine ⟨(List.length_set ..).symm, fun j x y hx hy => ?_⟩
  by_cases hji : i = j
  · subst hji
    rw [hi] at hx
    cases hx
    rw [List.getElem?_set_self (List.getElem?_eq_some_iff.1 hi).1] at hy
    cases hy
    exact .var _ _ (h.mono hk)
  · rw [List.getElem?_set_ne hji, hx] at hy
    cases hy
    exact .same _

theorem globalPass_step : ∀ {is : List Nat} {p q : Prog Ref} {ch ch' : Bool},
    globalPass is p ch = .ok (q, ch') → ProgStep p q
  | [], p, q, ch, ch', h => by rw [globalPass] at h; cases h; exact .refl p
  | i :: is, p, q, ch, ch', h => by
    rw [globalPass] at h
    split at h
    · rename_i t c e hi
      split at h
      · cases h
      · rename_i o ch1 he
        exact (progStep_set hi (globalInit_step he)).trans (globalPass_step h)
    · exact globalPass_step h

theorem globalLoop_step : ∀ {n : Nat} {p q : Prog Ref}, globalLoop n p = .ok q → ProgStep p q
  | 0, p, q, h => by cases h
  | n + 1, p, q, h => by
    rw [globalLoop] at h
    split at h
    · cases h
    · rename_i p1 h1
      exact (globalPass_step h1).trans (globalLoop_step h)
    · rename_i p1 h1
      cases h
      exact globalPass_step h1

theorem globalVars_step {p q : Prog Ref} (h : globalVars p = .ok q) : ProgStep p q := by
  unfold globalVars at h
  split at h
  · cases h
  · rename_i p1 h1
    split at h
    · cases h
    · rename_i p2 ch h2
      cases h
      exact (globalLoop_step h1).trans (globalPass_step h2)

/-- No child has `none` as its initialiser. -/
def NoNone (p : Prog Ref) (i : Nat) : Prop := ∀ t c k, p[i]? ≠ some (.var t c (some (.none k)))

theorem globalPass_none : ∀ {is : List Nat} {p q : Prog Ref} {ch ch' : Bool},
    globalPass is p ch = .ok (q, ch') → ∀ i, i ∈ is ∨ NoNone p i → NoNone q i
  | [], p, q, ch, ch', h, i, hi => by
    rw [globalPass] at h
    cases h
    exact hi.resolve_left (by simp)
  | j :: is, p, q, ch, ch', h, i, hi => by
    rw [globalPass] at h
    split at h
    · rename_i t c e hj
      split at h
      · cases h
      · rename_i o ch1 he
        refine globalPass_none h i ?_
        by_cases hji : j = i
        · subst hji
          refine .inr fun t' c' k hk => ?_
          rw [List.getElem?_set_self (List.getElem?_eq_some_iff.1 hj).1] at hk
          cases hk
          unfold globalInit at he
          split at he
          · cases he
          · split at he <;> cases he
          · split at he <;> cases he
          · rename_i hn _ _
            cases he
            exact hn _ rfl
        · rcases hi with hi | hi
          · exact .inl ((List.mem_cons.1 hi).resolve_left fun k => hji k.symm)
          · refine .inr fun t' c' k hk => hi t' c' k ?_
            rw [List.getElem?_set_ne hji] at hk
            exact hk
    · rename_i hj
      refine globalPass_none h i ?_
      by_cases hji : j = i
      · subst hji
        exact .inr fun t' c' k hk => hj _ _ _ hk
      · rcases hi with hi | hi
        · exact .inl ((List.mem_cons.1 hi).resolve_left fun k => hji k.symm)
        · exact .inr hi

theorem globalVars_none {p q : Prog Ref} (h : globalVars p = .ok q) (i : Nat) : NoNone q i := by
  unfold globalVars at h
  split at h
  · cases h
  · rename_i p1 h1
    split at h
    · cases h
    · rename_i p2 ch h2
      cases h
      by_cases hi : i < p1.length
      · exact globalPass_none h2 i (.inl (List.mem_range.2 hi))
      · refine globalPass_none h2 i (.inr fun t c k hk => hi (List.getElem?_eq_some_iff.1 hk).1)

/-! ### What a constant is worth -/

/-- The value of a literal in the source. -/
def valueOf : Expr Unit → Option Val
  | .int v _ _ => some (.int v)
  | .float v _ => some (.float v)
  | .str s _ => some (.str s)
  | _ => none

theorem annItems_get {L : Layout} {p0 : Prog Unit} : ∀ {p : List (Item Unit)} {q : Prog Ref} {j : Nat},
    annItems L p0 j p = .ok q → ∀ {i : Nat} {x : Item Unit}, p[i]? = some x →
      ∃ y, q[i]? = some y ∧ annItem L p0 (j + i) x = .ok y
  | [], q, j, h, i, x, hx => by simp at hx
  | z :: zs, q, j, h, i, x, hx => by
    rw [annItems] at h
    split at h
    · cases h
    · rename_i y hy
      split at h
      · cases h
      · rename_i ys hys
        cases h
        cases i with
        | zero =>
          simp only [List.getElem?_cons_zero, Option.some.injEq] at hx
          subst hx
          exact ⟨y, by simp, hy⟩
        | succ i =>
          obtain ⟨y', h1, h2⟩ := annItems_get hys (i := i) (by simpa using hx)
          exact ⟨y', by simpa using h1, by rw [show j + (i + 1) = j + 1 + i by omega]; exact h2⟩

/-- C20: a constant declared with a literal keeps it. -/
theorem C20_declared {L : Layout} {p : Prog Unit} {q : Prog Ref} (h : runSema L p = .ok q) {i : Nat} {t : Token}
    {e : Expr Unit} {v : Val} (hi : p[i]? = some (.var t true (some e))) (hv : valueOf e = some v) :
    ∃ e', q[i]? = some (.var t true (some e')) ∧ literal e' = some v := by
  obtain ⟨q1, q2, h1, h2, h3, _, _⟩ := runSema_steps h
  obtain ⟨y, hy, ha⟩ := annItems_get h1 hi
  have : ∃ e1, y = .var t true (some e1) ∧ literal e1 = some v ∧ (∀ k, e1 ≠ .none k) ∧ isOp e1 = false := by
    rw [annItem] at ha
    cases e <;> simp [valueOf] at hv <;> subst hv <;> cases ha
    · exact ⟨_, rfl, rfl, nofun, rfl⟩
    · exact ⟨_, rfl, rfl, nofun, rfl⟩
    · exact ⟨_, rfl, rfl, nofun, rfl⟩
  obtain ⟨e1, rfl, hl, hn, ho⟩ := this
  have hs := globalVars_step h2
  have hlt : i < q2.length := hs.1 ▸ (List.getElem?_eq_some_iff.1 hy).1
  have h4 := hs.2 i _ _ hy (List.getElem?_eq_getElem hlt)
  have h5 : q2[i]? = some (.var t true (some e1)) := by
    rw [List.getElem?_eq_getElem hlt]
    generalize q2[i] = z at h4
    cases h4 with
    | same => rfl
    | var _ _ h => cases h with
      | same => rfl
      | drop k => exact absurd rfl (hn k)
      | fold _ _ k _ => rw [ho] at k; cases k
  exact ⟨e1, constPass_keeps h3 i t e1 h5 (by rw [hl]; rfl), hl⟩

/-- C20: a constant declared with an operator on numbers and constants, if it is a literal in the
end, has the value that evaluating the operator gives. -/
theorem C20_computed {L : Layout} {p : Prog Unit} {q q1 : Prog Ref} (h : runSema L p = .ok q)
    (h1 : annotate L p = .ok q1) {i : Nat} {t : Token} {c : Bool} {e : Expr Ref} {v : I32} {k : Option Token}
    {cell : Option Nat}
    (hi : q1[i]? = some (.var t c (some e))) (hop : isOp e = true) (hq : q[i]? = some (.var t c (some (.int v k cell))))
    (cx : Ctx) (callF : CallF) (ρ : Vars) (w : State) :
    evalE (cx.withProg q) callF ρ e w = .ok (.int v) w := by
  obtain ⟨q1', q2, h1', h2, h3, _, _⟩ := runSema_steps h
  rw [h1] at h1'
  cases h1'
  have hs := globalVars_step h2
  obtain ⟨p', y, h4, h5, h6, js, h7⟩ := consts_at h3 hq
  have hk : KeepsInt q2 q := (constPass_keeps h3).int
  cases hs.2 i _ _ hi h4 with
  | same =>
    obtain ⟨o, h8, h9, _⟩ := constItem_const h5
    cases h9
    rw [constO] at h8
    split at h8
    · cases h8
    · rename_i he
      cases h8
      cases e with
      | bin op l r =>
        rw [constE] at he
        split at he
        · cases he
        · split at he <;> cases he
      | un op a =>
        rw [constE] at he
        split at he <;> cases he
      | _ => cases hop
  | var _ _ hst =>
    cases hst with
    | same =>
      obtain ⟨o, h8, h9, _⟩ := constItem_const h5
      cases h9
      rw [constO] at h8
      split at h8
      · cases h8
      · rename_i he
        cases h8
        cases e with
        | bin op l r =>
          rw [constE] at he
          split at he
          · cases he
          · split at he <;> cases he
        | un op a =>
          rw [constE] at he
          split at he <;> cases he
        | _ => cases hop
    | drop => cases hop
    | fold k' c' _ hm =>
      obtain ⟨o, h8, h9, _⟩ := constItem_const h5
      cases h9
      rw [constO, constE_literal rfl] at h8
      cases h8
      exact hm q hk cx callF ρ w

/-- Without an initialiser that is just `none`. -/
def dropNone : Option (Expr Ref) → Option (Expr Ref)
  | some (.none _) => none
  | o => o

/-- An annotated child for which constants are read from the program `q`.  A variable that is
initialised with `none` counts as not initialised. -/
def standIn (x y : Item Ref) : Item Ref :=
  match x with
  | .var _ true _ => y
  | .var t false o => .var t false (dropNone o)
  | x => x

/-- The annotated program `q1` before constants are replaced, with the constants as they are in `q`. -/
def withConsts (q1 q : Prog Ref) : Prog Ref := List.zipWith standIn q1 q

theorem pairs_of_get {α β : Type} {R : α → β → Prop} : ∀ {l : List α} {m : List β}, l.length = m.length →
    (∀ (i : Nat) a b, l[i]? = some a → m[i]? = some b → R a b) → Pairs R l m
  | [], [], _, _ => .nil
  | [], _ :: _, h, _ => by simp at h
  | _ :: _, [], h, _ => by simp at h
  | a :: l, b :: m, h, k =>
    .cons (k 0 a b (by simp) (by simp))
      (pairs_of_get (by simpa using h) fun i x y hx hy => k (i + 1) x y (by simpa using hx) (by simpa using hy))

theorem sema_same {L : Layout} {p : Prog Unit} {q q1 : Prog Ref} (h : runSema L p = .ok q)
    (h1 : annotate L p = .ok q1) (cx : Ctx) : Pairs (SameItem cx q) q (withConsts q1 q) := by
  obtain ⟨q1', q2, h1', h2, h3, _, _⟩ := runSema_steps h
  rw [h1] at h1'
  cases h1'
  have hs := globalVars_step h2
  have hk : KeepsInt q2 q := (constPass_keeps h3).int
  have hl : q1.length = q.length := by rw [hs.1]; exact (constPass_length h3).symm
  refine pairs_of_get (by simp [withConsts, hl]) fun i z x' hz hx' => ?_
  have hlt : i < q1.length := hl ▸ (List.getElem?_eq_some_iff.1 hz).1
  have hx : q1[i]? = some q1[i] := List.getElem?_eq_getElem hlt
  rw [withConsts, List.getElem?_zipWith, hx, hz] at hx'
  simp only [Option.some.injEq] at hx'
  obtain ⟨p', y, h4, h5, h6, js, h7⟩ := consts_at h3 hz
  have hst := hs.2 i _ _ hx h4
  generalize q1[i] = x at hst hx'
  subst hx'
  cases x with
  | func f =>
    cases hst
    rw [constItem] at h5
    split at h5
    · cases h5
    · rename_i b hb
      cases h5
      refine ⟨rfl, fun f' g' e1 e2 => ?_, fun _ _ _ _ e1 => (by cases e1)⟩
      cases e1; cases e2; intros
      exact constB_eval h6 cx _ _ _ _ hb _ _
  | syscall n a => cases hst; cases h5; exact same_refl ..
  | var t c o =>
    cases c with
    | true => exact same_refl ..
    | false =>
      have hy : ∃ o', y = .var t false o' ∧ InitStep q2 o o' := by
        cases hst with
        | same => exact ⟨_, rfl, .same _⟩
        | var _ _ hi => exact ⟨_, rfl, hi⟩
      obtain ⟨o', rfl, hi⟩ := hy
      obtain ⟨o'', h8, rfl, _⟩ := constItem_const h5
      have hn := globalVars_none h2 i t false
      have hw : standIn (.var t false o) (.var t false o'') = .var t false (dropNone o) := rfl
      rw [hw]
      refine ⟨(by simp only [Item.face]), fun f g e1 => (by cases e1), fun t1 t2 o1 o2 e1 e2 => ?_⟩
      cases e1; cases e2
      cases hi with
      | drop k => cases h8; exact .none
      | fold k c hop hm =>
        rw [constO, constE_literal rfl] at h8
        cases h8
        rename_i e v _
        have : dropNone (some e) = some e := by
          cases e <;> first | rfl | cases hop
        rw [this]
        exact .some fun callF ρ w => by rw [hm q hk, evalE]
      | same =>
        cases o with
        | none => cases h8; exact .none
        | some e =>
          have : dropNone (some e) = some e := by
            cases e <;> first | rfl | exact absurd h4 (hn _)
          rw [this]
          rw [constO] at h8
          split at h8
          · cases h8
          · rename_i he
            cases h8
            exact .some fun callF ρ w => constE_eval h6 cx callF ρ e he w

/-- C20: calling a function of an accepted program gives what the annotated program gives in which
the names of constants stand for their literals. -/
theorem C20_calls {L : Layout} {p : Prog Unit} {q q1 : Prog Ref} (h : runSema L p = .ok q)
    (h1 : annotate L p = .ok q1) (cx : Ctx) (zi : Nat → Ref → Bool) (n : Nat) :
    callFn (cx.withProg q) zi n = callFn (cx.withProg (withConsts q1 q)) zi n :=
  (same_calls (sema_same h h1 cx) zi n).symm

/-- C20: and so does starting it. -/
theorem C20_start {L : Layout} {p : Prog Unit} {q q1 : Prog Ref} (h : runSema L p = .ok q)
    (h1 : annotate L p = .ok q1) (cx : Ctx) (zi : Nat → Ref → Bool) (n : Nat) (w : State) :
    Sem.startUp (cx.withProg q) zi n w = Sem.startUp (cx.withProg (withConsts q1 q)) zi n w :=
  (same_startUp (sema_same h h1 cx) zi n w).symm

/-- C20: a name of a constant declared with a literal evaluates to that literal. -/
theorem C20_use {L : Layout} {p : Prog Unit} {q q1 : Prog Ref} (h : runSema L p = .ok q)
    (h1 : annotate L p = .ok q1) {i : Nat} {t k : Token} {e : Expr Unit} {v : Val}
    (hi : p[i]? = some (.var t true (some e))) (hv : valueOf e = some v) (cx : Ctx) (callF : CallF) (ρ : Vars)
    (w : State) : evalE (cx.withProg (withConsts q1 q)) callF ρ (.ident k (.item i)) w = .ok v w := by
  obtain ⟨e', h2, h3⟩ := C20_declared h hi hv
  rw [← face_evalE cx (same_face (sema_same h h1 cx)), evalE]
  have hp : (cx.withProg q).prog[i]? = some (.var t true (some e')) := h2
  unfold Ctx.ident
  simp only [hp, h3]

/-! ### Examples -/

/-- `const a = 6`, `const b = a * 7`, `const s = "x"`, `var g = b - 2`,
`function f(x) return x * b + g end`, `function h() return s + a end`. -/
def constsTree : Prog Unit :=
  [.var (nm "a") true (some (lit 6)),
   .var (nm "b") true (some (.bin (tk .MUL "*") (ix "a") (lit 7))),
   .var (nm "s") true (some (.str (str "x") none)),
   .var (nm "g") false (some (.bin (tk .SUB "-") (ix "b") (lit 2))),
   .func { name := nm "f", args := [nm "x"], stop := tk .END "end", body := [
     .ret (tk .RETURN "return") (some (.bin (tk .ADD "+") (.bin (tk .MUL "*") (ix "x") (ix "b")) (ix "g")))] },
   .func { name := nm "h", args := [], stop := tk .END "end", body := [
     .ret (tk .RETURN "return") (some (.bin (tk .ADD "+") (ix "s") (ix "a")))] }]

theorem constsTree_ok : compilesB constsTree = true := by decide +kernel

/-- The program compiles, its constants are used, and the theorems apply: `b` is 42. -/
example : (match (semaOf constsTree)[1]? with
    | some (Item.var _ true (some (Expr.int v _ _))) => v == 42
    | _ => false) = true := by decide +kernel

/-- All names are gone. -/
example : (match (treeOf constsTree)[5]? with
    | some (Item.func f) => namesB f.body
    | _ => [.loc 0]) = [] := by decide +kernel

/-- Assigning to a constant is rejected. -/
example : isOk (runSema sampleLayout
    [.var (nm "a") true (some (lit 6)), .func { name := nm "f", args := [], stop := tk .END "end", body := [
      .assign (nm "a") () (lit 1)] }]) = false := by decide +kernel

/-- Counting with a constant passes the semantic analysis; only an assertion of the code generator
stops it. -/
example : (match runSema sampleLayout
    [.var (nm "a") true (some (lit 6)), .func { name := nm "f", args := [], stop := tk .END "end", body := [
      .forS (tk .FOR "for") (nm "a") () (lit 1) (lit 2) []] }] with
    | .ok q => codegen q == .error .assert
    | .error _ => false) = true := by decide +kernel

end Ccml.Props
