import Verif.TokLines
import Verif.Pc
import Verif.Report
import Verif.Props.Layout
import Verif.Props.Build
import Verif.Props.Lexer
import Verif.Props.Source
/-!
C67: the line table of a compiled program and the lines of run time errors.
-/
namespace Ccml.Props
open Toks (A A1 tokAt)

/-! ### The words of a declaration -/

mutual
/-- The tokens an expression was read from. -/
def wordsE : Expr Unit → List Token
  | .ident t _ => [t]
  | .int _ t _ => t.toList
  | .float _ t => t.toList
  | .str _ t => t.toList
  | .none t => t.toList
  | .member t m _ => [t, m]
  | .arr t es => t :: wordsEs es
  | .deref t l i => t :: (wordsE l ++ wordsE i)
  | .call t c as => t :: (wordsE c ++ wordsEs as)
  | .bin op l r => op :: (wordsE l ++ wordsE r)
  | .un op e => op :: wordsE e
/-- The same for a list. -/
def wordsEs : List (Expr Unit) → List Token
  | [] => []
  | e :: es => wordsE e ++ wordsEs es
end

/-- The same for an expression that may be missing. -/
def wordsO : Option (Expr Unit) → List Token
  | none => []
  | some e => wordsE e

mutual
/-- The tokens a statement was read from. -/
def wordsS : Stmt Unit → List Token
  | .var t _ init => t :: wordsO init
  | .assign t _ e => t :: wordsE e
  | .assignArr t _ i e => t :: (wordsE i ++ wordsE e)
  | .assignMem t m _ e => t :: m :: wordsE e
  | .call t c as => t :: (wordsE c ++ wordsEs as)
  | .ifS t c thn _ els => t :: (wordsE c ++ wordsB thn ++ wordsB els)
  | .whileS t c body => t :: (wordsE c ++ wordsB body)
  | .forS t n _ a b body => t :: n :: (wordsE a ++ wordsE b ++ wordsB body)
  | .ret t e => t :: wordsO e
/-- The same for a block. -/
def wordsB : List (Stmt Unit) → List Token
  | [] => []
  | s :: ss => wordsS s ++ wordsB ss
end

/-- The tokens of a declaration. -/
def words : Item Unit → List Token
  | .var t _ init => t :: wordsO init
  | .func f => f.name :: (wordsB f.body ++ [f.stop])
  | .syscall .. => []

/-- The tokens of the values of the constants of a program. -/
def constWords : Prog Unit → List Token
  | [] => []
  | .var _ true init :: p => wordsO init ++ constWords p
  | _ :: p => constWords p

mutual
/-- The literals of an expression have their tokens, as the parser makes them. -/
def literalsE : Expr Unit → Bool
  | .ident .. | .member .. => true
  | .int _ t _ | .float _ t | .str _ t | .none t => t.isSome
  | .arr _ es => literalsEs es
  | .deref _ l i => literalsE l && literalsE i
  | .call _ c as => literalsE c && literalsEs as
  | .bin _ l r => literalsE l && literalsE r
  | .un _ e => literalsE e
/-- The same for a list. -/
def literalsEs : List (Expr Unit) → Bool
  | [] => true
  | e :: es => literalsE e && literalsEs es
end

/-- The same for an expression that may be missing. -/
def literalsO : Option (Expr Unit) → Bool
  | none => true
  | some e => literalsE e

mutual
/-- The same for a statement. -/
def literalsS : Stmt Unit → Bool
  | .var _ _ init => literalsO init
  | .assign _ _ e => literalsE e
  | .assignArr _ _ i e => literalsE i && literalsE e
  | .assignMem _ _ _ e => literalsE e
  | .call _ c as => literalsE c && literalsEs as
  | .ifS _ c thn _ els => literalsE c && (literalsB thn && literalsB els)
  | .whileS _ c body => literalsE c && literalsB body
  | .forS _ _ _ a b body => literalsE a && (literalsE b && literalsB body)
  | .ret _ e => literalsO e
/-- The same for a block. -/
def literalsB : List (Stmt Unit) → Bool
  | [] => true
  | s :: ss => literalsS s && literalsB ss
end

/-- The same for a declaration. -/
def literals : Item Unit → Bool
  | .var _ _ init => literalsO init
  | .func f => literalsB f.body
  | .syscall .. => true

mutual
theorem wordsE_toks {T : Token → Prop} : ∀ {e : Expr Unit}, literalsE e = true → (∀ t ∈ wordsE e, T t) → Toks.E T e
  | .ident t r, _, h => by simp only [Toks.E]; exact h t (by simp [wordsE])
  | .int v t c, _, h => by
    simp only [Toks.E]
    intro k hk
    exact h k (by simpa [wordsE] using hk)
  | .float v (some t), _, h => by simp only [Toks.E]; exact ⟨t, rfl, h t (by simp [wordsE])⟩
  | .float v none, k, _ => by simp [literalsE] at k
  | .str v (some t), _, h => by simp only [Toks.E]; exact ⟨t, rfl, h t (by simp [wordsE])⟩
  | .str v none, k, _ => by simp [literalsE] at k
  | .none (some t), _, h => by simp only [Toks.E]; exact ⟨t, rfl, h t (by simp [wordsE])⟩
  | .none none, k, _ => by simp [literalsE] at k
  | .member t m r, _, h => by simp only [Toks.E]; exact ⟨h t (by simp [wordsE]), h m (by simp [wordsE])⟩
  | .arr t es, k, h => by
    simp only [Toks.E]; simp only [literalsE] at k
    exact ⟨h t (by simp [wordsE]), wordsEs_toks k fun x hx => h x (by simp [wordsE, hx])⟩
  | .deref t l i, k, h => by
    simp only [Toks.E]; simp only [literalsE, Bool.and_eq_true] at k
    exact ⟨h t (by simp [wordsE]), wordsE_toks k.1 fun x hx => h x (by simp [wordsE, hx]),
      wordsE_toks k.2 fun x hx => h x (by simp [wordsE, hx])⟩
  | .call t c as, k, h => by
    simp only [Toks.E]; simp only [literalsE, Bool.and_eq_true] at k
    exact ⟨h t (by simp [wordsE]), wordsE_toks k.1 fun x hx => h x (by simp [wordsE, hx]),
      wordsEs_toks k.2 fun x hx => h x (by simp [wordsE, hx])⟩
  | .bin t l i, k, h => by
    simp only [Toks.E]; simp only [literalsE, Bool.and_eq_true] at k
    exact ⟨h t (by simp [wordsE]), wordsE_toks k.1 fun x hx => h x (by simp [wordsE, hx]),
      wordsE_toks k.2 fun x hx => h x (by simp [wordsE, hx])⟩
  | .un t e, k, h => by
    simp only [Toks.E]; simp only [literalsE] at k
    exact ⟨h t (by simp [wordsE]), wordsE_toks k fun x hx => h x (by simp [wordsE, hx])⟩
theorem wordsEs_toks {T : Token → Prop} : ∀ {es : List (Expr Unit)}, literalsEs es = true → (∀ t ∈ wordsEs es, T t) →
    Toks.Es T es
  | [], _, _ => by simp only [Toks.Es]
  | e :: es, k, h => by
    simp only [Toks.Es]; simp only [literalsEs, Bool.and_eq_true] at k
    exact ⟨wordsE_toks k.1 fun x hx => h x (by simp [wordsEs, hx]),
      wordsEs_toks k.2 fun x hx => h x (by simp [wordsEs, hx])⟩
end

theorem wordsO_toks {T : Token → Prop} : ∀ {e : Option (Expr Unit)}, literalsO e = true → (∀ t ∈ wordsO e, T t) →
    Toks.O T e
  | none, _, _ => trivial
  | some _, k, h => wordsE_toks k h

mutual
theorem wordsS_toks {T : Token → Prop} : ∀ {s : Stmt Unit}, literalsS s = true → (∀ t ∈ wordsS s, T t) → Toks.S T s
  | .var t r init, k, h => by
    simp only [Toks.S]; simp only [literalsS] at k
    exact ⟨h t (by simp [wordsS]), wordsO_toks k fun x hx => h x (by simp [wordsS, hx])⟩
  | .assign t r e, k, h => by
    simp only [Toks.S]; simp only [literalsS] at k
    exact ⟨h t (by simp [wordsS]), wordsE_toks k fun x hx => h x (by simp [wordsS, hx])⟩
  | .assignArr t r i e, k, h => by
    simp only [Toks.S]; simp only [literalsS, Bool.and_eq_true] at k
    exact ⟨h t (by simp [wordsS]), wordsE_toks k.1 fun x hx => h x (by simp [wordsS, hx]),
      wordsE_toks k.2 fun x hx => h x (by simp [wordsS, hx])⟩
  | .assignMem t m r e, k, h => by
    simp only [Toks.S]; simp only [literalsS] at k
    exact ⟨h t (by simp [wordsS]), h m (by simp [wordsS]), wordsE_toks k fun x hx => h x (by simp [wordsS, hx])⟩
  | .call t c as, k, h => by
    simp only [Toks.S]; simp only [literalsS, Bool.and_eq_true] at k
    exact ⟨h t (by simp [wordsS]), wordsE_toks k.1 fun x hx => h x (by simp [wordsS, hx]),
      wordsEs_toks k.2 fun x hx => h x (by simp [wordsS, hx])⟩
  | .ifS t c thn he els, k, h => by
    simp only [Toks.S]; simp only [literalsS, Bool.and_eq_true] at k
    exact ⟨h t (by simp [wordsS]), wordsE_toks k.1 fun x hx => h x (by simp [wordsS, hx]),
      wordsB_toks k.2.1 fun x hx => h x (by simp [wordsS, hx]), wordsB_toks k.2.2 fun x hx => h x (by simp [wordsS, hx])⟩
  | .whileS t c body, k, h => by
    simp only [Toks.S]; simp only [literalsS, Bool.and_eq_true] at k
    exact ⟨h t (by simp [wordsS]), wordsE_toks k.1 fun x hx => h x (by simp [wordsS, hx]),
      wordsB_toks k.2 fun x hx => h x (by simp [wordsS, hx])⟩
  | .forS t n r a b body, k, h => by
    simp only [Toks.S]; simp only [literalsS, Bool.and_eq_true] at k
    exact ⟨h t (by simp [wordsS]), h n (by simp [wordsS]), wordsE_toks k.1 fun x hx => h x (by simp [wordsS, hx]),
      wordsE_toks k.2.1 fun x hx => h x (by simp [wordsS, hx]), wordsB_toks k.2.2 fun x hx => h x (by simp [wordsS, hx])⟩
  | .ret t e, k, h => by
    simp only [Toks.S]; simp only [literalsS] at k
    exact ⟨h t (by simp [wordsS]), wordsO_toks k fun x hx => h x (by simp [wordsS, hx])⟩
theorem wordsB_toks {T : Token → Prop} : ∀ {ss : List (Stmt Unit)}, literalsB ss = true → (∀ t ∈ wordsB ss, T t) →
    Toks.B T ss
  | [], _, _ => by simp only [Toks.B]
  | s :: ss, k, h => by
    simp only [Toks.B]; simp only [literalsB, Bool.and_eq_true] at k
    exact ⟨wordsS_toks k.1 fun x hx => h x (by simp [wordsB, hx]),
      wordsB_toks k.2 fun x hx => h x (by simp [wordsB, hx])⟩
end

theorem constWords_mem {t : Token} {init : Option (Expr Unit)} {n : Token} : ∀ {p : Prog Unit},
    Item.var n true init ∈ p → t ∈ wordsO init → t ∈ constWords p
  | [], h, _ => by cases h
  | x :: p, h, ht => by
    rcases List.mem_cons.1 h with rfl | h
    · simp [constWords, ht]
    · have ih := constWords_mem h ht
      rcases x with ⟨_, _ | _, _⟩ | _ | _ <;> simp [constWords, ih]

/-- The tokens of child `i`, and those of constants. -/
def Own (p : Prog Unit) (i : Nat) (t : Token) : Prop := (∃ x, p[i]? = some x ∧ t ∈ words x) ∨ t ∈ constWords p

theorem own_toks {p : Prog Unit} (hp : ∀ x ∈ p, literals x = true) :
    Toks.P (Own p) (· ∈ constWords p) 0 p := by
  intro i x hx
  have hm := List.mem_of_getElem? hx
  have hl := hp x hm
  rw [Nat.zero_add]
  cases x with
  | var t c init =>
    refine ⟨.inl ⟨_, hx, by simp [words]⟩, wordsO_toks hl fun k hk => .inl ⟨_, hx, by simp [words, hk]⟩, ?_⟩
    rintro rfl
    exact wordsO_toks hl fun k hk => constWords_mem hm hk
  | func f =>
    exact ⟨.inl ⟨_, hx, by simp [words]⟩, wordsB_toks hl fun k hk => .inl ⟨_, hx, by simp [words, hk]⟩,
      .inl ⟨_, hx, by simp [words]⟩⟩
  | syscall n a => trivial

/-! ### The table -/

theorem chain_tokAt : ∀ {segs : List Seg} {pc si : Nat}, Chain pc si segs → ∀ s ∈ segs, pc ≤ s.pc ∧
    ∀ k, s.pc ≤ k → k < s.stop → tokAt pc (segsAsm segs) k = tokAt s.pc s.asm k
  | [], _, _, _, s, hs => by cases hs
  | s0 :: segs, pc, si, ⟨a, b, c, d⟩, s, hs => by
    have e : segsAsm (s0 :: segs) = s0.asm ++ segsAsm segs := by simp [segsAsm]
    rcases List.mem_cons.1 hs with rfl | hs
    · refine ⟨by omega, fun k h1 h2 => ?_⟩
      unfold Seg.stop at h2
      rw [e, Toks.tokAt_append, if_pos (by omega), a]
    · obtain ⟨h3, h4⟩ := chain_tokAt d s hs
      refine ⟨by omega, fun k h1 h2 => ?_⟩
      rw [e, Toks.tokAt_append, if_neg (by omega)]
      exact h4 k h1 h2

theorem seg_lines {q : Prog Ref} {prog : Program} {segs : List Seg} {es : List Function} (G : Generated q prog segs es)
    {s : Seg} (hs : s ∈ segs) {k : Nat} (h1 : s.pc ≤ k) (h2 : k < s.stop) :
    prog.lines.get (i32 k) = ((tokAt s.pc s.asm k).map (·.line.toLine)).getD Line.unknown := by
  have h5 := G.codeLength.2
  rw [G.code, bytesOf_length] at h5
  have h3 := G.small s hs
  rw [G.lines, Toks.linesAt_entries (by omega) (by intro e he; cases he), List.nil_append,
    Toks.get_entries (by omega) (by omega), (chain_tokAt G.chain s hs).2 k h1 h2]

theorem laidOut_tok {fa : Str → I32} : ∀ {a : Asm} {pc : Nat} {x : Nat × Ins},
    x ∈ laidOut pc (a.map fun x => x.1.resolve fa) →
    pc ≤ x.1 ∧ x.1 < pc + widthOf a ∧ ∃ y ∈ a, x.2 = y.1.resolve fa ∧ tokAt pc a x.1 = y.2
  | [], pc, x, h => by cases h
  | y :: a, pc, x, h => by
    have hw : width (y.1.resolve fa) = y.1.width := by
      obtain ⟨y, _⟩ := y
      cases y with
      | ins i => cases i <;> rfl
      | _ => rfl
    have hp := Toks.width_pos y.1
    simp only [List.map_cons, laidOut, List.mem_cons, hw] at h
    simp only [widthOf]
    rcases h with rfl | h
    · exact ⟨by simp, by dsimp only; omega, y, by simp, rfl, by simp [tokAt]⟩
    · obtain ⟨h1, h2, z, h3, h4, h5⟩ := laidOut_tok h
      refine ⟨by omega, by omega, z, by simp [h3], h4, ?_⟩
      rw [tokAt, if_neg (by omega), h5]

theorem tokAt_none {fa : Str → I32} {k : Nat} : ∀ {a : Asm} {pc : Nat},
    (∀ x ∈ laidOut pc (a.map fun x => x.1.resolve fa), x.1 ≠ k) → tokAt pc a k = none
  | [], pc, h => rfl
  | y :: a, pc, h => by
    have hw : width (y.1.resolve fa) = y.1.width := by
      obtain ⟨y, _⟩ := y
      cases y with
      | ins i => cases i <;> rfl
      | _ => rfl
    simp only [List.map_cons, laidOut, hw] at h
    have := h (pc, y.1.resolve fa) (by simp)
    rw [tokAt, if_neg (by dsimp only at this; omega)]
    exact tokAt_none (fa := fa) fun x hx => h x (List.mem_cons_of_mem _ hx)

variable {L : Layout} {opt : Bool} {p : Prog Unit} {q : Prog Ref} {prog : Program}

/-- The code of a function with its lines: `T` the tokens lines come from, `N` the instructions that may
have no line. -/
def Lined (prog : Program) (F : Function) (T : Token → Prop) (N : Ins → Prop) : Prop :=
  ∃ (a : Nat) (bs : List Byte) (is : List Ins), F.codeStart.toInt = a ∧ F.codeEnd.toInt = (a + bs.length : Nat) ∧
    (∃ post, prog.code.drop a = bs ++ post) ∧ CodeOf is bs ∧
    (∀ x ∈ laidOut a is, (∃ t, T t ∧ prog.lines.get (i32 x.1) = t.line.toLine) ∨
      prog.lines.get (i32 x.1) = Line.unknown ∧ N x.2) ∧
    ∀ k, a ≤ k → k < a + bs.length → (∀ x ∈ laidOut a is, x.1 ≠ k) → prog.lines.get (i32 k) = Line.unknown

theorem lined_seg {segs : List Seg} {es : List Function} (G : Generated q prog segs es) {s : Seg} (hs : s ∈ segs)
    {F : Function} (hstart : F.codeStart = i32 s.pc) (hstop : F.codeEnd = i32 s.stop) {T : Token → Prop}
    {N : Ins → Prop} (hT : ∀ y ∈ s.asm, ∀ t, y.2 = some t → T t)
    (hN : ∀ y ∈ s.asm, y.2 = none → N (y.1.resolve (addrMap segs))) : Lined prog F T N := by
  have hsm := G.small s hs
  have hstop' : s.stop = s.pc + widthOf s.asm := rfl
  refine ⟨s.pc, bytesOf (addrMap segs) s.asm, s.asm.map fun x => x.1.resolve (addrMap segs), ?_, ?_, ?_, ?_, ?_, ?_⟩
  · rw [hstart, toInt_i32 (by omega)]
  · rw [hstop, toInt_i32 hsm, bytesOf_length, hstop']
  · have hcode := Chain.codeAt (e := { (Env.std prog toyFl Mem.abs) with prog := prog }) (pre := [])
      (fa := addrMap segs) G.chain (by rw [List.nil_append]; exact G.code) rfl s hs
    obtain ⟨pre, post, h4, h5⟩ := hcode
    refine ⟨post, ?_⟩
    have h4 : prog.code = _ := h4
    rw [h4, ← h5]
    simp
  · exact codeOf_asm _ _ (emitOk_seg G.ok s hs)
  · intro x hx
    obtain ⟨h1, h2, y, hy, h3, h4⟩ := laidOut_tok hx
    rw [seg_lines G hs h1 (by omega), h4]
    cases ht : y.2 with
    | some t => exact .inl ⟨t, hT y hy t ht, rfl⟩
    | none => exact .inr ⟨rfl, h3 ▸ hN y hy ht⟩
  · intro k h1 h2 h3
    rw [bytesOf_length] at h2
    rw [seg_lines G hs h1 (by omega), tokAt_none h3]
    rfl

theorem toks_compiled (hc : Compiles L opt p q prog) (hp : ∀ x ∈ p, literals x = true) :
    Toks.P (Own p) (· ∈ constWords p) 0 q := by
  obtain ⟨q0, h1, h2, -⟩ := hc
  exact Toks.runOptimize_toks (Toks.runSema_toks (fun i t h => .inr h) (own_toks hp) h1) h2

theorem own_words {t : Token} (h : ∃ i, Own p i t) : ∃ x ∈ p, t ∈ words x := by
  obtain ⟨i, ⟨x, hx, ht⟩ | ht⟩ := h
  · exact ⟨x, List.mem_of_getElem? hx, ht⟩
  · have : ∀ p : Prog Unit, t ∈ constWords p → ∃ x ∈ p, t ∈ words x := by
      intro p
      induction p with
      | nil => intro h; cases h
      | cons x p ih =>
        intro h
        rcases x with ⟨n, _ | _, init⟩ | f | _ <;> simp only [constWords] at h
        · obtain ⟨x, hx, h⟩ := ih h; exact ⟨x, by simp [hx], h⟩
        · rcases List.mem_append.1 h with h | h
          · exact ⟨.var n true init, by simp, by simp [words, h]⟩
          · obtain ⟨x, hx, h⟩ := ih h; exact ⟨x, by simp [hx], h⟩
        · obtain ⟨x, hx, h⟩ := ih h; exact ⟨x, by simp [hx], h⟩
        · obtain ⟨x, hx, h⟩ := ih h; exact ⟨x, by simp [hx], h⟩
    exact this p ht

theorem asmInit_toks {sys : List Syscall} {pc si : Nat} {a : Asm} (hq : Toks.P (Own p) (· ∈ constWords p) 0 q)
    (k2 : asmInit q sys pc si = .ok a) : ∀ y ∈ a, A1 (fun t => ∃ i, Own p i t) y ∨
      y.2 = none ∧ ((∃ v, y.1 = .ins (.i1 .GLOBALS v)) ∨ ∃ v, y.1 = .ins (.i1 .RET v)) := by
  intro y hy
  unfold asmInit at k2
  obtain ⟨b, hb, k2⟩ := bind_ok.1 k2
  cases k2
  simp only [List.mem_append] at hy
  rcases hy with ((hy | hy) | hy) | hy
  · cases List.mem_singleton.1 hy; exact .inr ⟨rfl, .inl ⟨_, rfl⟩⟩
  · exact .inl (Toks.asmB_toks (Toks.initFrom_toks hq) hb y hy)
  · cases List.mem_singleton.1 hy; exact .inl (.inr ⟨_, rfl⟩)
  · cases List.mem_singleton.1 hy; exact .inr ⟨rfl, .inr ⟨_, rfl⟩⟩

theorem table_toks (hc : Compiles L opt p q prog) (hi : ∀ x ∈ p, x.declName ≠ initName)
    (hp : ∀ x ∈ p, literals x = true) : ∀ e ∈ prog.lines, ∃ x ∈ p, ∃ t ∈ words x, e.2 = t.line.toLine := by
  have hn := hc.func hi
  have hq := toks_compiled hc hp
  obtain ⟨q0, h1, h2, h3⟩ := hc
  obtain ⟨segs, es, G⟩ := codegen_generated hn h3
  have h5 := G.codeLength.2
  rw [G.code, bytesOf_length] at h5
  rw [G.lines, Toks.linesAt_entries (by omega) (by intro e he; cases he), List.nil_append]
  intro e he
  obtain ⟨y, hy, t, ht, hte⟩ := Toks.entries_mem he
  unfold segsAsm at hy
  obtain ⟨s, hs, hy⟩ := List.mem_flatMap.1 hy
  have : ∃ i, Own p i t := by
    obtain ⟨l, a, i0, k1, k2, k3, k4⟩ := G.funcs
    rw [k4, List.mem_append] at hs
    rcases hs with hs | hs
    · obtain ⟨i, f, g1, g2, g3⟩ := Toks.segs_toks hq k1 s hs
      have := g3 y hy
      unfold A1 at this
      rw [ht] at this
      exact ⟨_, this⟩
    · cases List.mem_singleton.1 hs
      subst k3
      rcases asmInit_toks hq k2 y hy with h | ⟨h, -⟩
      · unfold A1 at h
        rw [ht] at h
        exact h
      · rw [ht] at h; cases h
  obtain ⟨x, hx, hw⟩ := own_words this
  exact ⟨x, hx, t, hw, hte⟩

/-- C67: every instruction of a function has the line of a word of its declaration, or of a word of the value of a
constant.  Only jumps (the one around an `else` part) and integer literals (those the compiler computed) may have
no line.  Addresses inside instructions have none. -/
theorem C67_function (hc : Compiles L opt p q prog) (hi : ∀ x ∈ p, x.declName ≠ initName)
    (hp : ∀ x ∈ p, literals x = true) (F : Function) (hF : F ∈ prog.functions) (hm : F.name ≠ initName) :
    ∃ x ∈ p, x.declName = F.name ∧
      Lined prog F (fun t => t ∈ words x ∨ t ∈ constWords p)
        (fun i => (∃ v, i = .i1 .JMP v) ∨ ∃ v, i = .i1 .NEW_INT v) := by
  have hn := hc.func hi
  have hq := toks_compiled hc hp
  have hnames := hc.names.1
  obtain ⟨q0, h1, h2, h3⟩ := hc
  obtain ⟨segs, es, G⟩ := codegen_generated hn h3
  obtain ⟨s, hs, hname, hstart, hstop⟩ := G.entry hF
  obtain ⟨l, a, i0, k1, k2, k3, k4⟩ := G.funcs
  have hsl : s ∈ l := by
    have := hs
    rw [k4, List.mem_append] at this
    rcases this with h | h
    · exact h
    · rw [List.mem_singleton] at h
      rw [h, k3] at hname
      exact absurd hname hm
  obtain ⟨i, f, g1, g2, g3⟩ := Toks.segs_toks hq k1 s hsl
  rw [Nat.zero_add] at g3
  have hd : (p.map Item.declName)[i]? = some F.name := by
    rw [← hnames, List.getElem?_map, g1, hname, g2]; rfl
  rw [List.getElem?_map, Option.map_eq_some_iff] at hd
  obtain ⟨x, hx, hxn⟩ := hd
  refine ⟨x, List.mem_of_getElem? hx, hxn, lined_seg G hs hstart hstop ?_ ?_⟩
  · intro y hy t ht
    have := g3 y hy
    unfold A1 at this
    rw [ht] at this
    rcases this with ⟨z, hz, hw⟩ | hw
    · cases hz.symm.trans hx
      exact .inl hw
    · exact .inr hw
  · intro y hy ht
    have := g3 y hy
    unfold A1 at this
    rw [ht] at this
    rcases this with ⟨v, h⟩ | ⟨v, h⟩
    · exact .inl ⟨v, by rw [h]; rfl⟩
    · exact .inr ⟨v, by rw [h]; rfl⟩

/-- C67: the same of the function that computes the values of the global variables: its lines are lines of words of
declarations, and besides jumps and integer literals only its first and its last instruction have none. -/
theorem C67_init (hc : Compiles L opt p q prog) (hi : ∀ x ∈ p, x.declName ≠ initName)
    (hp : ∀ x ∈ p, literals x = true) (F : Function) (hF : F ∈ prog.functions) (hm : F.name = initName) :
    Lined prog F (fun t => ∃ x ∈ p, t ∈ words x)
        (fun i => (∃ v, i = .i1 .JMP v) ∨ (∃ v, i = .i1 .NEW_INT v) ∨ (∃ v, i = .i1 .GLOBALS v) ∨ ∃ v, i = .i1 .RET v) := by
  have hn := hc.func hi
  have hq := toks_compiled hc hp
  have hnames := hc.names.1
  obtain ⟨q0, h1, h2, h3⟩ := hc
  obtain ⟨segs, es, G⟩ := codegen_generated hn h3
  obtain ⟨s, hs, hname, hstart, hstop⟩ := G.entry hF
  obtain ⟨l, a, i0, k1, k2, k3, k4⟩ := G.funcs
  have hsl : s = i0 := by
    have := hs
    rw [k4, List.mem_append] at this
    rcases this with h | h
    · have := G.names
      rw [k4, List.map_append, List.nodup_append] at this
      have := this.2.2 s.name (List.mem_map_of_mem h) i0.name (by simp)
      rw [← hname, hm, k3] at this
      exact absurd rfl this
    · exact List.mem_singleton.1 h
  have hA : ∀ y ∈ s.asm, A1 (fun t => ∃ i, Own p i t) y ∨
      y.2 = none ∧ ((∃ v, y.1 = .ins (.i1 .GLOBALS v)) ∨ ∃ v, y.1 = .ins (.i1 .RET v)) := by
    rw [hsl, k3]
    exact asmInit_toks hq k2
  refine lined_seg G hs hstart hstop ?_ ?_
  · intro y hy t ht
    rcases hA y hy with h | ⟨h, -⟩
    · unfold A1 at h
      rw [ht] at h
      exact own_words h
    · rw [ht] at h; cases h
  · intro y hy ht
    rcases hA y hy with h | ⟨-, ⟨v, h⟩ | ⟨v, h⟩⟩
    · unfold A1 at h
      rw [ht] at h
      rcases h with ⟨v, h⟩ | ⟨v, h⟩
      · exact .inl ⟨v, by rw [h]; rfl⟩
      · exact .inr (.inl ⟨v, by rw [h]; rfl⟩)
    · exact .inr (.inr (.inl ⟨v, by rw [h]; rfl⟩))
    · exact .inr (.inr (.inr ⟨v, by rw [h]; rfl⟩))

/-! ### The lines of texts -/

mutual
theorem made_wordsE {T : Token → Prop} : ∀ {e : Expr Unit}, Made.E T e → literalsE e = true ∧ ∀ t ∈ wordsE e, T t
  | .ident t r, h => by simp only [Made.E] at h; simpa [literalsE, wordsE] using h.1
  | .int v t c, h => by
    simp only [Made.E] at h
    obtain ⟨⟨k, rfl, h, -⟩, -⟩ := h
    simpa [literalsE, wordsE] using h
  | .float v t, h => by
    simp only [Made.E] at h
    obtain ⟨k, rfl, h, -⟩ := h
    simpa [literalsE, wordsE] using h
  | .str v t, h => by
    simp only [Made.E] at h
    obtain ⟨k, rfl, h, -⟩ := h
    simpa [literalsE, wordsE] using h
  | .none t, h => by
    simp only [Made.E] at h
    obtain ⟨k, rfl, h, -⟩ := h
    simpa [literalsE, wordsE] using h
  | .member t m r, h => by simp only [Made.E] at h; simp [literalsE, wordsE, h.1, h.2.1]
  | .arr t es, h => by
    simp only [Made.E] at h
    obtain ⟨a, b⟩ := made_wordsEs h.2
    refine ⟨by simp [literalsE, a], fun k hk => ?_⟩
    rw [wordsE] at hk
    rcases List.mem_cons.1 hk with rfl | hk
    · exact h.1
    · exact b k hk
  | .deref t l r, h => by
    simp only [Made.E] at h
    obtain ⟨a, b⟩ := made_wordsE h.2.1
    obtain ⟨c, d⟩ := made_wordsE h.2.2
    refine ⟨by simp [literalsE, a, c], fun k hk => ?_⟩
    rw [wordsE, List.mem_cons, List.mem_append] at hk
    rcases hk with rfl | hk | hk
    · exact h.1
    · exact b k hk
    · exact d k hk
  | .bin t l r, h => by
    simp only [Made.E] at h
    obtain ⟨a, b⟩ := made_wordsE h.2.1
    obtain ⟨c, d⟩ := made_wordsE h.2.2
    refine ⟨by simp [literalsE, a, c], fun k hk => ?_⟩
    rw [wordsE, List.mem_cons, List.mem_append] at hk
    rcases hk with rfl | hk | hk
    · exact h.1
    · exact b k hk
    · exact d k hk
  | .call t l as, h => by
    simp only [Made.E] at h
    obtain ⟨a, b⟩ := made_wordsE h.2.1
    obtain ⟨c, d⟩ := made_wordsEs h.2.2
    refine ⟨by simp [literalsE, a, c], fun k hk => ?_⟩
    rw [wordsE, List.mem_cons, List.mem_append] at hk
    rcases hk with rfl | hk | hk
    · exact h.1
    · exact b k hk
    · exact d k hk
  | .un t e, h => by
    simp only [Made.E] at h
    obtain ⟨a, b⟩ := made_wordsE h.2
    refine ⟨by simp [literalsE, a], fun k hk => ?_⟩
    rw [wordsE, List.mem_cons] at hk
    rcases hk with rfl | hk
    · exact h.1
    · exact b k hk
theorem made_wordsEs {T : Token → Prop} : ∀ {es : List (Expr Unit)}, Made.Es T es →
    literalsEs es = true ∧ ∀ t ∈ wordsEs es, T t
  | [], _ => by simp [literalsEs, wordsEs]
  | e :: es, h => by
    simp only [Made.Es] at h
    obtain ⟨a, b⟩ := made_wordsE h.1
    obtain ⟨c, d⟩ := made_wordsEs h.2
    refine ⟨by simp [literalsEs, a, c], fun k hk => ?_⟩
    rw [wordsEs, List.mem_append] at hk
    rcases hk with hk | hk
    · exact b k hk
    · exact d k hk
end

theorem made_wordsO {T : Token → Prop} : ∀ {e : Option (Expr Unit)}, Made.O T e →
    literalsO e = true ∧ ∀ t ∈ wordsO e, T t
  | none, _ => ⟨rfl, by simp [wordsO]⟩
  | some _, h => made_wordsE h

mutual
theorem made_wordsS {T : Token → Prop} : ∀ {s : Stmt Unit}, Made.S T s → literalsS s = true ∧ ∀ t ∈ wordsS s, T t
  | .var t r e, h => by
    simp only [Made.S] at h
    obtain ⟨a, b⟩ := made_wordsO h.2.2
    refine ⟨by simp [literalsS, a], fun k hk => ?_⟩
    rw [wordsS, List.mem_cons] at hk
    rcases hk with rfl | hk
    · exact h.1
    · exact b k hk
  | .assign t r e, h => by
    simp only [Made.S] at h
    obtain ⟨a, b⟩ := made_wordsE h.2.2
    refine ⟨by simp [literalsS, a], fun k hk => ?_⟩
    rw [wordsS, List.mem_cons] at hk
    rcases hk with rfl | hk
    · exact h.1
    · exact b k hk
  | .assignArr t r i e, h => by
    simp only [Made.S] at h
    obtain ⟨a, b⟩ := made_wordsE h.2.2.1
    obtain ⟨c, d⟩ := made_wordsE h.2.2.2
    refine ⟨by simp [literalsS, a, c], fun k hk => ?_⟩
    rw [wordsS, List.mem_cons, List.mem_append] at hk
    rcases hk with rfl | hk | hk
    · exact h.1
    · exact b k hk
    · exact d k hk
  | .assignMem t m r e, h => by
    simp only [Made.S] at h
    obtain ⟨a, b⟩ := made_wordsE h.2.2.2
    refine ⟨by simp [literalsS, a], fun k hk => ?_⟩
    rw [wordsS, List.mem_cons, List.mem_cons] at hk
    rcases hk with rfl | rfl | hk
    · exact h.1
    · exact h.2.2.1
    · exact b k hk
  | .call t l as, h => by
    simp only [Made.S] at h
    obtain ⟨a, b⟩ := made_wordsE h.2.1
    obtain ⟨c, d⟩ := made_wordsEs h.2.2
    refine ⟨by simp [literalsS, a, c], fun k hk => ?_⟩
    rw [wordsS, List.mem_cons, List.mem_append] at hk
    rcases hk with rfl | hk | hk
    · exact h.1
    · exact b k hk
    · exact d k hk
  | .ifS t c thn he els, h => by
    simp only [Made.S] at h
    obtain ⟨a, b⟩ := made_wordsE h.2.1
    obtain ⟨c, d⟩ := made_wordsB h.2.2.1
    obtain ⟨e, f⟩ := made_wordsB h.2.2.2.1
    refine ⟨by simp [literalsS, a, c, e], fun k hk => ?_⟩
    rw [wordsS, List.mem_cons, List.mem_append, List.mem_append] at hk
    rcases hk with rfl | (hk | hk) | hk
    · exact h.1
    · exact b k hk
    · exact d k hk
    · exact f k hk
  | .whileS t c body, h => by
    simp only [Made.S] at h
    obtain ⟨a, b⟩ := made_wordsE h.2.1
    obtain ⟨c, d⟩ := made_wordsB h.2.2
    refine ⟨by simp [literalsS, a, c], fun k hk => ?_⟩
    rw [wordsS, List.mem_cons, List.mem_append] at hk
    rcases hk with rfl | hk | hk
    · exact h.1
    · exact b k hk
    · exact d k hk
  | .forS t n r x y body, h => by
    simp only [Made.S] at h
    obtain ⟨a, b⟩ := made_wordsE h.2.2.2.1
    obtain ⟨c, d⟩ := made_wordsE h.2.2.2.2.1
    obtain ⟨e, f⟩ := made_wordsB h.2.2.2.2.2
    refine ⟨by simp [literalsS, a, c, e], fun k hk => ?_⟩
    rw [wordsS, List.mem_cons, List.mem_cons, List.mem_append, List.mem_append] at hk
    rcases hk with rfl | rfl | (hk | hk) | hk
    · exact h.1
    · exact h.2.1
    · exact b k hk
    · exact d k hk
    · exact f k hk
  | .ret t e, h => by
    simp only [Made.S] at h
    obtain ⟨a, b⟩ := made_wordsO h.2
    refine ⟨by simp [literalsS, a], fun k hk => ?_⟩
    rw [wordsS, List.mem_cons] at hk
    rcases hk with rfl | hk
    · exact h.1
    · exact b k hk
theorem made_wordsB {T : Token → Prop} : ∀ {ss : List (Stmt Unit)}, Made.B T ss →
    literalsB ss = true ∧ ∀ t ∈ wordsB ss, T t
  | [], _ => by simp [literalsB, wordsB]
  | s :: ss, h => by
    simp only [Made.B] at h
    obtain ⟨a, b⟩ := made_wordsS h.1
    obtain ⟨c, d⟩ := made_wordsB h.2
    refine ⟨by simp [literalsB, a, c], fun k hk => ?_⟩
    rw [wordsB, List.mem_append] at hk
    rcases hk with hk | hk
    · exact b k hk
    · exact d k hk
end

theorem made_words {T : Token → Prop} {x : Item Unit} (h : Made.I T x) : literals x = true ∧ ∀ t ∈ words x, T t := by
  cases x with
  | var t c init =>
    obtain ⟨a, b⟩ := made_wordsO h.2.2
    refine ⟨a, fun k hk => ?_⟩
    rw [words, List.mem_cons] at hk
    rcases hk with rfl | hk
    · exact h.1
    · exact b k hk
  | func f =>
    obtain ⟨a, b⟩ := made_wordsB h.2.2.2.1
    refine ⟨a, fun k hk => ?_⟩
    rw [words, List.mem_cons, List.mem_append, List.mem_singleton] at hk
    rcases hk with rfl | hk | rfl
    · exact h.1
    · exact b k hk
    · exact h.2.2.2.2
  | syscall n a => exact ⟨rfl, by simp [words]⟩

/-- A token of one of the texts of a list of sources; neither a line end nor the end of the text. -/
def TextTok (fl : FloatOps) (ss : List Source) (t : Token) : Prop :=
  Made.Word t.type ∧ ∃ (k : Nat) (src : Source) (text : Str) (toks : List Token), ss[k]? = some src ∧
    src.data = some text ∧ lex fl k text = .ok toks ∧ t ∈ toks

theorem rounds_text {fs : Str → Option Str} {fl : FloatOps} {T : Token → Prop} {i : Nat} {ss ss' : List Source}
    {left : List PExpr} {parts : List (Prog Unit)} (h : Rounds fs fl i ss left parts ss')
    (hT : ∀ t, TextTok fl ss' t → T t) (hl : Made.Es T left) (hl' : Made.Es LexTok left) :
    ∀ part ∈ parts, ∀ x ∈ part, Made.I T x := by
  induction h with
  | done => simp
  | next h1 h2 ih =>
    rename_i i ss left part ss1 left1 parts ss2
    obtain ⟨-, -, k3⟩ := h1.made hl'
    have hpre := (rounds_at (Rounds.next h1 h2) hl').1
    obtain ⟨src, text, toks, s, g1, g2, g3, g4, rfl, rfl⟩ := h1
    have hsrc : ss2[i]? = some src := by
      obtain ⟨r, hr⟩ := hpre
      rw [← hr, List.getElem?_append_left (List.getElem?_eq_some_iff.1 g1).1]
      exact g1
    obtain ⟨m1, m2, m3⟩ := Made.parse_made (T := T)
      (fun t ht hw => hT t ⟨hw, i, src, text, toks, hsrc, g2, g3, ht⟩) hl g4
    intro part hp
    rcases List.mem_cons.1 hp with rfl | hp
    · exact m2
    · exact ih hT m3 k3 part hp

/-- A source as the source manager loads it: with the table of its lines. -/
def Numbered (s : Source) : Prop := ∀ text, s.data = some text → s.lines = genLines text

theorem grown_numbered {fs : Str → Option Str} {ss ss' : List Source} (h : Made.Grown fs ss ss') :
    (∀ s ∈ ss, Numbered s) → ∀ s ∈ ss', Numbered s := by
  induction h with
  | refl => exact id
  | step hl _ ih =>
    intro hs
    refine ih fun s hs1 => ?_
    unfold loadSource at hl
    split at hl
    · cases hl; exact hs s hs1
    · rw [Prod.mk.injEq] at hl
      obtain ⟨-, rfl⟩ := hl
      rcases List.mem_append.1 hs1 with hs1 | hs1
      · exact hs s hs1
      · rw [List.mem_singleton] at hs1
        subst hs1
        unfold Source.fromFile
        intro text ht
        split at ht <;> rename_i hf
        · cases ht
        · split at ht <;> rename_i hn
          · cases ht
          · cases ht
            rw [if_neg hn]

theorem splitLines_start {v : Str} : ∀ {w : Str}, ch '\n' ∉ w → ∃ b B, splitLines (w ++ v) = (w ++ b) :: B
  | [], _ => by
    cases e : splitLines v with
    | nil => exact absurd e (splitLines_ne_nil v)
    | cons l ls => exact ⟨l, ls, by simpa using e⟩
  | c :: w, h => by
    simp only [List.mem_cons, not_or] at h
    obtain ⟨b, B, hb⟩ := splitLines_start (v := v) h.2
    obtain ⟨l, ls, e1, e2⟩ := splitLines_cons (t := w ++ v) (Ne.symm h.1)
    rw [hb] at e1
    cases e1
    exact ⟨b, B, by rw [List.cons_append, e2]; rfl⟩

theorem splitLines_around {w v : Str} (hw : ch '\n' ∉ w) : ∀ u : Str, ∃ A a b B,
    splitLines (u ++ (w ++ v)) = A ++ (a ++ w ++ b) :: B ∧ A.length = u.count (ch '\n') ∧ A.flatten ++ a = u
  | [] => by
    obtain ⟨b, B, hb⟩ := splitLines_start (v := v) hw
    exact ⟨[], [], b, B, by simpa using hb, by simp, by simp⟩
  | c :: u => by
    obtain ⟨A, a, b, B, h1, h2, h3⟩ := splitLines_around (v := v) hw u
    by_cases hc : c = ch '\n'
    · refine ⟨[c] :: A, a, b, B, ?_, ?_, ?_⟩
      · rw [List.cons_append, splitLines, if_pos hc, h1]; rfl
      · rw [hc, List.count_cons_self, List.length_cons, h2]
      · simp [← h3]
    · obtain ⟨l, ls, e1, e2⟩ := splitLines_cons (t := u ++ (w ++ v)) hc
      rw [h1] at e1
      cases A with
      | nil =>
        cases e1
        refine ⟨[], c :: a, b, B, by rw [List.cons_append, e2]; rfl, ?_, ?_⟩
        · rw [List.count_cons_of_ne hc, ← h2]
        · simpa using h3
      | cons l0 A =>
        rw [List.cons_append, List.cons.injEq] at e1
        obtain ⟨rfl, rfl⟩ := e1
        refine ⟨(c :: l0) :: A, a, b, B, by rw [List.cons_append, e2]; rfl, ?_, ?_⟩
        · rw [List.count_cons_of_ne hc, ← h2]; rfl
        · simpa using h3

theorem managerLine_text {ss : List Source} {k n : Nat} {src : Source} {text : Str} (hk : ss[k]? = some src)
    (hd : src.data = some text) (hl : src.lines = genLines text) (h0 : 0 ∉ text) (hks : k < 2147483648)
    (hn : n + 1 < 2 ^ 32) {line : Str} (h : (splitLines text)[n]? = some line) :
    managerLine ss ⟨i32 k, BitVec.ofNat 32 (n + 1)⟩ = .ok line := by
  unfold managerLine
  dsimp only
  rw [toInt_i32 hks, if_neg (by omega), toNat_i32 hks, hk]
  dsimp only
  have hn' : (BitVec.ofNat 32 (n + 1)).toNat = n + 1 := by rw [BitVec.toNat_ofNat, Nat.mod_eq_of_lt (by omega)]
  rw [getLine_eq _ _ (by omega), hd, hl, hn', Option.getD_some]
  have := lineAt_spec text [] [] (by
    intro b hb hz
    subst hz
    exact h0 (by simpa using hb)) (by simp) n
  simp only [List.nil_append, List.length_nil] at this
  rw [show n + 1 - 1 = n from rfl]
  unfold genLines
  rw [this, h]

/-- C67: the line of every instruction of a program compiled from texts is a line of one of the texts, and the
source manager shows it: the line with a word at `o` in the text. -/
theorem C67_shown {fs : Str → Option Str} {fl : FloatOps} {n : Nat} {srcs srcs' : List Source}
    {sys : List (Str × Option Nat)} (hb : buildSources fs fl n 0 srcs [] (registered sys) = .ok (p, srcs'))
    (hsys : ∀ s ∈ sys, s.1 ≠ initName) (hc : Compiles L opt p q prog) (hsrc : ∀ s ∈ srcs, Numbered s)
    (hnul : ∀ s ∈ srcs', ∀ text, s.data = some text → 0 ∉ text ∧ text.length < 2147483647)
    (hmany : srcs'.length < 2147483648) (a : I32) :
    prog.lines.get a = Line.unknown ∨
    ∃ (file : Nat) (src : Source) (text : Str) (o : Nat) (t : Token) (w left right : Str),
      prog.lines.get a = ⟨i32 file, i32 (1 + (text.take o).count (ch '\n'))⟩ ∧
      srcs'[file]? = some src ∧ src.data = some text ∧ w <+: text.drop o ∧ Spells fl w t.line t ∧
      managerLine srcs' (prog.lines.get a) = .ok (left ++ w ++ right) ∧
      (splitLines text)[(text.take o).count (ch '\n')]? = some (left ++ w ++ right) ∧
      ((splitLines text).take ((text.take o).count (ch '\n'))).flatten ++ left = text.take o := by
  have hi := C60_names hsys hb
  have hn := hc.func hi
  obtain ⟨parts, hparts, hr⟩ := build_rounds hb
  have hmade := rounds_text hr (T := TextTok fl srcs') (fun t h => h) (by simp only [Made.Es]) (by simp only [Made.Es])
  have hgrown := (hr.made (by simp only [Made.Es])).1
  have hnum := grown_numbered hgrown hsrc
  have hitems : ∀ x ∈ p, literals x = true ∧ ∀ t ∈ words x, TextTok fl srcs' t := by
    intro x hx
    rw [hparts, List.mem_append] at hx
    rcases hx with hx | hx
    · obtain ⟨s, hs, rfl⟩ := List.mem_map.1 hx
      exact ⟨rfl, by simp [words]⟩
    · obtain ⟨part, hp, hx⟩ := List.mem_flatten.1 hx
      exact made_words (hmade part hp x hx)
  cases hf : prog.lines.find? (fun e => e.1 == a) with
  | none => exact .inl (by unfold LineTable.get; rw [hf])
  | some e =>
    right
    have hget : prog.lines.get a = e.2 := by unfold LineTable.get; rw [hf]
    obtain ⟨x, hx, t, ht, he⟩ := table_toks hc hi (fun x hx => (hitems x hx).1) e (List.mem_of_find?_eq_some hf)
    obtain ⟨hw, file, src, text, toks, k1, k2, k3, k4⟩ := (hitems x hx).2 t ht
    obtain ⟨h0, hlen⟩ := hnul src (List.mem_of_getElem? k1) text k2
    obtain ⟨offs, o1, -, o3⟩ := C08_token_lines fl file text toks h0 k3
    obtain ⟨j, hj⟩ := List.mem_iff_getElem?.1 k4
    have hjl := (List.getElem?_eq_some_iff.1 hj).1
    obtain ⟨-, m2, m3, -, -, m6⟩ := o3 j t _ hj (List.getElem?_eq_getElem (by omega))
    generalize offs[j]'(by omega) = o at m3 m6
    rw [if_neg hw.1] at m3
    obtain ⟨w, hwp, hsp⟩ := m6 hw.2 hw.1
    obtain ⟨v, hv⟩ := hwp
    obtain ⟨A, l, r, B, s1, s2, s3⟩ := splitLines_around (v := v) hsp.noNewline (text.take o)
    rw [hv, List.take_append_drop] at s1
    have hline : prog.lines.get a = ⟨i32 file, i32 (1 + (text.take o).count (ch '\n'))⟩ := by
      rw [hget, he, ← m3, ← m2]; rfl
    have hcount : (text.take o).count (ch '\n') ≤ text.length :=
      Nat.le_trans List.count_le_length (by rw [List.length_take]; omega)
    have hs : (splitLines text)[(text.take o).count (ch '\n')]? = some (l ++ w ++ r) := by
      rw [s1, ← s2, List.getElem?_append_right (Nat.le_refl _), Nat.sub_self]
      rfl
    refine ⟨file, src, text, o, t, w, l, r, hline, k1, k2, ⟨v, hv⟩, hsp, ?_, hs, ?_⟩
    · rw [hline, Nat.add_comm]
      have hfile := (List.getElem?_eq_some_iff.1 k1).1
      exact managerLine_text k1 k2 (hnum src (List.mem_of_getElem? k1) text k2) h0 (by omega) (by omega) hs
    · rw [s1, ← s2, List.take_left' rfl, s3]

/-! ### The line of a run time error -/

section
variable {P M : Type}

/-- C67: an instruction that raises an error leaves the program counter behind itself; except for an
indirect call with a wrong number of arguments, which has entered the function nevertheless, and a
return without a frame. -/
theorem C67_error_pc (prog : Program) (fl : FloatOps) (mem : MemOps P M) (s s' : St P M) (pc : Nat) (i : Ins)
    (bs rest : List Byte) (hpc : s.th.pc = pc) (hi : emitIns i = .ok bs) (hcode : prog.code.drop pc = bs ++ rest)
    (h : stepImp (Env.std prog fl mem) s = .ok ((), s')) (he : s'.th.error ≠ s.th.error) :
    s'.th.pc = (pc + width i : Nat) ∨
    (∃ n v r addr, i = .i1 .ICALL n ∧ s.th.stack = v :: r ∧ mem.view s.mem v = .ok (.func addr) ∧
      s'.th.error = .bad_num_args ∧ s'.th.pc = addr.toInt) ∨
    (∃ n, i = .i1 .RET n ∧ s.th.frames = [] ∧ s'.th.pc = 0) := by
  have hop : ∃ op : Op, bs.head? = some op.code ∧ ((op.reads = some (width i - 1 : Int)) ∨
      (op = .JMP ∨ op = .TJMP ∨ op = .FJMP ∨ op = .CALL) ∨ (op = .RET ∧ ∃ n, i = .i1 .RET n) ∨
      (op = .ICALL ∧ ∃ n, i = .i1 .ICALL n)) := by
    cases i with
    | i0 o =>
      simp only [emitIns, emit0] at hi
      split at hi
      · rename_i ho
        cases hi
        refine ⟨o, rfl, ?_⟩
        cases o <;> first | (cases ho; done) | simp [Op.reads, width]
      · cases hi
    | i1 o a =>
      simp only [emitIns, emit1] at hi
      split at hi
      · rename_i ho
        cases hi
        refine ⟨o, rfl, ?_⟩
        cases o <;> first | (cases ho; done) | simp [Op.reads, width]
      · cases hi
    | i2 o a b =>
      simp only [emitIns, emit2] at hi
      split at hi
      · rename_i ho
        cases hi
        refine ⟨o, rfl, ?_⟩
        cases o <;> first | (cases ho; done) | simp [Op.reads, width]
      · cases hi
  obtain ⟨op, hb, hop⟩ := hop
  have hw : 0 < width i := by cases i <;> simp [width]
  have hget : prog.code[pc]? = some op.code := by
    cases bs with
    | nil => cases hb
    | cons b bs =>
      cases hb
      have := congrArg (·[0]?) hcode
      simpa using this
  unfold stepImp at h
  rw [vm_bind] at h
  split at h
  case h_2 => cases h
  rename_i b s1 h1
  have hs1 : b = op.code ∧ s1 = { s with th := { s.th with pc := s.th.pc + 1 } } := by
    unfold readOpcode at h1
    split at h1
    · cases h1
    · split at h1
      · cases h1
      · rw [hpc, Int.toNat_natCast, show (Env.std prog fl mem).prog = prog from rfl, hget] at h1
        cases h1
        exact ⟨rfl, by rw [hpc]⟩
  obtain ⟨rfl, rfl⟩ := hs1
  rw [ofByte_code, vm_bind] at h
  split at h
  case h_2 => cases h
  rename_i u s2 h2
  have hlast : s'.th.error = s2.th.error ∧ s'.th.pc = s2.th.pc := by
    rw [vm_bind] at h
    cases h
    simp only [checkBreak]
    split <;> exact ⟨rfl, rfl⟩
  rw [hlast.1] at he ⊢
  rw [hlast.2]
  rcases hop with hr | hq | ⟨rfl, hn⟩ | ⟨rfl, hn⟩
  · have := (exec_adv prog fl mem hr).run _ _ _ h2
    left
    rw [this]
    dsimp only
    omega
  · exact absurd ((exec_quiet _ hq).run _ _ _ h2) he
  · obtain ⟨n, rfl⟩ := hn
    rcases ret_error h2 he with k | ⟨k1, k2⟩
    · left
      rw [k]
      dsimp only [width]
      omega
    · exact .inr (.inr ⟨n, rfl, k1, k2⟩)
  · obtain ⟨n, rfl⟩ := hn
    rcases icall_error prog fl mem h2 he with k | ⟨v, r, addr, k1, k2, k3, k4⟩
    · left
      rw [k]
      dsimp only [width]
      omega
    · exact .inr (.inl ⟨n, v, r, addr, rfl, k1, k2, k3, k4⟩)

/-- The errors `get_thread_error` has a name for. -/
def nameable (x : TErr) : Prop := x ≠ .bad_prepare ∧ x ≠ .bad_array_object

theorem cstr_clean {s : Str} (h : 0 ∉ s) : cstr s = s :=
  cstr_id fun b hb h0 => h (h0 ▸ hb)

/-- The enumerators of lib_vm/thread_error.h:7-29, in order; `none` where the text shown is missing. -/
def errorTexts : List (Option String) :=
  [some "e_success", some "e_max_cycle_count", none, some "e_bad_getv", some "e_bad_setv",
   some "e_bad_num_args", some "e_bad_syscall", some "e_bad_opcode", some "e_bad_set_global",
   some "e_bad_get_global", some "e_bad_pop", some "e_bad_divide_by_zero", some "e_stack_overflow",
   some "e_stack_underflow", some "e_bad_globals_size", some "e_bad_array_bounds", some "e_bad_array_index",
   none, some "e_bad_type_operation", some "e_bad_argument", some "e_bad_member_access"]

/-- C67: the number shown with an error and its name are those of the same line of the enumeration. -/
theorem C67_names (x : TErr) :
    (∃ t, errorTexts[x.number]? = some t ∧
      threadErrorName x = match t with | some n => .ok (str n) | none => .error .assert) ∧
    (∀ y : TErr, y.number = x.number → y = x) := by
  refine ⟨by cases x <;> exact ⟨_, rfl, rfl⟩, fun y => by cases x <;> cases y <;> first | exact fun _ => rfl | (intro h; cases h)⟩

example : errorTexts[TErr.bad_argument.number]? = some (some "e_bad_argument") ∧ errorTexts.length = 21 := ⟨rfl, rfl⟩

/-- C67 (partial): what is reported for an error.  The line is that of the instruction *behind* the one
that failed; if that has none, or the error has no name, an assertion fails instead.  The intended
statement, with the line of the failing instruction and without the assertions, is refuted below. -/
theorem C67_report_partial {fs : Str → Option Str} {fl : FloatOps} {n : Nat} {srcs srcs' : List Source}
    {sys : List (Str × Option Nat)} (hb : buildSources fs fl n 0 srcs [] (registered sys) = .ok (p, srcs'))
    (hsys : ∀ s ∈ sys, s.1 ≠ initName) (hc : Compiles L opt p q prog) (hsrc : ∀ s ∈ srcs, Numbered s)
    (hnul : ∀ s ∈ srcs', ∀ text, s.data = some text → 0 ∉ text ∧ text.length < 2147483647)
    (hmany : srcs'.length < 2147483648)
    (prog' : Program) (hprog : prog'.code = prog.code ∧ prog'.lines = prog.lines)
    (mem : MemOps P M) (s s' : St P M) (pc : Nat) (i : Ins)
    (bs rest : List Byte) (hpc : s.th.pc = pc) (hi : emitIns i = .ok bs) (hcode : prog.code.drop pc = bs ++ rest)
    (h : stepImp (Env.std prog' fl mem) s = .ok ((), s')) (he : s'.th.error ≠ s.th.error)
    (hs : s'.th.error ≠ .success) (hcall : ∀ k, i = .i1 .ICALL k → s'.th.error ≠ .bad_num_args)
    (hframe : s.th.frames ≠ []) :
    (onRuntimeError (Env.std prog' fl mem) s'.th srcs' = .error .assert ∧
      (¬ nameable s'.th.error ∨ prog.lines.get (i32 (pc + width i)) = Line.unknown)) ∨
    ∃ (name : Str) (file : Nat) (src : Source) (text : Str) (o : Nat) (t : Token) (w left right : Str),
      nameable s'.th.error ∧ threadErrorName s'.th.error = .ok name ∧
      prog.lines.get (i32 (pc + width i)) = ⟨i32 file, i32 (1 + (text.take o).count (ch '\n'))⟩ ∧
      srcs'[file]? = some src ∧ src.data = some text ∧ w <+: text.drop o ∧ Spells fl w t.line t ∧
      (splitLines text)[(text.take o).count (ch '\n')]? = some (left ++ w ++ right) ∧
      onRuntimeError (Env.std prog' fl mem) s'.th srcs' =
        .ok (str "runtime error " ++ decimal (i32 s'.th.error.number) ++ str "\nsource line " ++
          decimal (i32 (1 + (text.take o).count (ch '\n'))) ++ str "\n" ++ (left ++ w ++ right) ++ str "\n",
          name ++ str "\n") := by
  have hpc' : s'.th.pc = (pc + width i : Nat) := by
    rcases C67_error_pc prog' fl mem s s' pc i bs rest hpc hi (by rw [hprog.1]; exact hcode) h he with
      k | ⟨k, _, _, _, k1, _, _, k2, _⟩ | ⟨_, _, k, _⟩
    · exact k
    · exact absurd k2 (hcall k k1)
    · exact absurd k hframe
  have hline : sourceLine (Env.std prog' fl mem) s'.th = prog.lines.get (i32 (pc + width i)) := by
    unfold sourceLine
    rw [hpc', show (Env.std prog' fl mem).prog = prog' from rfl, hprog.2]
    rfl
  have hnamed : nameable s'.th.error → ∃ name, threadErrorName s'.th.error = .ok name := by
    intro hn
    unfold nameable at hn
    cases hx : s'.th.error <;> rw [hx] at hn <;> first | exact ⟨_, rfl⟩ | exact absurd rfl hn.1 | exact absurd rfl hn.2
  unfold onRuntimeError
  rw [if_neg hs, hline]
  dsimp only
  by_cases hn : nameable s'.th.error
  · obtain ⟨name, hname⟩ := hnamed hn
    rw [hname]
    dsimp only
    rcases C67_shown hb hsys hc hsrc hnul hmany (i32 (pc + width i)) with
      hu | ⟨file, src, text, o, t, w, left, right, k1, k2, k3, k4, k5, k6, k7, k8⟩
    · left
      rw [hu]
      exact ⟨rfl, .inr rfl⟩
    · right
      refine ⟨name, file, src, text, o, t, w, left, right, hn, rfl, k1, k2, k3, k4, k5, k7, ?_⟩
      rw [k6, k1]
      dsimp only
      rw [cstr_clean]
      · simp [str, i32]
      · intro h0
        refine (hnul src (List.mem_of_getElem? k2) text k3).1 ?_
        rw [← splitLines_flatten text]
        exact List.mem_flatten.2 ⟨_, List.mem_of_getElem? k7, h0⟩
  · left
    refine ⟨?_, .inl hn⟩
    unfold nameable at hn
    cases hx : s'.th.error <;> rw [hx] at hn <;> first | rfl | (exact absurd ⟨nofun, nofun⟩ hn)

end

/-! ### Programs -/

/-- A source in memory. -/
def memSrc (text : Str) : Source := ⟨str "m", some text, genLines text⟩

/-- What is read from it, and what is compiled. -/
def memRead (text : Str) : Prog Unit × List Source :=
  outOf ([], []) (buildSources (fun _ => none) toyFl 5 0 [memSrc text] [] (registered []))
def memProg (text : Str) : Program := outOf Program.empty (compile sampleLayout true (memRead text).1)

theorem mem_read {text : Str}
    (h : isOk (buildSources (fun _ => none) toyFl 5 0 [memSrc text] [] (registered [])) = true) :
    buildSources (fun _ => none) toyFl 5 0 [memSrc text] [] (registered []) = .ok ((memRead text).1, (memRead text).2) := by
  unfold memRead
  exact outOf_ok h

theorem mem_compiles {text : Str} (h : isOk (compile sampleLayout true (memRead text).1) = true) :
    ∃ q, Compiles sampleLayout true (memRead text).1 q (memProg text) :=
  compile_ok.1 (show compile sampleLayout true (memRead text).1 = .ok (memProg text) from outOf_ok h)

theorem mem_numbered (text : Str) : ∀ s ∈ [memSrc text], Numbered s := by
  intro s hs
  obtain rfl := List.mem_singleton.1 hs
  intro t ht
  cases ht
  rfl

/-- Run `main` for at most `n` instructions; the machine before and after the last one. -/
def memRun (text : Str) (n : Nat) : Option (St Val Store) :=
  let prog := driverResolve (memProg text)
  let e := Env.std prog toyFl Mem.abs
  match prog.findByName (str "main") with
  | none => none
  | some f =>
    match (session e (newVm Io.fresh) [.init, .spawn f [], .steps 0 (List.replicate n false)]).2 with
    | .ok ⟨m, g, t :: ts, io⟩ => some { th := t, mem := m, globals := g, before := [], after := ts, io := io }
    | _ => none

/-- What is reported then. -/
def memReport (text : Str) (n : Nat) : Option (TErr × Out (Str × Str)) :=
  (memRun text n).map fun s =>
    (s.th.error, onRuntimeError (Env.std (driverResolve (memProg text)) toyFl Mem.abs) s.th (memRead text).2)

/-- An assignment outside an array in line 3. -/
def lateText : Str := str "function main()\n  var a = [1, 2]\n  a[5] = 1\n  return 7\nend\n"

/-- C67: the intended statement does not hold.  The error of line 3 is reported for line 4. -/
theorem C67_wrong_line : memReport lateText 50 = some (.bad_array_bounds,
    .ok (str "runtime error 15\nsource line 4\n  return 7\n\n", str "e_bad_array_bounds\n")) := by
  decide +kernel

/-- C67: the error of line 4 is reported for line 1, where a constant of the expression is declared. -/
theorem C67_constant_line :
    memReport (str "const k = 5\nfunction main()\n  var a = 1\n  return (a / 0) + k\nend\n") 50 =
      some (.bad_divide_by_zero,
        .ok (str "runtime error 11\nsource line 1\nconst k = 5\n\n", str "e_bad_divide_by_zero\n")) := by
  decide +kernel

/-- C67: an error in the last statement of the first branch of an `if` with `else` fails an assertion:
the jump behind it has no line. -/
theorem C67_no_line :
    memReport (str "function main()\n  var a = [1]\n  if (a)\n    a[5] = 1\n  else\n    a = 2\n  end\nend\n") 50 =
      some (.bad_array_bounds, .error .assert) := by
  decide +kernel

/-- C67: assigning to an element of an integer raises an error without a name. -/
theorem C67_no_name :
    memReport (str "function main()\n  var a = 1\n  a[0] = 1\n  return 7\nend\n") 50 =
      some (.bad_array_object, .error .assert) := by
  decide +kernel

/-- `C67_function` and `C67_shown` for a program with a constant. -/
def twoText : Str := str "const k = 5\nvar g = k\nfunction f(x)\n  return x + k\nend\n"

theorem two_read : buildSources (fun _ => none) toyFl 5 0 [memSrc twoText] [] (registered []) =
    .ok ((memRead twoText).1, (memRead twoText).2) := mem_read (by decide +kernel)

theorem two_init : ∀ x ∈ (memRead twoText).1, x.declName ≠ initName := C60_names (by simp) two_read

theorem two_literals : ∀ x ∈ (memRead twoText).1, literals x = true :=
  List.all_eq_true.1 (by decide +kernel)

/-- The words of `f`: its name, those of its body (`return`, `+`, `x`, `k`) and its `end`; those of the
constants: `5`. -/
example : ((memRead twoText).1.map fun x => (words x).length) = [2, 2, 6] ∧
    (constWords (memRead twoText).1).length = 1 := by decide +kernel

example : ∃ F ∈ (memProg twoText).functions, F.name = str "f" ∧ ∃ x ∈ (memRead twoText).1, x.declName = F.name ∧
    Lined (memProg twoText) F (fun t => t ∈ words x ∨ t ∈ constWords (memRead twoText).1)
      (fun i => (∃ v, i = .i1 .JMP v) ∨ ∃ v, i = .i1 .NEW_INT v) := by
  obtain ⟨q, hq⟩ := mem_compiles (text := twoText) (by decide +kernel)
  have hf : ((memProg twoText).functions.any fun F => F.name == str "f") = true := by decide +kernel
  obtain ⟨F, hF, hn⟩ := List.any_eq_true.1 hf
  have hn := eq_of_beq hn
  exact ⟨F, hF, hn, C67_function hq two_init two_literals F hF (by rw [hn]; decide +kernel)⟩

/-- `C67_init` for it. -/
example : ∃ F ∈ (memProg twoText).functions, F.name = initName ∧
    Lined (memProg twoText) F (fun t => ∃ x ∈ (memRead twoText).1, t ∈ words x)
      (fun i => (∃ v, i = .i1 .JMP v) ∨ (∃ v, i = .i1 .NEW_INT v) ∨ (∃ v, i = .i1 .GLOBALS v) ∨ ∃ v, i = .i1 .RET v) := by
  obtain ⟨q, hq⟩ := mem_compiles (text := twoText) (by decide +kernel)
  have hf : ((memProg twoText).functions.any fun F => F.name == initName) = true := by decide +kernel
  obtain ⟨F, hF, hn⟩ := List.any_eq_true.1 hf
  exact ⟨F, hF, eq_of_beq hn, C67_init hq two_init two_literals F hF (eq_of_beq hn)⟩

/-- The lines of its code: `x` in line 4, `k` in line 1, `+` and `return` in line 4; in `@init` the value of `g`
in line 1 and its assignment in line 2. -/
example : (memProg twoText).lines.map (fun e => (e.1.toNat, e.2.line.toNat)) =
    [(0, 4), (5, 1), (10, 4), (11, 4), (21, 1), (26, 2)] := by decide +kernel

/-- `C67_shown` for it. -/
example (a : I32) : (memProg twoText).lines.get a = Line.unknown ∨
    ∃ w left right, managerLine (memRead twoText).2 ((memProg twoText).lines.get a) = .ok (left ++ w ++ right) := by
  obtain ⟨q, hq⟩ := mem_compiles (text := twoText) (by decide +kernel)
  have hsrc : (memRead twoText).2 = [memSrc twoText] := by decide +kernel
  rcases C67_shown two_read (by simp) hq (mem_numbered _) (by
      rw [hsrc]
      intro s hs text ht
      obtain rfl := List.mem_singleton.1 hs
      cases ht
      exact ⟨by decide +kernel, by decide +kernel⟩) (by rw [hsrc]; decide) a with h | ⟨_, _, _, _, _, w, l, r, _, _, _, _, _, h, _⟩
  · exact .inl h
  · exact .inr ⟨w, l, r, h⟩

/-- `C67_error_pc` and `C67_report_partial` for `lateText`: the machine before and after the assignment. -/
def lateBefore : St Val Store := ((memRun lateText 8).getD
  { th := Thread.fresh, mem := [], globals := [], before := [], after := [], io := Io.fresh })
def lateEnv : Env Val Store := Env.std (driverResolve (memProg lateText)) toyFl Mem.abs

theorem late_step {e : Env Val Store} {s : St Val Store} {x : TErr}
    (h : (match stepImp e s with | .ok (_, s') => s'.th.error == x | .error _ => false) = true) :
    ∃ s', stepImp e s = .ok ((), s') ∧ s'.th.error = x := by
  split at h
  · rename_i s' h1
    exact ⟨s', h1, eq_of_beq h⟩
  · cases h

attribute [local irreducible] memProg memRead lateBefore lateText in
example : ∃ s', stepImp lateEnv lateBefore = .ok ((), s') ∧ s'.th.error = .bad_array_bounds ∧ s'.th.pc = 41 ∧
    ∃ (name : Str) (k : Nat) (line : Str), (splitLines lateText)[k]? = some line ∧
      onRuntimeError lateEnv s'.th [memSrc lateText] =
        .ok (str "runtime error 15\nsource line " ++ decimal (i32 (1 + k)) ++ str "\n" ++ line ++ str "\n",
          name ++ str "\n") := by
  obtain ⟨s', h, hx⟩ : ∃ s', stepImp lateEnv lateBefore = .ok ((), s') ∧ s'.th.error = .bad_array_bounds :=
    late_step (by decide +kernel)
  have hsrc : (memRead lateText).2 = [memSrc lateText] := by decide +kernel
  obtain ⟨q, hq⟩ := mem_compiles (text := lateText) (by decide +kernel)
  have hpc : lateBefore.th.pc = (40 : Nat) := by decide +kernel
  have hcode : (memProg lateText).code.drop 40 = [Op.SETA.code] ++ (memProg lateText).code.drop 41 := by decide +kernel
  have he : s'.th.error ≠ lateBefore.th.error := by
    rw [hx, show lateBefore.th.error = .success by decide +kernel]
    nofun
  have hfr : lateBefore.th.frames ≠ [] := by decide +kernel
  refine ⟨s', h, hx, ?_, ?_⟩
  · rcases C67_error_pc (driverResolve (memProg lateText)) toyFl Mem.abs _ _ 40 (.i0 .SETA) [Op.SETA.code] _ hpc rfl hcode h he with k | ⟨_, _, _, _, k, _⟩ | ⟨_, k, _⟩
    · exact k
    · cases k
    · cases k
  · have hread := mem_read (text := lateText) (by decide +kernel)
    rcases C67_report_partial hread (by simp) hq (mem_numbered _) (by
      rw [hsrc]
      intro s hs text ht
      obtain rfl := List.mem_singleton.1 hs
      cases ht
      exact ⟨by decide +kernel, by decide +kernel⟩) (by rw [hsrc]; decide) (driverResolve (memProg lateText)) ⟨rfl, rfl⟩
      Mem.abs lateBefore s' 40 (.i0 .SETA) [Op.SETA.code] _ hpc rfl hcode h he (by rw [hx]; nofun) (by nofun) hfr with
      ⟨_, k | k⟩ | ⟨name, file, src, text, o, t, w, l, r, _, _, _, k1, k2, _, _, k3, k4⟩
    · exact absurd (show nameable s'.th.error by rw [hx]; exact ⟨nofun, nofun⟩) k
    · exact absurd k (by decide +kernel)
    · rw [hsrc] at k1 k4
      have : text = lateText := by
        cases file with
        | zero => cases k1; cases k2; rfl
        | succ n => cases k1
      subst this
      refine ⟨name, _, l ++ w ++ r, k3, ?_⟩
      rw [hx] at k4
      exact k4

end Ccml.Props
