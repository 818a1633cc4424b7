import Verif.TokFacts
import Verif.TraceProg
import Verif.ProgramLemmas
/-!
The line table of generated code: which token every instruction gets its line from.
-/
namespace Ccml.Toks
open Ccml
variable {T C : Token → Prop} {Q : Nat → Token → Prop}

/-! ### The tokens of instructions -/

/-- An instruction gets its line from a token with `T`.  Only jumps and integer literals may have none. -/
def A1 (T : Token → Prop) (x : AIns × Option Token) : Prop :=
  match x.2 with
  | some t => T t
  | none => (∃ v, x.1 = .ins (.i1 .JMP v)) ∨ ∃ v, x.1 = .ins (.i1 .NEW_INT v)

/-- The same of all instructions of a list. -/
def A (T : Token → Prop) (l : Asm) : Prop := ∀ x ∈ l, A1 T x

theorem A.nil : A T [] := by intro x hx; cases hx

theorem A.append {a b : Asm} (h : A T a) (k : A T b) : A T (a ++ b) := by
  intro x hx
  rcases List.mem_append.1 hx with hx | hx
  · exact h x hx
  · exact k x hx

theorem A.one {i : Ins} {t : Token} (h : T t) : A T (one i (some t)) := by
  intro x hx
  cases List.mem_singleton.1 hx
  exact h

theorem A.jmp {v : I32} : A T (Ccml.one (.i1 .JMP v) none) := by
  intro x hx
  cases List.mem_singleton.1 hx
  exact .inl ⟨v, rfl⟩

theorem A.int {v : I32} {t : Option Token} (h : ∀ k ∈ t, T k) : A T (Ccml.one (.i1 .NEW_INT v) t) := by
  cases t with
  | some t => exact A.one (h t rfl)
  | none =>
    intro x hx
    cases List.mem_singleton.1 hx
    exact .inr ⟨v, rfl⟩

theorem A.some {i : Ins} {t : Option Token} (h : ∃ k, t = some k ∧ T k) : A T (Ccml.one i t) := by
  obtain ⟨k, rfl, hk⟩ := h
  exact A.one hk

theorem asmGet_toks {cx : GenCtx} {r : Ref} {t : Token} {a : Asm} (ht : T t) (h : asmGet cx r (.some t) = .ok a) :
    A T a := by
  unfold asmGet at h
  obtain ⟨x, -, h⟩ := bind_ok.1 h
  cases h
  exact A.one ht

theorem asmSet_toks {cx : GenCtx} {r : Ref} {t : Token} {a : Asm} (ht : T t) (h : asmSet cx r (.some t) = .ok a) :
    A T a := by
  unfold asmSet at h
  obtain ⟨x, -, h⟩ := bind_ok.1 h
  cases h
  exact A.one ht

theorem asmIdent_toks {cx : GenCtx} {sys : List Syscall} {r : Ref} {t : Token} {a : Asm} (ht : T t)
    (h : asmIdent cx sys t r = .ok a) : A T a := by
  unfold asmIdent at h
  split at h
  · split at h
    · cases h
      intro x hx
      cases List.mem_singleton.1 hx
      exact ht
    · split at h
      · cases h; exact A.one ht
      · cases h
    · exact asmGet_toks ht h
  · exact asmGet_toks ht h

theorem asmInvoke_toks {cx : GenCtx} {sys : List Syscall} {t : Token} {c : Expr Ref} {n : Nat} {callee : Out Asm}
    {a : Asm} (ht : T t) (hc : E T c) (hcal : ∀ b, callee = .ok b → A T b)
    (h : asmInvoke cx sys t c n callee = .ok a) : A T a := by
  have ind : ∀ {a}, (do let a ← callee; .ok (a ++ Ccml.one (.i1 .ICALL (i32 n)) (.some t)) : Out Asm) = .ok a → A T a := by
    intro a h
    obtain ⟨b, hb, h⟩ := bind_ok.1 h
    cases h
    exact (hcal b hb).append (A.one ht)
  unfold asmInvoke at h
  dsimp only at h
  split at h
  · split at h
    · split at h
      · cases h
        intro x hx
        cases List.mem_singleton.1 hx
        exact ht
      · cases h
    · split at h
      · split at h
        · cases h
          simp only [E] at hc
          exact A.one hc
        · cases h
      · cases h
    · exact ind h
  · exact ind h

mutual
theorem asmE_toks {cx : GenCtx} {sys : List Syscall} : ∀ {si : Nat} {e : Expr Ref} {a : Asm}, E T e →
    asmE cx sys si e = .ok a → A T a
  | si, .ident t r, a, hs, h => by rw [asmE] at h; simp only [E] at hs; exact asmIdent_toks hs h
  | si, .int v t c, a, hs, h => by rw [asmE] at h; cases h; simp only [E] at hs; exact A.int hs
  | si, .float v t, a, hs, h => by rw [asmE] at h; cases h; simp only [E] at hs; exact A.some hs
  | si, .str v t, a, hs, h => by rw [asmE] at h; cases h; simp only [E] at hs; exact A.some hs
  | si, .none t, a, hs, h => by rw [asmE] at h; cases h; simp only [E] at hs; exact A.some hs
  | si, .member t m r, a, hs, h => by
    rw [asmE] at h; simp only [E] at hs
    obtain ⟨g, hg, h⟩ := bind_ok.1 h
    cases h
    exact (asmGet_toks hs.1 hg).append (A.one hs.2)
  | si, .arr t es, a, hs, h => by
    rw [asmE] at h; simp only [E] at hs
    obtain ⟨g, hg, h⟩ := bind_ok.1 h
    split at h
    · cases h
    · cases h
      exact (asmEs_toks hs.2 hg).append (A.one hs.1)
  | si, .deref t l i, a, hs, h => by
    rw [asmE] at h; simp only [E] at hs
    obtain ⟨b, hb, h⟩ := bind_ok.1 h
    obtain ⟨c, hc, h⟩ := bind_ok.1 h
    cases h
    exact ((asmE_toks hs.2.2 hb).append (asmE_toks hs.2.1 hc)).append (A.one hs.1)
  | si, .call t c as, a, hs, h => by
    rw [asmE] at h; simp only [E] at hs
    obtain ⟨b, hb, h⟩ := bind_ok.1 h
    obtain ⟨d, hd, h⟩ := bind_ok.1 h
    cases h
    exact (asmEs_toks hs.2.2 hb).append (asmInvoke_toks hs.1 hs.2.1 (fun _ hk => asmE_toks hs.2.1 hk) hd)
  | si, .bin op l r, a, hs, h => by
    rw [asmE] at h; simp only [E] at hs
    obtain ⟨b, hb, h⟩ := bind_ok.1 h
    obtain ⟨c, hc, h⟩ := bind_ok.1 h
    obtain ⟨o, ho, h⟩ := bind_ok.1 h
    cases h
    exact ((asmE_toks hs.2.1 hb).append (asmE_toks hs.2.2 hc)).append (A.one hs.1)
  | si, .un op e, a, hs, h => by
    rw [asmE] at h; simp only [E] at hs
    obtain ⟨b, hb, h⟩ := bind_ok.1 h
    split at h
    · cases h; exact (asmE_toks hs.2 hb).append (A.one hs.1)
    · cases h; exact (asmE_toks hs.2 hb).append (A.one hs.1)
    · cases h; exact asmE_toks hs.2 hb
theorem asmEs_toks {cx : GenCtx} {sys : List Syscall} : ∀ {si : Nat} {es : List (Expr Ref)} {a : Asm}, Es T es →
    asmEs cx sys si es = .ok a → A T a
  | si, [], a, hs, h => by rw [asmEs] at h; cases h; exact A.nil
  | si, e :: es, a, hs, h => by
    rw [asmEs] at h; simp only [Es] at hs
    obtain ⟨b, hb, h⟩ := bind_ok.1 h
    obtain ⟨c, hc, h⟩ := bind_ok.1 h
    cases h
    exact (asmE_toks hs.1 hb).append (asmEs_toks hs.2 hc)
end

mutual
theorem asmS_toks {cx : GenCtx} {sys : List Syscall} : ∀ {pc si : Nat} {s : Stmt Ref} {a : Asm}, S T s →
    asmS cx sys pc si s = .ok a → A T a
  | pc, si, .var t r .none, a, hs, h => by rw [asmS] at h; cases h; exact A.nil
  | pc, si, .var t r (.some e), a, hs, h => by
    rw [asmS] at h; simp only [S, O] at hs
    obtain ⟨b, hb, h⟩ := bind_ok.1 h
    cases h
    exact (asmE_toks hs.2 hb).append (A.one hs.1)
  | pc, si, .assign t r e, a, hs, h => by
    rw [asmS] at h; simp only [S] at hs
    obtain ⟨b, hb, h⟩ := bind_ok.1 h
    obtain ⟨c, hc, h⟩ := bind_ok.1 h
    cases h
    exact (asmE_toks hs.2 hb).append (asmSet_toks hs.1 hc)
  | pc, si, .assignArr t r i e, a, hs, h => by
    rw [asmS] at h; simp only [S] at hs
    obtain ⟨b, hb, h⟩ := bind_ok.1 h
    obtain ⟨c, hc, h⟩ := bind_ok.1 h
    obtain ⟨d, hd, h⟩ := bind_ok.1 h
    cases h
    exact (((asmE_toks hs.2.2 hb).append (asmE_toks hs.2.1 hc)).append (asmGet_toks hs.1 hd)).append (A.one hs.1)
  | pc, si, .assignMem t m r e, a, hs, h => by
    rw [asmS] at h; simp only [S] at hs
    obtain ⟨b, hb, h⟩ := bind_ok.1 h
    obtain ⟨d, hd, h⟩ := bind_ok.1 h
    cases h
    exact ((asmE_toks hs.2.2 hb).append (asmGet_toks hs.1 hd)).append (A.one hs.2.1)
  | pc, si, .call t c as, a, hs, h => by
    rw [asmS] at h; simp only [S] at hs
    obtain ⟨b, hb, h⟩ := bind_ok.1 h
    obtain ⟨d, hd, h⟩ := bind_ok.1 h
    cases h
    exact ((asmEs_toks hs.2.2 hb).append
      (asmInvoke_toks hs.1 hs.2.1 (fun _ hk => asmE_toks hs.2.1 hk) hd)).append (A.one hs.1)
  | pc, si, .ifS t c thn he els, a, hs, h => by
    rw [asmS] at h; simp only [S] at hs
    obtain ⟨b, hb, h⟩ := bind_ok.1 h
    obtain ⟨d, hd, h⟩ := bind_ok.1 h
    have h1 := asmE_toks hs.2.1 hb
    have h2 := asmB_toks hs.2.2.1 hd
    split at h
    · cases h
      exact (h1.append (A.one hs.1)).append h2
    · obtain ⟨g, hg, h⟩ := bind_ok.1 h
      cases h
      exact (((h1.append (A.one hs.1)).append h2).append A.jmp).append (asmB_toks hs.2.2.2 hg)
  | pc, si, .whileS t c body, a, hs, h => by
    rw [asmS] at h; simp only [S] at hs
    obtain ⟨b, hb, h⟩ := bind_ok.1 h
    obtain ⟨d, hd, h⟩ := bind_ok.1 h
    cases h
    exact (((A.one hs.1).append (asmB_toks hs.2.2 hb)).append (asmE_toks hs.2.1 hd)).append (A.one hs.1)
  | pc, si, .forS t n r start stop body, a, hs, h => by
    rw [asmS] at h; simp only [S] at hs
    obtain ⟨b, hb, h⟩ := bind_ok.1 h
    obtain ⟨s0, hs0, h⟩ := bind_ok.1 h
    obtain ⟨d, hd, h⟩ := bind_ok.1 h
    obtain ⟨g, hg, h⟩ := bind_ok.1 h
    obtain ⟨s1, hs1, h⟩ := bind_ok.1 h
    obtain ⟨z, hz, h⟩ := bind_ok.1 h
    cases h
    have kg := asmGet_toks hs.1 hg
    exact (((((((((((asmE_toks hs.2.2.1 hb).append (asmSet_toks hs.2.1 hs0)).append (A.one hs.1)).append
      (asmB_toks hs.2.2.2.2 hd)).append kg).append (A.one hs.1)).append (A.one hs.1)).append
      (asmSet_toks hs.1 hs1)).append kg).append (asmE_toks hs.2.2.2.1 hz)).append (A.one hs.1)).append (A.one hs.1)
  | pc, si, .ret t .none, a, hs, h => by
    rw [asmS] at h; simp only [S] at hs
    cases h
    exact (A.one hs.1).append (A.one hs.1)
  | pc, si, .ret t (.some e), a, hs, h => by
    rw [asmS] at h; simp only [S, O] at hs
    obtain ⟨b, hb, h⟩ := bind_ok.1 h
    cases h
    exact (asmE_toks hs.2 hb).append (A.one hs.1)
theorem asmB_toks {cx : GenCtx} {sys : List Syscall} : ∀ {pc si : Nat} {ss : List (Stmt Ref)} {a : Asm}, B T ss →
    asmB cx sys pc si ss = .ok a → A T a
  | pc, si, [], a, hs, h => by rw [asmB] at h; cases h; exact A.nil
  | pc, si, s :: ss, a, hs, h => by
    rw [asmB] at h; simp only [B] at hs
    obtain ⟨b, hb, h⟩ := bind_ok.1 h
    obtain ⟨d, hd, h⟩ := bind_ok.1 h
    cases h
    exact (asmS_toks hs.1 hb).append (asmB_toks hs.2 hd)
end

theorem asmFunc_toks {p : Prog Ref} {sys : List Syscall} {pc si : Nat} {f : FuncDecl Ref} {a : Asm}
    (hf : T f.name ∧ B T f.body ∧ T f.stop) (h : asmFunc p sys pc si f = .ok a) : A T a := by
  unfold asmFunc at h
  obtain ⟨b, hb, h⟩ := bind_ok.1 h
  cases h
  refine (A.append ?_ (asmB_toks hf.2.1 hb)).append ?_
  · unfold asmLocals
    split
    · exact A.one hf.1
    · exact A.nil
  · unfold asmEnd
    split
    · exact A.nil
    · exact (A.one hf.2.2).append (A.one hf.2.2)

theorem initFrom_toks : ∀ {p : Prog Ref} {i k : Nat}, P Q C k p → B (fun t => ∃ i, Q i t) (initFrom i p)
  | [], i, k, hp => by simp only [initFrom, B]
  | x :: xs, i, k, hp => by
    have hx := hp.head
    have ih := initFrom_toks (i := i + 1) hp.tail
    cases x with
    | var t c init =>
      cases init with
      | none => simpa only [initFrom] using ih
      | some e =>
        cases c with
        | true => simpa only [initFrom] using ih
        | false =>
          simp only [initFrom, B, S]
          exact ⟨⟨⟨k, hx.1⟩, E.mono (fun t h => ⟨k, h⟩) hx.2.1⟩, ih⟩
    | func f => simpa only [initFrom] using ih
    | syscall n a => simpa only [initFrom] using ih

theorem segs_toks {p : Prog Ref} {sys : List Syscall} : ∀ {xs : Prog Ref} {pc si k : Nat} {segs : List Seg},
    P Q C k xs → segsOf p sys pc si xs = .ok segs →
    ∀ s ∈ segs, ∃ i f, xs[i]? = some (.func f) ∧ s.name = f.name.str ∧ A (Q (k + i)) s.asm
  | [], pc, si, k, segs, hp, h => by simp only [segsOf] at h; cases h; intro s hs; cases hs
  | x :: xs, pc, si, k, segs, hp, h => by
    have rest : ∀ {pc si segs}, segsOf p sys pc si xs = .ok segs → ∀ s ∈ segs,
        ∃ i f, (x :: xs)[i]? = some (.func f) ∧ s.name = f.name.str ∧ A (Q (k + i)) s.asm := by
      intro pc si segs h s hs
      obtain ⟨i, f, h1, h2, h3⟩ := segs_toks hp.tail h s hs
      exact ⟨i + 1, f, h1, h2, by rwa [show k + (i + 1) = k + 1 + i from by omega]⟩
    have hx := hp.head
    cases x with
    | var t c init => simp only [segsOf] at h; exact rest h
    | syscall n a => simp only [segsOf] at h; exact rest h
    | func f =>
      simp only [segsOf] at h
      obtain ⟨a, ha, h⟩ := bind_ok.1 h
      obtain ⟨r, h2, h⟩ := bind_ok.1 h
      cases h
      intro s hs
      rcases List.mem_cons.1 hs with rfl | hs
      · exact ⟨0, f, rfl, rfl, asmFunc_toks hx ha⟩
      · exact rest h2 s hs

/-! ### The table -/

/-- The token of the instruction that starts at `k`. -/
def tokAt (pos : Nat) : Asm → Nat → Option Token
  | [], _ => none
  | x :: l, k => if k = pos then x.2 else tokAt (pos + x.1.width) l k

/-- The entries in order. -/
def entriesAt (pos : Nat) : Asm → LineTable
  | [] => []
  | x :: l =>
    match x.2 with
    | some t => (i32 pos, t.line.toLine) :: entriesAt (pos + x.1.width) l
    | none => entriesAt (pos + x.1.width) l

theorem width_pos (x : AIns) : 0 < x.width := by
  cases x with
  | ins i => cases i <;> simp [AIns.width, Ins.width]
  | _ => simp [AIns.width]

theorem entries_ge : ∀ {l : Asm} {pos : Nat}, pos + widthOf l < 2147483648 → ∀ e ∈ entriesAt pos l,
    (pos : Int) ≤ e.1.toInt
  | [], pos, _, e, he => by cases he
  | x :: l, pos, h, e, he => by
    have hw := width_pos x.1
    simp only [widthOf] at h
    have rest : e ∈ entriesAt (pos + x.1.width) l → (pos : Int) ≤ e.1.toInt := by
      intro he
      have := entries_ge (by omega) e he
      omega
    rw [entriesAt] at he
    split at he
    · rcases List.mem_cons.1 he with rfl | he
      · show (pos : Int) ≤ (i32 pos).toInt
        rw [toInt_i32 (by omega)]
        exact Int.le_refl _
      · exact rest he
    · exact rest he

theorem entries_mem {e : I32 × Line} : ∀ {l : Asm} {pos : Nat}, e ∈ entriesAt pos l →
    ∃ x ∈ l, ∃ t, x.2 = some t ∧ e.2 = t.line.toLine
  | [], pos, h => by cases h
  | x :: l, pos, h => by
    have rest : e ∈ entriesAt (pos + x.1.width) l → ∃ y ∈ x :: l, ∃ t, y.2 = some t ∧ e.2 = t.line.toLine := by
      intro h
      obtain ⟨y, hy, h⟩ := entries_mem h
      exact ⟨y, by simp [hy], h⟩
    rw [entriesAt] at h
    split at h
    · rename_i t ht
      rcases List.mem_cons.1 h with rfl | h
      · exact ⟨x, by simp, t, ht, rfl⟩
      · exact rest h
    · exact rest h

theorem linesAt_entries : ∀ {l : Asm} {pos : Nat} {ls : LineTable}, pos + widthOf l < 2147483648 →
    (∀ e ∈ ls, e.1.toInt < pos) → linesAt ls pos l = ls ++ entriesAt pos l
  | [], pos, ls, _, _ => by simp [linesAt, entriesAt]
  | x :: l, pos, ls, h, hls => by
    have hw := width_pos x.1
    simp only [widthOf] at h
    rw [linesAt, entriesAt]
    cases hx : x.2 with
    | none =>
      dsimp only [setLine]
      exact linesAt_entries (by omega) fun e he => by have := hls e he; omega
    | some t =>
      dsimp only [setLine]
      rw [LineTable.set_last (by
        intro e he
        have := hls e he
        show e.1.toInt < (i32 pos).toInt
        rw [toInt_i32 (by omega)]
        exact this)]
      rw [linesAt_entries (by omega) (by
        intro e he
        rcases List.mem_append.1 he with he | he
        · have := hls e he; omega
        · cases List.mem_singleton.1 he
          show (i32 pos).toInt < _
          rw [toInt_i32 (by omega)]
          omega)]
      rw [List.append_assoc]
      rfl

theorem get_entries : ∀ {l : Asm} {pos k : Nat}, pos + widthOf l < 2147483648 → k < 2147483648 →
    LineTable.get (entriesAt pos l) (i32 k) = ((tokAt pos l k).map (·.line.toLine)).getD Line.unknown
  | [], pos, k, _, _ => rfl
  | x :: l, pos, k, h, hk => by
    have hw := width_pos x.1
    simp only [widthOf] at h
    have ih := get_entries (l := l) (pos := pos + x.1.width) (k := k) (by omega) hk
    rw [entriesAt, tokAt]
    by_cases hkp : k = pos
    · subst hkp
      rw [if_pos rfl]
      cases hx : x.2 with
      | some t => simp [LineTable.get]
      | none =>
        dsimp only
        unfold LineTable.get
        rw [List.find?_eq_none.2]
        · rfl
        · intro e he
          have := entries_ge (by omega) e he
          simp only [beq_iff_eq]
          intro hc
          rw [hc, toInt_i32 hk] at this
          omega
    · rw [if_neg hkp]
      cases hx : x.2 with
      | some t =>
        dsimp only
        rw [← ih]
        unfold LineTable.get
        rw [List.find?_cons_of_neg]
        simp only [beq_iff_eq]
        intro hc
        have := congrArg BitVec.toInt hc
        rw [toInt_i32 (by omega), toInt_i32 hk] at this
        omega
      | none => exact ih

theorem tokAt_append : ∀ {a b : Asm} {pos k : Nat}, tokAt pos (a ++ b) k =
    if k < pos + widthOf a then tokAt pos a k else tokAt (pos + widthOf a) b k
  | [], b, pos, k => by
    show tokAt pos b k = if k < pos then tokAt pos [] k else tokAt pos b k
    by_cases h : k < pos
    · rw [if_pos h]
      have : ∀ (l : Asm) (pos : Nat), k < pos → tokAt pos l k = none := by
        intro l
        induction l with
        | nil => intro _ _; rfl
        | cons x l ih => intro pos h; rw [tokAt, if_neg (by omega), ih _ (by omega)]
      rw [this b pos h]
      rfl
    · rw [if_neg h]
  | x :: a, b, pos, k => by
    have hw := width_pos x.1
    rw [List.cons_append, tokAt, tokAt, widthOf, tokAt_append]
    by_cases hk : k = pos
    · rw [if_pos hk, if_pos hk, if_pos (by omega)]
    · rw [if_neg hk, if_neg hk, ← Nat.add_assoc]

theorem tokAt_mem : ∀ {l : Asm} {pos k : Nat} {t : Token}, tokAt pos l k = some t → ∃ x ∈ l, x.2 = some t
  | [], _, _, _, h => by cases h
  | x :: l, pos, k, t, h => by
    rw [tokAt] at h
    split at h
    · exact ⟨x, by simp, h⟩
    · obtain ⟨y, hy, h⟩ := tokAt_mem h
      exact ⟨y, by simp [hy], h⟩

end Ccml.Toks
