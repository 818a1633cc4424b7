import Verif.Bounds
/-!
The heights of the value stack that go with generated code (proof infrastructure).  Heights are
counted from the stack pointer of the frame: 0 at the start of a function, `loc` while no operand is
on the stack.
-/
set_option linter.unusedSimpArgs false
namespace Ccml

/-- The height after an instruction. -/
def AIns.after (h : Nat) : AIns → Nat
  | .ins (.i0 o) =>
    match o with
    | .NOT | .NEG => h
    | .NEW_NONE => h + 1
    | .SETA => h - 3
    | _ => h - 1
  | .ins (.i1 o v) =>
    match o with
    | .NEW_INT | .NEW_FLT | .NEW_STR | .NEW_SCALL | .GETV | .GETG => h + 1
    | .SETV | .SETG | .POP | .TJMP | .FJMP | .RET => h - 1
    | .SETM => h - 2
    | .ARY_INIT => h + 1 - v.toNat
    | .ICALL => h - v.toNat
    | .LOCALS => h + v.toNat
    | _ => h
  | .ins (.i2 _ n _) => h + 1 - n.toNat
  | .call n _ => h + 1 - n.toNat
  | .fn _ => h + 1

/-- The height after a list of instructions. -/
def heightAt (h : Nat) : Asm → Nat
  | [] => h
  | x :: l => heightAt (x.1.after h) l

theorem heightAt_append (h : Nat) (a b : Asm) : heightAt h (a ++ b) = heightAt (heightAt h a) b := by
  induction a generalizing h with
  | nil => rfl
  | cons x a ih => exact ih _

/-- An instruction finds its operands above the local variables; `T p h` says that position `p` may be
jumped to at height `h`. -/
def Needs (q : Prog Ref) (sys : List Syscall) (loc sp : Nat) (T : Nat → Nat → Prop) (h : Nat) : AIns → Prop
  | .ins (.i0 o) =>
    match o with
    | .NOT | .NEG => loc + 1 ≤ h
    | .NEW_NONE => loc ≤ h
    | .SETA => loc + 3 ≤ h
    | .ADD | .SUB | .MUL | .DIV | .MOD | .AND | .OR | .LT | .GT | .LEQ | .GEQ | .EQ | .DEREF => loc + 2 ≤ h
    | _ => False
  | .ins (.i1 o v) =>
    match o with
    | .NEW_INT | .NEW_FLT | .NEW_STR | .GETV => loc ≤ h
    | .GETG => loc ≤ h ∧ ∃ i, v = i32 (globalOffset q i)
    | .NEW_SCALL => loc ≤ h ∧ ∃ s j, Item.syscall s none ∈ q ∧ sysIndex sys s = some j ∧ v = i32 j
    | .SETV | .GETM => loc + 1 ≤ h
    | .SETG => loc + 1 ≤ h ∧ ∃ i, v = i32 (globalOffset q i)
    | .POP => v = 1 ∧ loc + 1 ≤ h
    | .SETM => loc + 2 ≤ h
    | .TJMP | .FJMP => loc + 1 ≤ h ∧ ∃ p, v = i32 p ∧ T p (h - 1)
    | .JMP => ∃ p, v = i32 p ∧ T p h
    | .RET => h = loc + 1 ∧ v = i32 sp
    | .ARY_INIT => ∃ n, v = i32 n ∧ 0 < n ∧ n < 2147483648 ∧ loc + n ≤ h
    | .ICALL => ∃ n, v = i32 n ∧ n < 2147483648 ∧ loc + n + 1 ≤ h
    | .LOCALS => h = 0 ∧ v = i32 loc
    | .GLOBALS => v = i32 (q.countP Item.isSlot)
    | _ => False
  | .ins (.i2 o n v) => o = .SCALL ∧ ∃ k, n = i32 k ∧ k < 2147483648 ∧ loc + k ≤ h ∧
      ∃ s a j, Item.syscall s a ∈ q ∧ sysIndex sys s = some j ∧ v = i32 j ∧ (a = none ∨ a = some k)
  | .call n f => ∃ F, Item.func F ∈ q ∧ F.name.str = f ∧ n = i32 F.args.length ∧
      F.args.length < 2147483648 ∧ loc + F.args.length ≤ h
  | .fn f => loc ≤ h ∧ ∃ F, Item.func F ∈ q ∧ F.name.str = f

/-- All of them do. -/
def AllFit (q : Prog Ref) (sys : List Syscall) (loc sp : Nat) (T : Nat → Nat → Prop) : Nat → Asm → Prop
  | _, [] => True
  | h, x :: l => Needs q sys loc sp T h x.1 ∧ AllFit q sys loc sp T (x.1.after h) l

/-- The code takes the stack from height `h` to height `k`. -/
def Bal (q : Prog Ref) (sys : List Syscall) (loc sp : Nat) (T : Nat → Nat → Prop) (h : Nat) (a : Asm)
    (k : Nat) : Prop := AllFit q sys loc sp T h a ∧ heightAt h a = k

/-- Positions with their heights: the starts of the instructions and the end. -/
def marks (pc h : Nat) : Asm → List (Nat × Nat)
  | [] => [(pc, h)]
  | x :: l => (pc, h) :: marks (pc + x.1.width) (x.1.after h) l

theorem marks_start (pc h : Nat) (a : Asm) : (pc, h) ∈ marks pc h a := by
  cases a <;> simp [marks]

theorem marks_left : ∀ {pc h : Nat} {a : Asm} (b : Asm) {p}, p ∈ marks pc h a → p ∈ marks pc h (a ++ b)
  | pc, h, [], b, p, k => by
    simp only [marks, List.mem_singleton] at k
    subst k
    exact marks_start _ _ _
  | pc, h, x :: a, b, p, k => by
    simp only [marks, List.mem_cons, List.cons_append] at k ⊢
    exact k.imp id (marks_left b)

theorem marks_right : ∀ {pc h : Nat} (a : Asm) {b : Asm} {p},
    p ∈ marks (pc + widthOf a) (heightAt h a) b → p ∈ marks pc h (a ++ b)
  | pc, h, [], b, p, k => by simpa [widthOf, heightAt] using k
  | pc, h, x :: a, b, p, k => by
    simp only [marks, List.mem_cons, List.cons_append, widthOf, heightAt] at k ⊢
    exact .inr (marks_right a (by rwa [Nat.add_assoc]))

theorem marks_end (pc h : Nat) (a : Asm) : (pc + widthOf a, heightAt h a) ∈ marks pc h a := by
  have := marks_right (pc := pc) (h := h) a (b := []) (p := (pc + widthOf a, heightAt h a)) (by simp [marks])
  simpa using this

section
variable {q : Prog Ref} {sys : List Syscall} {loc sp : Nat} {T : Nat → Nat → Prop}

theorem AllFit.append {h : Nat} {a b : Asm} (h1 : AllFit q sys loc sp T h a)
    (h2 : AllFit q sys loc sp T (heightAt h a) b) : AllFit q sys loc sp T h (a ++ b) := by
  induction a generalizing h with
  | nil => exact h2
  | cons x a ih => exact ⟨h1.1, ih h1.2 h2⟩

theorem Needs.mono {T' : Nat → Nat → Prop} (hT : ∀ p k, T p k → T' p k) {h : Nat} : ∀ {x : AIns},
    Needs q sys loc sp T h x → Needs q sys loc sp T' h x := by
  intro x hx
  match x, hx with
  | .ins (.i0 o), hx => cases o <;> exact hx
  | .ins (.i1 o v), hx =>
    cases o <;> first
      | exact hx
      | (obtain ⟨p, h1, h2⟩ := hx; exact ⟨p, h1, hT _ _ h2⟩)
      | (obtain ⟨h0, p, h1, h2⟩ := hx; exact ⟨h0, p, h1, hT _ _ h2⟩)
  | .ins (.i2 ..), hx => exact hx
  | .call .., hx => exact hx
  | .fn .., hx => exact hx

theorem AllFit.mono {T' : Nat → Nat → Prop} (hT : ∀ p k, T p k → T' p k) : ∀ {a : Asm} {h : Nat},
    AllFit q sys loc sp T h a → AllFit q sys loc sp T' h a
  | [], _, _ => trivial
  | _ :: _, _, ⟨h1, h2⟩ => ⟨h1.mono hT, h2.mono hT⟩

namespace Bal

theorem append {h k l : Nat} {a b : Asm} (h1 : Bal q sys loc sp T h a k) (h2 : Bal q sys loc sp T k b l) :
    Bal q sys loc sp T h (a ++ b) l := by
  obtain ⟨h1, rfl⟩ := h1
  exact ⟨h1.append h2.1, by rw [heightAt_append]; exact h2.2⟩

theorem one {h k : Nat} {x : AIns} {t : Option Token} (h1 : Needs q sys loc sp T h x) (h2 : x.after h = k) :
    Bal q sys loc sp T h [(x, t)] k := ⟨⟨h1, trivial⟩, h2⟩

theorem nil {h : Nat} : Bal q sys loc sp T h [] h := ⟨trivial, rfl⟩

theorem mono {T' : Nat → Nat → Prop} (hT : ∀ p k, T p k → T' p k) {h k : Nat} {a : Asm}
    (hx : Bal q sys loc sp T h a k) : Bal q sys loc sp T' h a k := ⟨hx.1.mono hT, hx.2⟩

end Bal

/-! ### Expressions -/

/-- The callee is the name of a built-in function. -/
def direct (q : Prog Ref) : Expr Ref → Prop
  | .ident _ (.item i) => ∃ s a, q[i]? = some (.syscall s a)
  | _ => False

mutual

/-- No binary operator `not` (the parser accepts `a not b`), and no built-in function with a fixed
number of arguments outside the callee position. -/
def plainE (q : Prog Ref) : Expr Ref → Prop
  | .ident _ (.item i) => ∀ s k, q[i]? ≠ some (.syscall s (some k))
  | .arr _ es => plainEs q es
  | .deref _ l i => plainE q l ∧ plainE q i
  | .call _ c as => (direct q c ∨ plainE q c) ∧ plainEs q as
  | .bin op l r => op.type ≠ .NOT ∧ plainE q l ∧ plainE q r
  | .un _ a => plainE q a
  | _ => True

/-- A list of expressions. -/
def plainEs (q : Prog Ref) : List (Expr Ref) → Prop
  | [] => True
  | e :: es => plainE q e ∧ plainEs q es

end

theorem asmGet_bal {g : GenCtx} (hg : g.prog = q) {r : Ref} {t : Option Token} {a : Asm} (h : asmGet g r t = .ok a)
    {k : Nat} (hk : loc ≤ k) : Bal q sys loc sp T k a (k + 1) := by
  obtain ⟨⟨x, y, o⟩, h1, h2⟩ := bind_ok.1 h
  cases h2
  cases r with
  | item i =>
    simp only [varPlace] at h1
    split at h1
    · cases h1; exact Bal.one ⟨hk, i, by rw [hg]⟩ rfl
    · cases h1
  | arg i => cases h1; exact Bal.one hk rfl
  | loc i => cases h1; exact Bal.one hk rfl

theorem asmSet_bal {g : GenCtx} (hg : g.prog = q) {r : Ref} {t : Option Token} {a : Asm} (h : asmSet g r t = .ok a)
    {k : Nat} (hk : loc ≤ k) : Bal q sys loc sp T (k + 1) a k := by
  have hk1 : loc + 1 ≤ k + 1 := by omega
  obtain ⟨⟨x, y, o⟩, h1, h2⟩ := bind_ok.1 h
  cases h2
  cases r with
  | item i =>
    simp only [varPlace] at h1
    split at h1
    · cases h1; exact Bal.one ⟨hk1, i, by rw [hg]⟩ rfl
    · cases h1
  | arg i => cases h1; exact Bal.one hk1 rfl
  | loc i => cases h1; exact Bal.one hk1 rfl

theorem asmIdent_bal {g : GenCtx} (hg : g.prog = q) {r : Ref} {t : Token} {a : Asm}
    (h : asmIdent g sys t r = .ok a) (hp : plainE q (.ident t r)) {k : Nat} (hk : loc ≤ k) : Bal q sys loc sp T k a (k + 1) := by
  unfold asmIdent at h
  split at h
  · split at h
    · rename_i f hf
      cases h
      exact Bal.one ⟨hk, f, List.mem_of_getElem? (hg ▸ hf), rfl⟩ rfl
    · split at h
      · rename_i n a hf _ j hj
        cases h
        cases a with
        | none => exact Bal.one ⟨hk, _, j, List.mem_of_getElem? (hg ▸ hf), hj, rfl⟩ rfl
        | some b => exact absurd (hg ▸ hf) (hp n b)
      · cases h
    · exact asmGet_bal hg h hk
  · exact asmGet_bal hg h hk

theorem asmInvoke_bal {g : GenCtx} (hg : g.prog = q) {t : Token} {c : Expr Ref} {n : Nat}
    {callee : Out Asm} {a : Asm} {k : Nat} (hk : loc ≤ k) (hn : n < 2147483648)
    (hc : ¬ direct q c → ∀ b, callee = .ok b → widthOf b ≤ widthOf a → Bal q sys loc sp T (k + n) b (k + n + 1))
    (h : asmInvoke g sys t c n callee = .ok a) : Bal q sys loc sp T (k + n) a (k + 1) := by
  have ind : ¬ direct q c → (do let a ← callee; .ok (a ++ one (.i1 .ICALL (i32 n)) (some t)) : Out Asm) = .ok a →
      Bal q sys loc sp T (k + n) a (k + 1) := by
    intro hd h
    obtain ⟨b, h1, h⟩ := bind_ok.1 h
    cases h
    refine (hc hd b h1 (by rw [widthOf_append]; omega)).append (Bal.one ⟨n, rfl, hn, by omega⟩ ?_)
    show k + n + 1 - (i32 n).toNat = k + 1
    rw [toNat_i32 hn]; omega
  unfold asmInvoke at h
  dsimp only at h
  split at h
  · split at h
    · split at h
      · rename_i f hf hn'
        cases h
        refine Bal.one ⟨f, List.mem_of_getElem? (hg ▸ hf), rfl, by rw [hn'], by omega, by omega⟩ ?_
        show k + n + 1 - (i32 n).toNat = k + 1
        rw [toNat_i32 hn]; omega
      · cases h
    · rename_i hf
      split at h
      · rename_i ha
        split at h
        · rename_i j hj
          cases h
          refine Bal.one ⟨rfl, n, rfl, hn, by omega, _, _, j, List.mem_of_getElem? (hg ▸ hf), hj, rfl, ha⟩ ?_
          show k + n + 1 - (i32 n).toNat = k + 1
          rw [toNat_i32 hn]; omega
        · cases h
      · cases h
    · rename_i h1 h2
      refine ind ?_ h
      rintro ⟨s, a, hs⟩
      exact h2 s a (hg ▸ hs)
  · rename_i h1
    refine ind ?_ h
    intro hd
    cases c with
    | ident t r =>
      cases r with
      | item i => exact h1 _ _ rfl
      | _ => exact hd
    | _ => exact hd

mutual

theorem asmE_bal {g : GenCtx} (hg : g.prog = q) : ∀ (ex : Expr Ref) (si : Nat) (a : Asm) (k : Nat),
    asmE g sys si ex = .ok a → plainE q ex → widthOf a < 2147483648 → loc ≤ k →
    Bal q sys loc sp T k a (k + 1)
  | .ident t r, si, a, k, h, hp, hw, hk => asmIdent_bal hg h hp hk
  | .int v t _, si, a, k, h, hp, hw, hk => by cases h; exact Bal.one hk rfl
  | .float v t, si, a, k, h, hp, hw, hk => by cases h; exact Bal.one hk rfl
  | .str s t, si, a, k, h, hp, hw, hk => by cases h; exact Bal.one hk rfl
  | .none t, si, a, k, h, hp, hw, hk => by cases h; exact Bal.one hk rfl
  | .member t m r, si, a, k, h, hp, hw, hk => by
    obtain ⟨b, h1, h⟩ := bind_ok.1 h
    cases h
    exact (asmGet_bal hg h1 hk).append (Bal.one (show loc + 1 ≤ k + 1 by omega) rfl)
  | .arr t es, si, a, k, h, hp, hw, hk => by
    obtain ⟨b, h1, h⟩ := bind_ok.1 h
    split at h
    · cases h
    · rename_i h0
      cases h
      rw [widthOf_append] at hw
      have hl := asmEs_size es si b h1
      refine (asmEs_bal hg es si b k h1 hp (by omega) hk).append
        (Bal.one ⟨es.length, rfl, by omega, by omega, by omega⟩ ?_)
      show k + es.length + 1 - (i32 es.length).toNat = k + 1
      rw [toNat_i32 (by omega)]; omega
  | .deref t l i, si, a, k, h, hp, hw, hk => by
    obtain ⟨b, h1, h⟩ := bind_ok.1 h
    obtain ⟨d, h2, h⟩ := bind_ok.1 h
    cases h
    simp only [widthOf_append] at hw
    exact ((asmE_bal hg i si b k h1 hp.2 (by omega) hk).append
      (asmE_bal hg l _ d (k + 1) h2 hp.1 (by omega) (by omega))).append
        (Bal.one (show loc + 2 ≤ k + 1 + 1 by omega) rfl)
  | .call t c as, si, a, k, h, hp, hw, hk => by
    obtain ⟨b, h1, h⟩ := bind_ok.1 h
    obtain ⟨d, h2, h⟩ := bind_ok.1 h
    cases h
    rw [widthOf_append] at hw
    have hl := asmEs_size as si b h1
    refine (asmEs_bal hg as si b k h1 hp.2 (by omega) hk).append
      (asmInvoke_bal hg hk (by omega) (fun hd x hx hxw => ?_) h2)
    exact asmE_bal hg c _ x _ hx (hp.1.resolve_left hd) (by omega) (by omega)
  | .bin op l r, si, a, k, h, hp, hw, hk => by
    obtain ⟨b, h1, h⟩ := bind_ok.1 h
    obtain ⟨d, h2, h⟩ := bind_ok.1 h
    obtain ⟨o, h3, h⟩ := bind_ok.1 h
    cases h
    simp only [widthOf_append] at hw
    refine ((asmE_bal hg l si b k h1 hp.2.1 (by omega) hk).append
      (asmE_bal hg r _ d (k + 1) h2 hp.2.2 (by omega) (by omega))).append ?_
    have hk2 : loc + 2 ≤ k + 1 + 1 := by omega
    have hne := hp.1
    revert h3 hne
    generalize op.type = ty
    intro h3 hne
    cases ty <;> first
      | (cases h3; exact Bal.one hk2 rfl)
      | exact absurd rfl hne
      | cases h3
  | .un op x, si, a, k, h, hp, hw, hk => by
    obtain ⟨b, h1, h⟩ := bind_ok.1 h
    have hwb : widthOf b ≤ widthOf a := by split at h <;> cases h <;> simp [widthOf_append]
    have hb := asmE_bal hg x si b k h1 hp (by omega) hk
    have hk1 : loc + 1 ≤ k + 1 := by omega
    split at h <;> cases h
    · exact hb.append (Bal.one hk1 rfl)
    · exact hb.append (Bal.one hk1 rfl)
    · exact hb

theorem asmEs_bal {g : GenCtx} (hg : g.prog = q) : ∀ (es : List (Expr Ref)) (si : Nat) (a : Asm) (k : Nat),
    asmEs g sys si es = .ok a → plainEs q es → widthOf a < 2147483648 → loc ≤ k →
    Bal q sys loc sp T k a (k + es.length)
  | [], si, a, k, h, hp, hw, hk => by cases h; exact Bal.nil
  | ex :: es, si, a, k, h, hp, hw, hk => by
    obtain ⟨b, h1, h⟩ := bind_ok.1 h
    obtain ⟨d, h2, h⟩ := bind_ok.1 h
    cases h
    rw [widthOf_append] at hw
    have := (asmE_bal hg ex si b k h1 hp.1 (by omega) hk).append
      (asmEs_bal hg es _ d (k + 1) h2 hp.2 (by omega) (by omega))
    rw [show k + 1 + es.length = k + (ex :: es).length by simp; omega] at this
    exact this

end

/-! ### Statements -/

mutual

/-- The same for statements. -/
def plainS (q : Prog Ref) : Stmt Ref → Prop
  | .var _ _ none => True
  | .var _ _ (some e) => plainE q e
  | .assign _ _ e => plainE q e
  | .assignArr _ _ i e => plainE q i ∧ plainE q e
  | .assignMem _ _ _ e => plainE q e
  | .call _ c as => (direct q c ∨ plainE q c) ∧ plainEs q as
  | .ifS _ c thn h els => plainE q c ∧ plainB q thn ∧ (h = true → plainB q els)
  | .whileS _ c body => plainE q c ∧ plainB q body
  | .forS _ _ _ a b body => plainE q a ∧ plainE q b ∧ plainB q body
  | .ret _ none => True
  | .ret _ (some e) => plainE q e

/-- A block. -/
def plainB (q : Prog Ref) : List (Stmt Ref) → Prop
  | [] => True
  | s :: ss => plainS q s ∧ plainB q ss

end

/-- Membership in the marks as targets. -/
def Marked (l : List (Nat × Nat)) (p k : Nat) : Prop := (p, k) ∈ l

theorem fits_jump {p h : Nat} (hT : T p h) : Needs q sys loc sp T h (.ins (.i1 .JMP (i32 p))) := ⟨p, rfl, hT⟩
theorem fits_tjump {p h : Nat} (hh : loc ≤ h) (hT : T p h) :
    Needs q sys loc sp T (h + 1) (.ins (.i1 .TJMP (i32 p))) := ⟨by omega, p, rfl, hT⟩
theorem fits_fjump {p h : Nat} (hh : loc ≤ h) (hT : T p h) :
    Needs q sys loc sp T (h + 1) (.ins (.i1 .FJMP (i32 p))) := ⟨by omega, p, rfl, hT⟩

theorem none_bal {T' : Nat → Nat → Prop} {h k : Nat} {a : Asm}
    (hx : Bal q sys loc sp (fun _ _ => False) h a k) : Bal q sys loc sp T' h a k := hx.mono fun _ _ h => h.elim

mutual

theorem asmS_bal {g : GenCtx} (hg : g.prog = q) (hloc : loc = g.size) (hsp : sp = g.nargs + g.size) :
    ∀ (st : Stmt Ref) (pc si : Nat) (a : Asm), asmS g sys pc si st = .ok a → plainS q st →
      widthOf a < 2147483648 → Bal q sys loc sp (Marked (marks pc loc a)) loc a loc
  | .var t r none, pc, si, a, h, hp, hw => by cases h; exact Bal.nil
  | .var t r (some ex), pc, si, a, h, hp, hw => by
    obtain ⟨b, h1, h⟩ := bind_ok.1 h
    cases h
    rw [widthOf_append] at hw
    exact (asmE_bal hg ex si b loc h1 hp (by omega) (Nat.le_refl _)).append (Bal.one (Nat.le_refl _) rfl)
  | .assign t r ex, pc, si, a, h, hp, hw => by
    obtain ⟨b, h1, h⟩ := bind_ok.1 h
    obtain ⟨d, h2, h⟩ := bind_ok.1 h
    cases h
    rw [widthOf_append] at hw
    exact (asmE_bal hg ex si b loc h1 hp (by omega) (Nat.le_refl _)).append (asmSet_bal hg h2 (Nat.le_refl _))
  | .assignArr t r i ex, pc, si, a, h, hp, hw => by
    obtain ⟨b, h1, h⟩ := bind_ok.1 h
    obtain ⟨d, h2, h⟩ := bind_ok.1 h
    obtain ⟨k, h3, h⟩ := bind_ok.1 h
    cases h
    simp only [widthOf_append] at hw
    exact (((asmE_bal hg ex si b loc h1 hp.2 (by omega) (Nat.le_refl _)).append
      (asmE_bal hg i _ d _ h2 hp.1 (by omega) (by omega))).append (asmGet_bal hg h3 (by omega))).append
        (Bal.one (show loc + 3 ≤ loc + 1 + 1 + 1 by omega) rfl)
  | .assignMem t m r ex, pc, si, a, h, hp, hw => by
    obtain ⟨b, h1, h⟩ := bind_ok.1 h
    obtain ⟨d, h2, h⟩ := bind_ok.1 h
    cases h
    simp only [widthOf_append] at hw
    exact ((asmE_bal hg ex si b loc h1 hp (by omega) (Nat.le_refl _)).append (asmGet_bal hg h2 (by omega))).append
      (Bal.one (show loc + 2 ≤ loc + 1 + 1 by omega) rfl)
  | .call t c as, pc, si, a, h, hp, hw => by
    obtain ⟨b, h1, h⟩ := bind_ok.1 h
    obtain ⟨d, h2, h⟩ := bind_ok.1 h
    cases h
    simp only [widthOf_append] at hw
    have hl := asmEs_size as si b h1
    refine ((asmEs_bal hg as si b loc h1 hp.2 (by omega) (Nat.le_refl _)).append
      (asmInvoke_bal hg (Nat.le_refl _) (by omega) (fun hd x hx hxw => ?_) h2)).append
        (Bal.one ⟨rfl, Nat.le_refl _⟩ rfl)
    exact asmE_bal hg c _ x _ hx (hp.1.resolve_left hd) (by omega) (by omega)
  | .ifS t c thn false els, pc, si, a, h, hp, hw => by
    obtain ⟨b, h1, h⟩ := bind_ok.1 h
    obtain ⟨d, h2, h⟩ := bind_ok.1 h
    cases h
    simp only [widthOf_append, width_one1] at hw
    have hb := asmE_bal (q := q) (sys := sys) (loc := loc) (sp := sp) (T := fun _ _ => False) hg c si b loc h1 hp.1
      (by omega) (Nat.le_refl _)
    have hd := asmB_bal hg hloc hsp thn _ _ d h2 hp.2.1 (by omega)
    have hh1 : heightAt loc (b ++ one (.i1 .FJMP (i32 (pc + widthOf b + 5 + widthOf d))) (some t)) = loc := by
      rw [heightAt_append, hb.2]; rfl
    refine ((none_bal hb).append (Bal.one (fits_fjump (Nat.le_refl _) ?_) rfl)).append ?_
    · have := marks_end pc loc (b ++ one (.i1 .FJMP (i32 (pc + widthOf b + 5 + widthOf d))) (some t) ++ d)
      rw [heightAt_append, hh1, hd.2] at this
      simp only [widthOf_append, width_one1] at this
      rw [show pc + widthOf b + 5 + widthOf d = pc + (widthOf b + 5 + widthOf d) by omega] at this ⊢
      exact this
    · refine hd.mono fun p k hp => marks_right _ ?_
      rw [hh1]
      simpa only [widthOf_append, width_one1, Nat.add_assoc, Marked] using hp
  | .ifS t c thn true els, pc, si, a, h, hp, hw => by
    obtain ⟨b, h1, h⟩ := bind_ok.1 h
    obtain ⟨d, h2, h⟩ := bind_ok.1 h
    obtain ⟨e, h3, h⟩ := bind_ok.1 h
    cases h
    simp only [widthOf_append, width_one1] at hw
    have hb := asmE_bal (q := q) (sys := sys) (loc := loc) (sp := sp) (T := fun _ _ => False) hg c si b loc h1 hp.1
      (by omega) (Nat.le_refl _)
    have hd := asmB_bal hg hloc hsp thn _ _ d h2 hp.2.1 (by omega)
    have he := asmB_bal hg hloc hsp els _ _ e h3 (hp.2.2 rfl) (by omega)
    have hh1 : ∀ v, heightAt loc (b ++ one (.i1 .FJMP v) (some t)) = loc := by
      intro v; rw [heightAt_append, hb.2]; rfl
    have hh2 : ∀ v u, heightAt loc (b ++ one (.i1 .FJMP v) (some t) ++ d ++ one (.i1 .JMP u) none) = loc := by
      intro v u; rw [heightAt_append, heightAt_append, hh1, hd.2]; rfl
    refine ((((none_bal hb).append (Bal.one (fits_fjump (Nat.le_refl _) ?_) rfl)).append ?_).append
      (Bal.one (h := loc) (k := loc) (fits_jump ?_) rfl)).append ?_
    · refine marks_right _ ?_
      rw [hh2]
      have := marks_start (pc + widthOf b + 5 + widthOf d + 5) loc e
      simpa only [widthOf_append, width_one1, Nat.add_assoc] using this
    · refine hd.mono fun p k hp => marks_left _ (marks_left _ (marks_right _ ?_))
      rw [hh1]
      simpa only [widthOf_append, width_one1, Nat.add_assoc, Marked] using hp
    · refine marks_right _ ?_
      rw [hh2]
      have := marks_end (pc + widthOf b + 5 + widthOf d + 5) loc e
      rw [he.2] at this
      simpa only [widthOf_append, width_one1, Nat.add_assoc] using this
    · refine he.mono fun p k hp => marks_right _ ?_
      rw [hh2]
      simpa only [widthOf_append, width_one1, Nat.add_assoc, Marked] using hp
  | .whileS t c body, pc, si, a, h, hp, hw => by
    obtain ⟨b, h1, h⟩ := bind_ok.1 h
    obtain ⟨d, h2, h⟩ := bind_ok.1 h
    cases h
    simp only [widthOf_append, width_one1] at hw
    have hb := asmB_bal hg hloc hsp body _ _ b h1 hp.2 (by omega)
    have hd := asmE_bal (q := q) (sys := sys) (loc := loc) (sp := sp) (T := fun _ _ => False) hg c _ d loc h2 hp.1
      (by omega) (Nat.le_refl _)
    have hh1 : ∀ v, heightAt loc (one (.i1 .JMP v) (some t)) = loc := fun _ => rfl
    have hh2 : ∀ v, heightAt loc (one (.i1 .JMP v) (some t) ++ b) = loc := by
      intro v; rw [heightAt_append, hh1, hb.2]
    refine (((Bal.one (fits_jump ?_) rfl).append ?_).append (none_bal hd)).append
      (Bal.one (fits_tjump (Nat.le_refl _) ?_) rfl)
    · refine marks_left _ (marks_right _ ?_)
      rw [hh2]
      have := marks_start (pc + 5 + widthOf b) loc d
      simpa only [widthOf_append, width_one1, Nat.add_assoc] using this
    · refine hb.mono fun p k hp => marks_left _ (marks_left _ (marks_right _ ?_))
      rw [hh1]
      simpa only [widthOf_append, width_one1, Nat.add_assoc, Marked] using hp
    · refine marks_left _ (marks_left _ (marks_right _ ?_))
      rw [hh1]
      have := marks_start (pc + 5) loc b
      simpa only [widthOf_append, width_one1, Nat.add_assoc] using this
  | .forS t n r start stop body, pc, si, a, h, hp, hw => by
    obtain ⟨b, h1, h⟩ := bind_ok.1 h
    obtain ⟨s0, h2, h⟩ := bind_ok.1 h
    obtain ⟨d, h3, h⟩ := bind_ok.1 h
    obtain ⟨g0, h4, h⟩ := bind_ok.1 h
    obtain ⟨s1, h5, h⟩ := bind_ok.1 h
    obtain ⟨z, h6, h⟩ := bind_ok.1 h
    cases h
    have w0 := width_set h2
    have wg := width_get h4
    have w1 := width_set h5
    simp only [widthOf_append, width_one1, width_one0] at hw
    have hb := asmE_bal (q := q) (sys := sys) (loc := loc) (sp := sp) (T := fun _ _ => False) hg start _ b loc h1
      hp.1 (by omega) (Nat.le_refl _)
    have hd := asmB_bal hg hloc hsp body _ _ d h3 hp.2.2 (by omega)
    have hz := asmE_bal (q := q) (sys := sys) (loc := loc) (sp := sp) (T := fun _ _ => False) hg stop _ z (loc + 1) h6
      hp.2.1 (by omega) (by omega)
    have hs0 := asmSet_bal (q := q) (sys := sys) (sp := sp) (T := fun _ _ => False) hg h2 (Nat.le_refl loc)
    have hs1 := asmSet_bal (q := q) (sys := sys) (sp := sp) (T := fun _ _ => False) hg h5 (Nat.le_refl loc)
    have hg0 := asmGet_bal (q := q) (sys := sys) (sp := sp) (T := fun _ _ => False) hg h4 (Nat.le_refl loc)
    have hh1 : ∀ v, heightAt loc (b ++ s0 ++ one (.i1 .JMP v) (some t)) = loc := by
      intro v; rw [heightAt_append, heightAt_append, hb.2, hs0.2]; rfl
    have hh2 : ∀ v, heightAt loc (b ++ s0 ++ one (.i1 .JMP v) (some t) ++ d ++ g0 ++ one (.i1 .NEW_INT 1) (some t) ++
        one (.i0 .ADD) (some t) ++ s1) = loc := by
      intro v
      simp only [heightAt_append]
      rw [hb.2, hs0.2]
      rw [show heightAt loc (one (.i1 .JMP v) (some t)) = loc from rfl, hd.2, hg0.2]
      exact hs1.2
    refine (((((((((((none_bal hb).append (none_bal hs0)).append (Bal.one (fits_jump ?_) rfl)).append
      ?_).append (none_bal hg0)).append (Bal.one (k := loc + 2) (Nat.le_succ_of_le (Nat.le_refl _)) rfl)).append
      (Bal.one (k := loc + 1) (Nat.le_refl _) rfl)).append (none_bal hs1)).append (none_bal hg0)).append (none_bal hz)).append
      (Bal.one (Nat.le_refl _) rfl)).append (Bal.one (fits_tjump (Nat.le_refl _) ?_) rfl)
    · refine marks_left _ (marks_left _ (marks_left _ (marks_right _ ?_)))
      rw [hh2]
      have := marks_start (pc + widthOf b + 10 + widthOf d + 16) loc g0
      simp only [widthOf_append, width_one1, width_one0, w0, wg, w1]
      rw [show pc + (widthOf b + 5 + 5 + widthOf d + 5 + 5 + 1 + 5) = pc + widthOf b + 10 + widthOf d + 16 by omega]
      exact this
    · refine hd.mono fun p k hp => ?_
      iterate 8 refine marks_left _ ?_
      refine marks_right _ ?_
      rw [hh1]
      simp only [widthOf_append, width_one1, width_one0, w0, wg, w1]
      rw [show pc + (widthOf b + 5 + 5) = pc + widthOf b + 10 by omega]
      exact hp
    · iterate 8 refine marks_left _ ?_
      refine marks_right _ ?_
      rw [hh1]
      have := marks_start (pc + widthOf b + 10) loc d
      simp only [widthOf_append, width_one1, width_one0, w0, wg, w1]
      rw [show pc + (widthOf b + 5 + 5) = pc + widthOf b + 10 by omega]
      exact this
  | .ret t none, pc, si, a, h, hp, hw => by
    cases h
    exact (Bal.one (Nat.le_refl _) rfl).append (Bal.one ⟨rfl, by rw [hsp]; rfl⟩ rfl)
  | .ret t (some ex), pc, si, a, h, hp, hw => by
    obtain ⟨b, h1, h⟩ := bind_ok.1 h
    cases h
    rw [widthOf_append] at hw
    exact (asmE_bal hg ex si b loc h1 hp (by omega) (Nat.le_refl _)).append (Bal.one ⟨rfl, by rw [hsp]; rfl⟩ rfl)

theorem asmB_bal {g : GenCtx} (hg : g.prog = q) (hloc : loc = g.size) (hsp : sp = g.nargs + g.size) :
    ∀ (ss : List (Stmt Ref)) (pc si : Nat) (a : Asm), asmB g sys pc si ss = .ok a → plainB q ss →
      widthOf a < 2147483648 → Bal q sys loc sp (Marked (marks pc loc a)) loc a loc
  | [], pc, si, a, h, hp, hw => by cases h; exact Bal.nil
  | st :: ss, pc, si, a, h, hp, hw => by
    obtain ⟨b, h1, h⟩ := bind_ok.1 h
    obtain ⟨d, h2, h⟩ := bind_ok.1 h
    cases h
    rw [widthOf_append] at hw
    have hb := asmS_bal hg hloc hsp st _ _ b h1 hp.1 (by omega)
    have hd := asmB_bal hg hloc hsp ss _ _ d h2 hp.2 (by omega)
    refine (hb.mono fun p k hp => marks_left _ hp).append (hd.mono fun p k hp => marks_right _ ?_)
    rw [hb.2]
    exact hp

end

/-! ### Functions: jumps go to instructions, the last of which returns -/

/-- Position `p` is the start of an instruction, reached at height `k`. -/
def Spot (pc h : Nat) (a : Asm) (p k : Nat) : Prop :=
  ∃ pre x post, a = pre ++ x :: post ∧ p = pc + widthOf pre ∧ k = heightAt h pre

theorem Spot.cons {pc h : Nat} {x : AIns × Option Token} {a : Asm} {p k : Nat}
    (hs : Spot (pc + x.1.width) (x.1.after h) a p k) : Spot pc h (x :: a) p k := by
  obtain ⟨pre, y, post, rfl, rfl, rfl⟩ := hs
  exact ⟨x :: pre, y, post, rfl, by simp only [widthOf]; omega, rfl⟩

theorem marks_spot : ∀ {pc h : Nat} {a b : Asm} {p k : Nat}, b ≠ [] → (p, k) ∈ marks pc h a →
    Spot pc h (a ++ b) p k
  | pc, h, [], b, p, k, hb, hm => by
    simp only [marks, List.mem_singleton] at hm
    cases hm
    cases b with
    | nil => exact absurd rfl hb
    | cons x b => exact ⟨[], x, b, rfl, rfl, rfl⟩
  | pc, h, x :: a, b, p, k, hb, hm => by
    simp only [marks, List.mem_cons] at hm
    rcases hm with hm | hm
    · cases hm
      exact ⟨[], x, a ++ b, rfl, rfl, rfl⟩
    · exact (marks_spot hb hm).cons

theorem spot_right : ∀ {pc h : Nat} (a : Asm) {b : Asm} {p k : Nat},
    Spot (pc + widthOf a) (heightAt h a) b p k → Spot pc h (a ++ b) p k
  | pc, h, [], b, p, k, hs => by simpa [widthOf, heightAt] using hs
  | pc, h, x :: a, b, p, k, hs => by
    refine Spot.cons (spot_right a ?_)
    simp only [widthOf, heightAt] at hs
    rwa [Nat.add_assoc]

/-- The last instruction returns. -/
def EndsRet (a : Asm) : Prop := ∃ pre v t, a = pre ++ [(.ins (.i1 .RET v), t)]

theorem EndsRet.right {b : Asm} (h : EndsRet b) (a : Asm) : EndsRet (a ++ b) := by
  obtain ⟨pre, v, t, rfl⟩ := h
  exact ⟨a ++ pre, v, t, by simp⟩

theorem EndsRet.ne {a : Asm} (h : EndsRet a) : a ≠ [] := by
  obtain ⟨pre, v, t, rfl⟩ := h
  simp

theorem asmB_ret_bal {g : GenCtx} (hg : g.prog = q) (hloc : loc = g.size) (hsp : sp = g.nargs + g.size) :
    ∀ (ss : List (Stmt Ref)) (pc si : Nat) (a : Asm), asmB g sys pc si ss = .ok a → plainB q ss →
      widthOf a < 2147483648 → (ss.getLast?.map Stmt.isRet).getD false = true →
      Bal q sys loc sp (Spot pc loc a) loc a loc ∧ EndsRet a
  | [], pc, si, a, h, hp, hw, hr => by cases hr
  | [st], pc, si, a, h, hp, hw, hr => by
    obtain ⟨b, h1, h⟩ := bind_ok.1 h
    obtain ⟨d, h2, h⟩ := bind_ok.1 h
    cases h
    cases h2
    rw [List.append_nil] at hw ⊢
    have hr : st.isRet = true := hr
    cases st with
    | ret t e =>
      cases e with
      | none =>
        cases h1
        exact ⟨(Bal.one (Nat.le_refl _) rfl).append (Bal.one ⟨rfl, by rw [hsp]; rfl⟩ rfl), _, _, _, rfl⟩
      | some ex =>
        obtain ⟨c, h4, h3⟩ := bind_ok.1 h1
        cases h3
        rw [widthOf_append] at hw
        exact ⟨(asmE_bal hg ex si c loc h4 hp.1 (by omega) (Nat.le_refl _)).append
          (Bal.one ⟨rfl, by rw [hsp]; rfl⟩ rfl), _, _, _, rfl⟩
    | _ => cases hr
  | st :: s2 :: ss, pc, si, a, h, hp, hw, hr => by
    obtain ⟨b, h1, h⟩ := bind_ok.1 h
    obtain ⟨d, h2, h⟩ := bind_ok.1 h
    cases h
    have hr' : ((s2 :: ss).getLast?.map Stmt.isRet).getD false = true := by simpa using hr
    rw [widthOf_append] at hw
    have hb := asmS_bal hg hloc hsp st _ _ b h1 hp.1 (by omega)
    obtain ⟨hd, hd'⟩ := asmB_ret_bal hg hloc hsp (s2 :: ss) _ _ d h2 hp.2 (by omega) hr'
    refine ⟨(hb.mono fun p k hp => marks_spot hd'.ne hp).append (hd.mono fun p k hp => spot_right _ ?_),
      hd'.right _⟩
    rw [hb.2]
    exact hp

theorem asmFunc_bal {p : Prog Ref} {pc si : Nat} {f : FuncDecl Ref} {a : Asm}
    (h : asmFunc p sys pc si f = .ok a) (hp : plainB p f.body) (hw : widthOf a < 2147483648)
    (hl : f.args.length + stackSize (funcLocals f.body) < 2147483648) :
    AllFit p sys (stackSize (funcLocals f.body)) (f.args.length + stackSize (funcLocals f.body)) (Spot pc 0 a) 0 a ∧
      EndsRet a := by
  obtain ⟨b, h1, h⟩ := bind_ok.1 h
  cases h
  simp only [widthOf_append] at hw
  generalize hz : stackSize (funcLocals f.body) = z at hl ⊢
  have hz' : (funcCtx p f).size = z := hz
  have hloc : ∀ T, Bal p sys z (f.args.length + z) T 0 (asmLocals (funcCtx p f) f.name) z := by
    intro T
    unfold asmLocals
    rw [hz']
    split
    · refine Bal.one ⟨rfl, rfl⟩ ?_
      show 0 + (i32 z).toNat = z
      rw [toNat_i32 (by omega)]; omega
    · rename_i h0
      rw [show z = 0 by omega]
      exact Bal.nil
  have hh := (hloc fun _ _ => False).2
  by_cases hr : (f.body.getLast?.map Stmt.isRet).getD false = true
  · rw [asmEnd, if_pos hr, List.append_nil]
    obtain ⟨hb, hb'⟩ := asmB_ret_bal (loc := z) (sp := f.args.length + z) (g := funcCtx p f) rfl hz'.symm
      (by rw [← hz']; rfl) _ _ _ b h1 hp (by omega) hr
    refine ⟨((hloc _).append (hb.mono fun p k hp => spot_right _ ?_)).1, hb'.right _⟩
    rw [hh]; exact hp
  · rw [asmEnd, if_neg hr]
    have hb := asmB_bal (loc := z) (sp := f.args.length + z) (g := funcCtx p f) rfl hz'.symm
      (by rw [← hz']; rfl) _ _ _ b h1 hp (by omega)
    have e1 : ∀ T, Bal p sys z (f.args.length + z) T z (one (.i1 .NEW_INT 0) (some f.stop)) (z + 1) :=
      fun T => Bal.one (Nat.le_refl _) rfl
    have e2 : ∀ T, Bal p sys z (f.args.length + z) T (z + 1) (one (.i1 .RET (funcCtx p f).space) (some f.stop)) z :=
      fun T => Bal.one ⟨rfl, by rw [← hz']; rfl⟩ rfl
    refine ⟨(((hloc _).append (hb.mono fun p k hp => ?_)).append ((e1 _).append (e2 _))).1,
      EndsRet.right (EndsRet.right ⟨[], _, _, rfl⟩ _) _⟩
    refine marks_spot (by simp [one]) (marks_right _ ?_)
    rw [hh]; exact hp

theorem asmInit_bal {p : Prog Ref} {pc si : Nat} {a : Asm} (h : asmInit p sys pc si = .ok a)
    (hp : plainB p (initBody p)) (hw : widthOf a < 2147483648) :
    AllFit p sys 0 0 (Spot pc 0 a) 0 a ∧ EndsRet a := by
  obtain ⟨b, h1, h⟩ := bind_ok.1 h
  cases h
  simp only [widthOf_append] at hw
  have hb := asmB_bal (loc := 0) (sp := 0) (g := initCtx p) rfl rfl rfl _ _ _ b h1 hp (by omega)
  have e0 : ∀ T, Bal p sys 0 0 T 0 (one (.i1 .GLOBALS (i32 (p.countP Item.isSlot))) none) 0 :=
    fun T => Bal.one rfl rfl
  have e1 : ∀ T, Bal p sys 0 0 T 0 (one (.i1 .NEW_INT 0) none) 1 := fun T => Bal.one (Nat.le_refl _) rfl
  have e2 : ∀ T, Bal p sys 0 0 T 1 (one (.i1 .RET (initCtx p).space) none) 0 := fun T => Bal.one ⟨rfl, rfl⟩ rfl
  refine ⟨((((e0 _).append (hb.mono fun p k hp => ?_)).append (e1 _)).append (e2 _)).1,
      EndsRet.right ⟨[], _, _, rfl⟩ _⟩
  rw [List.append_assoc]
  refine marks_spot (by simp [one]) (marks_right _ ?_)
  exact hp

end
end Ccml
