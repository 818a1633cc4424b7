import Verif.TraceProg
/-!
The operands of generated code: jump targets and table indices (proof infrastructure).
-/
set_option linter.unusedSimpArgs false
namespace Ccml

/-- The starts of the instructions and the end. -/
def bounds (pc : Nat) : Asm → List Nat
  | [] => [pc]
  | x :: l => pc :: bounds (pc + x.1.width) l

theorem bounds_start (pc : Nat) (a : Asm) : pc ∈ bounds pc a := by
  cases a <;> simp [bounds]

theorem bounds_left : ∀ {pc : Nat} {a : Asm} (b : Asm) {p : Nat}, p ∈ bounds pc a → p ∈ bounds pc (a ++ b)
  | pc, [], b, p, h => by
    simp only [bounds, List.mem_singleton] at h
    subst h
    exact bounds_start _ _
  | pc, x :: a, b, p, h => by
    simp only [bounds, List.mem_cons, List.cons_append] at h ⊢
    exact h.imp id (bounds_left b)

theorem bounds_right : ∀ {pc : Nat} (a : Asm) {b : Asm} {p : Nat}, p ∈ bounds (pc + widthOf a) b →
    p ∈ bounds pc (a ++ b)
  | pc, [], b, p, h => by simpa [widthOf] using h
  | pc, x :: a, b, p, h => by
    simp only [bounds, List.mem_cons, List.cons_append, widthOf] at h ⊢
    exact .inr (bounds_right a (by rwa [Nat.add_assoc]))

theorem bounds_end (pc : Nat) (a : Asm) : pc + widthOf a ∈ bounds pc a := by
  have := bounds_right (pc := pc) a (b := []) (p := pc + widthOf a) (by simp [bounds])
  simpa using this

/-- Jumps. -/
def Op.isJump (o : Op) : Bool := o = .JMP || o = .TJMP || o = .FJMP
/-- Instructions with the index of a string. -/
def Op.isText (o : Op) : Bool := o = .NEW_STR || o = .GETM || o = .SETM
/-- Instructions with the index of a global variable. -/
def Op.isGlobal (o : Op) : Bool := o = .GETG || o = .SETG

/-- The operands of an instruction are in order: jumps go to `B`, strings are between `lo` and `hi`. -/
def InOrder (q : Prog Ref) (sys : List Syscall) (lo hi : Nat) (B : List Nat) : AIns → Prop
  | .ins (.i0 _) => True
  | .ins (.i1 o v) => (o.isJump = true → ∃ p ∈ B, v = i32 p) ∧
      (o.isText = true → ∃ j, lo ≤ j ∧ j < hi ∧ v = i32 j) ∧
      (o = .NEW_SCALL → ∃ j < sys.length, v = i32 j) ∧
      (o.isGlobal = true → ∃ j < q.countP Item.isSlot, v = i32 j) ∧ o ≠ .NEW_FUNC
  | .ins (.i2 o _ b) => o = .SCALL ∧ ∃ j < sys.length, b = i32 j
  | .call n f => ∃ F, Item.func F ∈ q ∧ F.name.str = f ∧ n = i32 F.args.length
  | .fn f => ∃ F, Item.func F ∈ q ∧ F.name.str = f

/-- All of them. -/
def AllGood (q : Prog Ref) (sys : List Syscall) (lo hi : Nat) (B : List Nat) (a : Asm) : Prop :=
  ∀ x ∈ a, InOrder q sys lo hi B x.1

section
variable {q : Prog Ref} {sys : List Syscall}

theorem AllGood.mono {lo hi lo' hi' : Nat} {B B' : List Nat} {a : Asm} (h : AllGood q sys lo hi B a)
    (h1 : lo' ≤ lo) (h2 : hi ≤ hi') (hB : ∀ p ∈ B, p ∈ B') : AllGood q sys lo' hi' B' a := by
  intro x hx
  have := h x hx
  revert this
  generalize x.1 = y
  intro this
  match y, this with
  | .ins (.i0 _), _ => trivial
  | .ins (.i1 o v), ⟨a, b, c, d, f⟩ =>
    refine ⟨fun ho => ?_, fun ho => ?_, c, d, f⟩
    · obtain ⟨p, hp, hv⟩ := a ho
      exact ⟨p, hB p hp, hv⟩
    · obtain ⟨j, hj, hj', hv⟩ := b ho
      exact ⟨j, by omega, by omega, hv⟩
  | .ins (.i2 ..), h => exact h
  | .call .., h => exact h
  | .fn .., h => exact h

theorem AllGood.append {lo hi : Nat} {B : List Nat} {a b : Asm} (h : AllGood q sys lo hi B a)
    (h' : AllGood q sys lo hi B b) : AllGood q sys lo hi B (a ++ b) := by
  intro x hx
  rcases List.mem_append.1 hx with hx | hx
  · exact h x hx
  · exact h' x hx

theorem AllGood.single {lo hi : Nat} {B : List Nat} {i : AIns} {t : Option Token}
    (h : InOrder q sys lo hi B i) : AllGood q sys lo hi B [(i, t)] := by
  intro x hx
  rw [List.mem_singleton] at hx
  subst hx
  exact h

theorem good_zero {lo hi : Nat} {B : List Nat} {o : Op} : InOrder q sys lo hi B (.ins (.i0 o)) := trivial

theorem good_plain {lo hi : Nat} {B : List Nat} {o : Op} {v : I32} (h1 : o.isJump = false)
    (h2 : o.isText = false) (h3 : o ≠ .NEW_SCALL) (h4 : o.isGlobal = false) (h5 : o ≠ .NEW_FUNC) :
    InOrder q sys lo hi B (.ins (.i1 o v)) :=
  ⟨by simp [h1], by simp [h2], fun h => absurd h h3, by simp [h4], h5⟩

theorem good_jump {lo hi : Nat} {B : List Nat} {o : Op} {p : Nat} (h1 : o.isJump = true) (hp : p ∈ B) :
    InOrder q sys lo hi B (.ins (.i1 o (i32 p))) := by
  refine ⟨fun _ => ⟨p, hp, rfl⟩, ?_, ?_, ?_, ?_⟩ <;> intro h <;> cases o <;>
    simp_all [Op.isJump, Op.isText, Op.isGlobal]

theorem good_text {lo hi : Nat} {B : List Nat} {o : Op} {j : Nat} (h1 : o.isText = true) (h2 : lo ≤ j)
    (h3 : j < hi) : InOrder q sys lo hi B (.ins (.i1 o (i32 j))) := by
  refine ⟨?_, fun _ => ⟨j, h2, h3, rfl⟩, ?_, ?_, ?_⟩ <;> intro h <;> cases o <;>
    simp_all [Op.isJump, Op.isText, Op.isGlobal]

theorem sysIndex_lt {n : Str} {j : Nat} (h : sysIndex sys n = some j) : j < sys.length := by
  unfold sysIndex at h
  exact (List.findIdx?_eq_some_iff_getElem.1 h).1

theorem globalOffset_lt {i : Nat} {t e} (h : q[i]? = some (.var t false e)) :
    globalOffset q i < q.countP Item.isSlot := by
  unfold globalOffset
  rw [h]
  dsimp only
  have h1 := List.take_append_drop i q
  have h2 : q.drop i = .var t false e :: q.drop (i + 1) := by
    obtain ⟨hl, hg⟩ := List.getElem?_eq_some_iff.1 h
    rw [List.drop_eq_getElem_cons hl, hg]
  have h3 : q.countP Item.isSlot = (q.take i).countP Item.isSlot + (q.drop i).countP Item.isSlot := by
    rw [← List.countP_append, h1]
  rw [h3, h2, List.countP_cons]
  simp [Item.isSlot]

theorem asmGet_good {g : GenCtx} (hg : g.prog = q) {r : Ref} {t : Option Token} {a : Asm} {lo hi : Nat}
    {B : List Nat} (h : asmGet g r t = .ok a) : AllGood q sys lo hi B a := by
  obtain ⟨⟨x, y, o⟩, h1, h2⟩ := bind_ok.1 h
  cases h2
  refine AllGood.single ?_
  cases r with
  | item i =>
    simp only [varPlace, hg] at h1
    split at h1
    · rename_i hx
      cases h1
      exact ⟨by simp [Op.isJump], by simp [Op.isText], by simp, fun _ => ⟨_, globalOffset_lt hx, rfl⟩, by simp⟩
    · cases h1
  | arg i => cases h1; exact good_plain rfl rfl (by simp) rfl (by simp)
  | loc i => cases h1; exact good_plain rfl rfl (by simp) rfl (by simp)

theorem asmSet_good {g : GenCtx} (hg : g.prog = q) {r : Ref} {t : Option Token} {a : Asm} {lo hi : Nat}
    {B : List Nat} (h : asmSet g r t = .ok a) : AllGood q sys lo hi B a := by
  obtain ⟨⟨x, y, o⟩, h1, h2⟩ := bind_ok.1 h
  cases h2
  refine AllGood.single ?_
  cases r with
  | item i =>
    simp only [varPlace, hg] at h1
    split at h1
    · rename_i hx
      cases h1
      exact ⟨by simp [Op.isJump], by simp [Op.isText], by simp, fun _ => ⟨_, globalOffset_lt hx, rfl⟩, by simp⟩
    · cases h1
  | arg i => cases h1; exact good_plain rfl rfl (by simp) rfl (by simp)
  | loc i => cases h1; exact good_plain rfl rfl (by simp) rfl (by simp)

theorem asmIdent_good {g : GenCtx} (hg : g.prog = q) {r : Ref} {t : Token} {a : Asm} {lo hi : Nat}
    {B : List Nat} (h : asmIdent g sys t r = .ok a) : AllGood q sys lo hi B a := by
  unfold asmIdent at h
  split at h
  · split at h
    · rename_i f hf
      cases h
      exact AllGood.single ⟨f, List.mem_of_getElem? (hg ▸ hf), rfl⟩
    · split at h
      · rename_i hj
        cases h
        exact AllGood.single ⟨by simp [Op.isJump], by simp [Op.isText], fun _ => ⟨_, sysIndex_lt hj, rfl⟩,
          by simp [Op.isGlobal], by simp⟩
      · cases h
    · exact asmGet_good hg h
  · exact asmGet_good hg h

theorem asmInvoke_good {g : GenCtx} (hg : g.prog = q) {t : Token} {c : Expr Ref} {n : Nat}
    {callee : Out Asm} {a : Asm} {lo hi : Nat} {B : List Nat}
    (hc : ∀ b, callee = .ok b → AllGood q sys lo hi B b) (h : asmInvoke g sys t c n callee = .ok a) :
    AllGood q sys lo hi B a := by
  have ind : (do let a ← callee; .ok (a ++ one (.i1 .ICALL (i32 n)) (some t)) : Out Asm) = .ok a →
      AllGood q sys lo hi B a := by
    intro h
    obtain ⟨b, h1, h⟩ := bind_ok.1 h
    cases h
    exact (hc b h1).append (AllGood.single (good_plain rfl rfl (by simp) rfl (by simp)))
  unfold asmInvoke at h
  dsimp only at h
  split at h
  · split at h
    · split at h
      · rename_i f hf hn
        cases h
        exact AllGood.single ⟨f, List.mem_of_getElem? (hg ▸ hf), rfl, by rw [hn]⟩
      · cases h
    · split at h
      · split at h
        · rename_i hj
          cases h
          exact AllGood.single ⟨rfl, _, sysIndex_lt hj, rfl⟩
        · cases h
      · cases h
    · exact ind h
  · exact ind h

mutual

theorem asmE_good {g : GenCtx} (hg : g.prog = q) : ∀ (ex : Expr Ref) (si : Nat) (a : Asm),
    asmE g sys si ex = .ok a → AllGood q sys si (si + (strsE ex).length) [] a
  | .ident t r, si, a, h => asmIdent_good hg h
  | .int v t _, si, a, h => by cases h; exact AllGood.single (good_plain rfl rfl (by simp) rfl (by simp))
  | .float v t, si, a, h => by cases h; exact AllGood.single (good_plain rfl rfl (by simp) rfl (by simp))
  | .str s t, si, a, h => by
    cases h
    exact AllGood.single (good_text rfl (Nat.le_refl _) (by simp [strsE]))
  | .none t, si, a, h => by cases h; exact AllGood.single trivial
  | .member t m r, si, a, h => by
    obtain ⟨b, h1, h⟩ := bind_ok.1 h
    cases h
    exact (asmGet_good hg h1).append (AllGood.single (good_text rfl (Nat.le_refl _) (by simp [strsE])))
  | .arr t es, si, a, h => by
    obtain ⟨b, h1, h⟩ := bind_ok.1 h
    split at h
    · cases h
    · cases h
      exact (asmEs_good hg es si b h1).append (AllGood.single (good_plain rfl rfl (by simp) rfl (by simp)))
  | .deref t l i, si, a, h => by
    obtain ⟨b, h1, h⟩ := bind_ok.1 h
    obtain ⟨d, h2, h⟩ := bind_ok.1 h
    cases h
    refine (AllGood.append ?_ ?_).append (AllGood.single good_zero)
    · exact (asmE_good hg i si b h1).mono (Nat.le_refl _) (by simp [strsE] <;> omega) (by simp)
    · exact (asmE_good hg l _ d h2).mono (by omega) (by simp [strsE] <;> omega) (by simp)
  | .call t c as, si, a, h => by
    obtain ⟨b, h1, h⟩ := bind_ok.1 h
    obtain ⟨d, h2, h⟩ := bind_ok.1 h
    cases h
    refine AllGood.append ?_ ?_
    · exact (asmEs_good hg as si b h1).mono (Nat.le_refl _) (by simp [strsE] <;> omega) (by simp)
    · refine asmInvoke_good hg (fun x hx => ?_) h2
      exact (asmE_good hg c _ x hx).mono (by omega) (by simp [strsE] <;> omega) (by simp)
  | .bin op l r, si, a, h => by
    obtain ⟨b, h1, h⟩ := bind_ok.1 h
    obtain ⟨d, h2, h⟩ := bind_ok.1 h
    obtain ⟨o, h3, h⟩ := bind_ok.1 h
    cases h
    refine (AllGood.append ?_ ?_).append (AllGood.single good_zero)
    · exact (asmE_good hg l si b h1).mono (Nat.le_refl _) (by simp [strsE] <;> omega) (by simp)
    · exact (asmE_good hg r _ d h2).mono (by omega) (by simp [strsE] <;> omega) (by simp)
  | .un op x, si, a, h => by
    obtain ⟨b, h1, h⟩ := bind_ok.1 h
    have hb := asmE_good hg x si b h1
    split at h <;> cases h
    · exact AllGood.append hb (AllGood.single good_zero)
    · exact AllGood.append hb (AllGood.single good_zero)
    · exact hb

theorem asmEs_good {g : GenCtx} (hg : g.prog = q) : ∀ (es : List (Expr Ref)) (si : Nat) (a : Asm),
    asmEs g sys si es = .ok a → AllGood q sys si (si + (strsEs es).length) [] a
  | [], si, a, h => by cases h; intro x hx; cases hx
  | ex :: es, si, a, h => by
    obtain ⟨b, h1, h⟩ := bind_ok.1 h
    obtain ⟨d, h2, h⟩ := bind_ok.1 h
    cases h
    refine AllGood.append ?_ ?_
    · exact (asmE_good hg ex si b h1).mono (Nat.le_refl _) (by simp [strsEs] <;> omega) (by simp)
    · exact (asmEs_good hg es _ d h2).mono (by omega) (by simp [strsEs] <;> omega) (by simp)

end

theorem width_get {g : GenCtx} {r : Ref} {t : Option Token} {a : Asm} (h : asmGet g r t = .ok a) :
    widthOf a = 5 := by
  obtain ⟨⟨x, y, o⟩, h1, h2⟩ := bind_ok.1 h
  cases h2; rfl

theorem width_set {g : GenCtx} {r : Ref} {t : Option Token} {a : Asm} (h : asmSet g r t = .ok a) :
    widthOf a = 5 := by
  obtain ⟨⟨x, y, o⟩, h1, h2⟩ := bind_ok.1 h
  cases h2; rfl

mutual

theorem asmS_good {g : GenCtx} (hg : g.prog = q) : ∀ (st : Stmt Ref) (pc si : Nat) (a : Asm),
    asmS g sys pc si st = .ok a → AllGood q sys si (si + (strsS st).length) (bounds pc a) a
  | .var t r none, pc, si, a, h => by cases h; intro x hx; cases hx
  | .var t r (some ex), pc, si, a, h => by
    obtain ⟨b, h1, h⟩ := bind_ok.1 h
    cases h
    exact ((asmE_good hg ex si b h1).mono (Nat.le_refl _) (by simp [strsS]) (by simp)).append
      (AllGood.single (good_plain rfl rfl (by simp) rfl (by simp)))
  | .assign t r ex, pc, si, a, h => by
    obtain ⟨b, h1, h⟩ := bind_ok.1 h
    obtain ⟨d, h2, h⟩ := bind_ok.1 h
    cases h
    exact ((asmE_good hg ex si b h1).mono (Nat.le_refl _) (by simp [strsS]) (by simp)).append
      (asmSet_good hg h2)
  | .assignArr t r i ex, pc, si, a, h => by
    obtain ⟨b, h1, h⟩ := bind_ok.1 h
    obtain ⟨d, h2, h⟩ := bind_ok.1 h
    obtain ⟨k, h3, h⟩ := bind_ok.1 h
    cases h
    refine ((AllGood.append ?_ ?_).append (asmGet_good hg h3)).append (AllGood.single good_zero)
    · exact (asmE_good hg ex si b h1).mono (Nat.le_refl _) (by simp [strsS] <;> omega) (by simp)
    · exact (asmE_good hg i _ d h2).mono (by omega) (by simp [strsS] <;> omega) (by simp)
  | .assignMem t m r ex, pc, si, a, h => by
    obtain ⟨b, h1, h⟩ := bind_ok.1 h
    obtain ⟨d, h2, h⟩ := bind_ok.1 h
    cases h
    refine (AllGood.append ?_ (asmGet_good hg h2)).append (AllGood.single (good_text rfl (by omega) ?_))
    · exact (asmE_good hg ex si b h1).mono (Nat.le_refl _) (by simp [strsS] <;> omega) (by simp)
    · simp [strsS] <;> omega
  | .call t c as, pc, si, a, h => by
    obtain ⟨b, h1, h⟩ := bind_ok.1 h
    obtain ⟨d, h2, h⟩ := bind_ok.1 h
    cases h
    refine (AllGood.append ?_ ?_).append (AllGood.single (good_plain rfl rfl (by simp) rfl (by simp)))
    · exact (asmEs_good hg as si b h1).mono (Nat.le_refl _) (by simp [strsS] <;> omega) (by simp)
    · refine asmInvoke_good hg (fun x hx => ?_) h2
      exact (asmE_good hg c _ x hx).mono (by omega) (by simp [strsS] <;> omega) (by simp)
  | .ifS t c thn false els, pc, si, a, h => by
    obtain ⟨b, h1, h⟩ := bind_ok.1 h
    obtain ⟨d, h2, h⟩ := bind_ok.1 h
    cases h
    have hd := asmB_good hg thn _ _ d h2
    refine (AllGood.append ?_ (AllGood.single (good_jump rfl ?_))).append ?_
    · exact (asmE_good hg c si b h1).mono (Nat.le_refl _) (by simp [strsS]) (by simp)
    · have := bounds_end pc (b ++ one (.i1 .FJMP (i32 (pc + widthOf b + 5 + widthOf d))) (some t) ++ d)
      simp only [widthOf_append, width_one1] at this
      rw [show pc + widthOf b + 5 + widthOf d = pc + (widthOf b + 5 + widthOf d) by omega] at this ⊢
      exact this
    · refine hd.mono (by omega) (by simp [strsS] <;> omega) fun p hp => bounds_right _ ?_
      simpa only [widthOf_append, width_one1, Nat.add_assoc] using hp
  | .ifS t c thn true els, pc, si, a, h => by
    obtain ⟨b, h1, h⟩ := bind_ok.1 h
    obtain ⟨d, h2, h⟩ := bind_ok.1 h
    obtain ⟨k, h3, h⟩ := bind_ok.1 h
    cases h
    have hd := asmB_good hg thn _ _ d h2
    have hk := asmB_good hg els _ _ k h3
    refine (((AllGood.append ?_ (AllGood.single (good_jump rfl ?_))).append ?_).append
      (AllGood.single (good_jump rfl ?_))).append ?_
    · exact (asmE_good hg c si b h1).mono (Nat.le_refl _) (by simp [strsS] <;> omega) (by simp)
    · refine bounds_right _ ?_
      have := bounds_start (pc + widthOf b + 5 + widthOf d + 5) k
      simpa only [widthOf_append, width_one1, Nat.add_assoc] using this
    · refine hd.mono (by omega) (by simp [strsS] <;> omega) fun p hp => bounds_left _ (bounds_left _ (bounds_right _ ?_))
      simpa only [widthOf_append, width_one1, Nat.add_assoc] using hp
    · refine bounds_right _ ?_
      have := bounds_end (pc + widthOf b + 5 + widthOf d + 5) k
      simpa only [widthOf_append, width_one1, Nat.add_assoc] using this
    · refine hk.mono (by omega) (by simp [strsS] <;> omega) fun p hp => bounds_right _ ?_
      simpa only [widthOf_append, width_one1, Nat.add_assoc] using hp
  | .whileS t c body, pc, si, a, h => by
    obtain ⟨b, h1, h⟩ := bind_ok.1 h
    obtain ⟨d, h2, h⟩ := bind_ok.1 h
    cases h
    have hb := asmB_good hg body _ _ b h1
    have hd := asmE_good hg c _ d h2
    refine (((AllGood.single (good_jump rfl ?_)).append ?_).append ?_).append
      (AllGood.single (good_jump rfl ?_))
    · refine bounds_left _ (bounds_right _ ?_)
      have := bounds_start (pc + 5 + widthOf b) d
      simpa only [widthOf_append, width_one1, Nat.add_assoc] using this
    · refine hb.mono (by omega) (by simp [strsS] <;> omega) fun p hp => bounds_left _ (bounds_left _ (bounds_right _ ?_))
      simpa only [widthOf_append, width_one1, Nat.add_assoc] using hp
    · exact hd.mono (by omega) (by simp [strsS] <;> omega) (by simp)
    · refine bounds_left _ (bounds_left _ (bounds_right _ ?_))
      have := bounds_start (pc + 5) b
      simpa only [widthOf_append, width_one1, Nat.add_assoc] using this
  | .forS t n r start stop body, pc, si, a, h => by
    obtain ⟨b, h1, h⟩ := bind_ok.1 h
    obtain ⟨s0, h2, h⟩ := bind_ok.1 h
    obtain ⟨d, h3, h⟩ := bind_ok.1 h
    obtain ⟨g0, h4, h⟩ := bind_ok.1 h
    obtain ⟨s1, h5, h⟩ := bind_ok.1 h
    obtain ⟨z, h6, h⟩ := bind_ok.1 h
    cases h
    have hb := asmE_good hg start _ b h1
    have hd := asmB_good hg body _ _ d h3
    have hz := asmE_good hg stop _ z h6
    have w0 := width_set h2
    have wg := width_get h4
    have w1 := width_set h5
    refine ((((((((((AllGood.append ?_ (asmSet_good hg h2)).append (AllGood.single (good_jump rfl ?_))).append
      ?_).append (asmGet_good hg h4)).append (AllGood.single (good_plain rfl rfl (by simp) rfl (by simp)))).append
      (AllGood.single good_zero)).append (asmSet_good hg h5)).append (asmGet_good hg h4)).append ?_).append
      (AllGood.single good_zero)).append (AllGood.single (good_jump rfl ?_))
    · exact hb.mono (Nat.le_refl _) (by simp [strsS] <;> omega) (by simp)
    · refine bounds_left _ (bounds_left _ (bounds_left _ (bounds_right _ ?_)))
      have := bounds_start (pc + widthOf b + 10 + widthOf d + 16) g0
      simp only [widthOf_append, width_one1, width_one0, w0, wg, w1]
      rw [show pc + (widthOf b + 5 + 5 + widthOf d + 5 + 5 + 1 + 5) = pc + widthOf b + 10 + widthOf d + 16 by omega]
      exact this
    · refine hd.mono (by omega) (by simp [strsS] <;> omega) fun p hp => ?_
      iterate 8 refine bounds_left _ ?_
      refine bounds_right _ ?_
      simp only [widthOf_append, width_one1, width_one0, w0, wg, w1]
      rw [show pc + (widthOf b + 5 + 5) = pc + widthOf b + 10 by omega]
      exact hp
    · exact hz.mono (by omega) (by simp [strsS] <;> omega) (by simp)
    · iterate 8 refine bounds_left _ ?_
      refine bounds_right _ ?_
      have := bounds_start (pc + widthOf b + 10) d
      simp only [widthOf_append, width_one1, width_one0, w0, wg, w1]
      rw [show pc + (widthOf b + 5 + 5) = pc + widthOf b + 10 by omega]
      exact this
  | .ret t none, pc, si, a, h => by
    cases h
    exact AllGood.append (AllGood.single good_zero) (AllGood.single (good_plain rfl rfl (by simp) rfl (by simp)))
  | .ret t (some ex), pc, si, a, h => by
    obtain ⟨b, h1, h⟩ := bind_ok.1 h
    cases h
    exact ((asmE_good hg ex si b h1).mono (Nat.le_refl _) (by simp [strsS]) (by simp)).append
      (AllGood.single (good_plain rfl rfl (by simp) rfl (by simp)))

theorem asmB_good {g : GenCtx} (hg : g.prog = q) : ∀ (ss : List (Stmt Ref)) (pc si : Nat) (a : Asm),
    asmB g sys pc si ss = .ok a → AllGood q sys si (si + (strsB ss).length) (bounds pc a) a
  | [], pc, si, a, h => by cases h; intro x hx; cases hx
  | st :: ss, pc, si, a, h => by
    obtain ⟨b, h1, h⟩ := bind_ok.1 h
    obtain ⟨d, h2, h⟩ := bind_ok.1 h
    cases h
    refine AllGood.append ?_ ?_
    · exact (asmS_good hg st pc si b h1).mono (Nat.le_refl _) (by simp [strsB] <;> omega) fun p hp => bounds_left _ hp
    · exact (asmB_good hg ss _ _ d h2).mono (by omega) (by simp [strsB] <;> omega) fun p hp => bounds_right _ hp

end

/-! ### Functions: no jump to the end -/

/-- The starts of the instructions. -/
def starts (pc : Nat) : Asm → List Nat
  | [] => []
  | x :: l => pc :: starts (pc + x.1.width) l

theorem bounds_starts : ∀ {pc : Nat} {a b : Asm} {p : Nat}, b ≠ [] → p ∈ bounds pc a → p ∈ starts pc (a ++ b)
  | pc, [], b, p, hb, h => by
    simp only [bounds, List.mem_singleton] at h
    subst h
    cases b with
    | nil => exact absurd rfl hb
    | cons x b => simp [starts]
  | pc, x :: a, b, p, hb, h => by
    simp only [bounds, List.mem_cons, List.cons_append, starts] at h ⊢
    exact h.imp id (bounds_starts hb)

theorem starts_right : ∀ {pc : Nat} (a : Asm) {b : Asm} {p : Nat}, p ∈ starts (pc + widthOf a) b →
    p ∈ starts pc (a ++ b)
  | pc, [], b, p, h => by simpa [widthOf] using h
  | pc, x :: a, b, p, h => by
    simp only [starts, List.mem_cons, List.cons_append, widthOf] at h ⊢
    exact .inr (starts_right a (by rwa [Nat.add_assoc]))

theorem asmB_ret_good {g : GenCtx} (hg : g.prog = q) : ∀ (ss : List (Stmt Ref)) (pc si : Nat) (a : Asm),
    asmB g sys pc si ss = .ok a → (ss.getLast?.map Stmt.isRet).getD false = true →
    AllGood q sys si (si + (strsB ss).length) (starts pc a) a
  | [], pc, si, a, h, hr => by cases hr
  | [st], pc, si, a, h, hr => by
    obtain ⟨b, h1, h⟩ := bind_ok.1 h
    obtain ⟨d, h2, h⟩ := bind_ok.1 h
    cases h
    cases h2
    have hr : st.isRet = true := hr
    cases st with
    | ret t e =>
      cases e with
      | none =>
        cases h1
        exact AllGood.append (AllGood.append (AllGood.single good_zero)
          (AllGood.single (good_plain rfl rfl (by simp) rfl (by simp)))) fun x hx => by cases hx
      | some ex =>
        obtain ⟨c, h4, h3⟩ := bind_ok.1 h1
        cases h3
        refine AllGood.append (AllGood.append ?_
          (AllGood.single (good_plain rfl rfl (by simp) rfl (by simp)))) fun x hx => by cases hx
        exact (asmE_good hg ex si c h4).mono (Nat.le_refl _) (by simp [strsB, strsS]) (by simp)
    | _ => cases hr
  | st :: s2 :: ss, pc, si, a, h, hr => by
    obtain ⟨b, h1, h⟩ := bind_ok.1 h
    obtain ⟨d, h2, h⟩ := bind_ok.1 h
    cases h
    have hr' : ((s2 :: ss).getLast?.map Stmt.isRet).getD false = true := by simpa using hr
    have hd : d ≠ [] := by
      intro hd
      have := asmB_ret_pos (s2 :: ss) _ _ d h2 hr'
      rw [hd] at this
      simp [widthOf] at this
    refine AllGood.append ?_ ?_
    · exact (asmS_good hg st pc si b h1).mono (Nat.le_refl _) (by simp [strsB] <;> omega)
        fun p hp => bounds_starts hd hp
    · exact (asmB_ret_good hg (s2 :: ss) _ _ d h2 hr').mono (by omega) (by simp [strsB] <;> omega)
        fun p hp => starts_right _ hp

theorem asmFunc_good {p : Prog Ref} {pc si : Nat} {f : FuncDecl Ref} {a : Asm}
    (h : asmFunc p sys pc si f = .ok a) :
    AllGood p sys si (si + (strsB f.body).length) (starts pc a) a := by
  obtain ⟨b, h1, h⟩ := bind_ok.1 h
  cases h
  have hl : ∀ {lo hi B}, AllGood p sys lo hi B (asmLocals (funcCtx p f) f.name) := by
    intro lo hi B
    unfold asmLocals
    split
    · exact AllGood.single (good_plain rfl rfl (by simp) rfl (by simp))
    · intro x hx; cases hx
  by_cases hr : (f.body.getLast?.map Stmt.isRet).getD false = true
  · rw [asmEnd, if_pos hr, List.append_nil]
    exact hl.append ((asmB_ret_good (g := funcCtx p f) rfl _ _ _ b h1 hr).mono (Nat.le_refl _) (Nat.le_refl _)
      fun x hx => starts_right _ hx)
  · rw [asmEnd, if_neg hr]
    refine (hl.append ?_).append (AllGood.append (AllGood.single (good_plain rfl rfl (by simp) rfl (by simp)))
      (AllGood.single (good_plain rfl rfl (by simp) rfl (by simp))))
    exact (asmB_good (g := funcCtx p f) rfl _ _ _ b h1).mono (Nat.le_refl _) (Nat.le_refl _)
      fun x hx => bounds_starts (by simp [one]) (bounds_right _ hx)

theorem asmInit_good {p : Prog Ref} {pc si : Nat} {a : Asm} (h : asmInit p sys pc si = .ok a) :
    AllGood p sys si (si + (strsB (initBody p)).length) (starts pc a) a := by
  obtain ⟨b, h1, h⟩ := bind_ok.1 h
  cases h
  refine ((AllGood.append (AllGood.single (good_plain rfl rfl (by simp) rfl (by simp))) ?_).append
    (AllGood.single (good_plain rfl rfl (by simp) rfl (by simp)))).append
      (AllGood.single (good_plain rfl rfl (by simp) rfl (by simp)))
  refine (asmB_good (g := initCtx p) rfl _ _ _ b h1).mono (Nat.le_refl _) (Nat.le_refl _) fun x hx => ?_
  rw [List.append_assoc]
  exact bounds_starts (by simp [one]) (bounds_right _ hx)

end
end Ccml
