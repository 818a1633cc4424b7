import Verif.SrcSim
/-!
What becomes of the constants of the source: every constant whose value the source says
(`Src.Ctx.constVal`) is a literal of that value after semantic analysis.
-/
set_option linter.unusedSimpArgs false
namespace Ccml.Src
open Sem (State Res CallF Vars Slot)
open Props (Names nameE nameEs nameO nameS nameB nameItem nameItems globalNames argNames isVarOf dropNone
  withConsts standIn resolve isOp InitStep ProgStep ElseApart)

/-! ### When folding stops -/

/-- A round that changes nothing but initialisers that are just `none`. -/
def Quiet (p q : Prog Ref) : Prop :=
  ∀ j : Nat, q[j]? = p[j]? ∨ ∃ t c k, p[j]? = some (.var t c (some (.none k))) ∧ q[j]? = some (.var t c none)

theorem Quiet.refl (p : Prog Ref) : Quiet p p := fun _ => .inl rfl

theorem Quiet.trans {p q r : Prog Ref} (h : Quiet p q) (k : Quiet q r) : Quiet p r := by
  intro j
  rcases h j with h1 | ⟨t, c, x, h1, h2⟩ <;> rcases k j with h3 | ⟨t', c', x', h3, h4⟩
  · exact .inl (h3.trans h1)
  · exact .inr ⟨t', c', x', h1 ▸ h3, h4⟩
  · exact .inr ⟨t, c, x, h1, h3.trans h2⟩
  · rw [h2] at h3; cases h3

theorem Quiet.ident {p q : Prog Ref} (h : Quiet p q) (r : Ref) (s : EvalSt) : evalIdent q r s = evalIdent p r s := by
  cases r with
  | item i =>
    unfold evalIdent
    rcases h i with h | ⟨t, c, k, h1, h2⟩
    · simp only [h]
    · simp only [h1, h2]
  | _ => rfl

theorem Quiet.evalG {p q : Prog Ref} (h : Quiet p q) : ∀ (e : Expr Ref) (s : EvalSt), evalG q e s = Ccml.evalG p e s
  | .int .., s => by rw [Ccml.evalG, Ccml.evalG]
  | .ident t r, s => by rw [Ccml.evalG, Ccml.evalG, h.ident]
  | .un op a, s => by rw [Ccml.evalG, Ccml.evalG, Quiet.evalG h a s]
  | .bin op l r, s => by
    rw [Ccml.evalG, Ccml.evalG, Quiet.evalG h l s]
    split
    · rfl
    · split
      · rfl
      · rw [Quiet.evalG h r]
  | .float .., s => by rw [Ccml.evalG, Ccml.evalG] <;> simp
  | .str .., s => by rw [Ccml.evalG, Ccml.evalG] <;> simp
  | .none .., s => by rw [Ccml.evalG, Ccml.evalG] <;> simp
  | .arr .., s => by rw [Ccml.evalG, Ccml.evalG] <;> simp
  | .member .., s => by rw [Ccml.evalG, Ccml.evalG] <;> simp
  | .deref .., s => by rw [Ccml.evalG, Ccml.evalG] <;> simp
  | .call .., s => by rw [Ccml.evalG, Ccml.evalG] <;> simp

theorem Quiet.evalGlobal {p q : Prog Ref} (h : Quiet p q) (e : Expr Ref) : evalGlobal q e = Ccml.evalGlobal p e := by
  unfold Ccml.evalGlobal
  rw [h.evalG]

theorem quiet_set {p : Prog Ref} {i : Nat} {t : Token} {c : Bool} {e : Expr Ref} {o : Option (Expr Ref)}
    (hi : p[i]? = some (.var t c (some e))) (h : globalInit p e = .ok (o, false)) : Quiet p (p.set i (.var t c o)) := by
  intro j
  by_cases hji : i = j
  · subst hji
    rw [List.getElem?_set_self (List.getElem?_eq_some_iff.1 hi).1, hi]
    unfold globalInit at h
    split at h
    · cases h; exact .inr ⟨t, c, _, rfl, rfl⟩
    · split at h <;> cases h
      exact .inl rfl
    · split at h <;> cases h
      exact .inl rfl
    · cases h; exact .inl rfl
  · rw [List.getElem?_set_ne hji]
    exact .inl rfl

theorem globalPass_ch : ∀ {is : List Nat} {p q : Prog Ref} {ch ch' : Bool}, globalPass is p ch = .ok (q, ch') →
    ch' = false → ch = false
  | [], p, q, ch, ch', h, hf => by rw [globalPass] at h; cases h; exact hf
  | i :: is, p, q, ch, ch', h, hf => by
    rw [globalPass] at h
    split at h
    · split at h
      · cases h
      · have := globalPass_ch h hf
        simp only [Bool.or_eq_false_iff] at this
        exact this.1
    · exact globalPass_ch h hf

/-- No operator in an initialiser can be folded. -/
def Stuck (p : Prog Ref) : Prop :=
  ∀ (i : Nat) t c e, p[i]? = some (.var t c (some e)) → isOp e = true → evalGlobal p e = .ok none

theorem globalInit_op {p : Prog Ref} {e : Expr Ref} (ho : isOp e = true) : globalInit p e =
    match evalGlobal p e with
    | .error x => .error x
    | .ok (some v) => .ok (some (.int v none none), true)
    | .ok none => .ok (some e, false) := by
  cases e <;> first | rfl | cases ho

theorem globalPass_quiet : ∀ {is : List Nat} {p q : Prog Ref} {ch : Bool}, globalPass is p ch = .ok (q, false) →
    Quiet p q ∧ ∀ i ∈ is, ∀ t c e, q[i]? = some (.var t c (some e)) → isOp e = true → evalGlobal q e = .ok none
  | [], p, q, ch, h => by rw [globalPass] at h; cases h; exact ⟨.refl p, nofun⟩
  | i :: is, p, q, ch, h => by
    rw [globalPass] at h
    split at h
    · rename_i t c e hi
      split at h
      · cases h
      · rename_i o ch1 he
        have hch := globalPass_ch h rfl
        simp only [Bool.or_eq_false_iff] at hch
        obtain ⟨rfl, rfl⟩ := hch
        have h1 := quiet_set hi he
        obtain ⟨h2, h3⟩ := globalPass_quiet h
        refine ⟨h1.trans h2, fun j hj t' c' e' hq ho => ?_⟩
        rcases List.mem_cons.1 hj with rfl | hj
        · have h12 := h1.trans h2
          rw [h12.evalGlobal]
          rcases h12 j with h4 | ⟨_, _, _, _, h4⟩
          · rw [h4, hi] at hq
            cases hq
            rw [globalInit_op ho] at he
            split at he
            · cases he
            · cases he
            · rename_i h5; exact h5
          · rw [hq] at h4; cases h4
        · exact h3 j hj t' c' e' hq ho
    · rename_i hi
      obtain ⟨h2, h3⟩ := globalPass_quiet h
      refine ⟨h2, fun j hj t' c' e' hq ho => ?_⟩
      rcases List.mem_cons.1 hj with rfl | hj
      · rcases h2 j with h4 | ⟨_, _, _, _, h4⟩
        · exact absurd (h4 ▸ hq) (hi _ _ _)
        · rw [hq] at h4; cases h4
      · exact h3 j hj t' c' e' hq ho

theorem globalLoop_stuck : ∀ {n : Nat} {p q : Prog Ref}, globalLoop n p = .ok q → Stuck q
  | 0, p, q, h => by cases h
  | n + 1, p, q, h => by
    rw [globalLoop] at h
    split at h
    · cases h
    · exact globalLoop_stuck h
    · rename_i p1 h1
      cases h
      obtain ⟨h2, h3⟩ := globalPass_quiet h1
      intro i t c e hi ho
      refine h3 i (List.mem_range.2 ?_) t c e hi ho
      rw [(Props.globalPass_step h1).1]
      exact (List.getElem?_eq_some_iff.1 hi).1

theorem Stuck.quiet {p q : Prog Ref} (h : Stuck p) (k : Quiet p q) : Stuck q := by
  intro i t c e hi ho
  rw [k.evalGlobal]
  rcases k i with h1 | ⟨_, _, _, _, h1⟩
  · exact h i t c e (h1 ▸ hi) ho
  · rw [hi] at h1; cases h1

theorem stuck_pass : ∀ {is : List Nat} {p q : Prog Ref} {ch ch' : Bool}, Stuck p → globalPass is p ch = .ok (q, ch') →
    Stuck q
  | [], p, q, ch, ch', hs, h => by rw [globalPass] at h; cases h; exact hs
  | i :: is, p, q, ch, ch', hs, h => by
    rw [globalPass] at h
    split at h
    · rename_i t c e hi
      split at h
      · cases h
      · rename_i o ch1 he
        have : ch1 = false := by
          cases ho : isOp e with
          | true =>
            rw [globalInit_op ho, hs i t c e hi ho] at he
            cases he
            rfl
          | false =>
            unfold globalInit at he
            split at he
            · cases he; rfl
            · cases ho
            · cases ho
            · cases he; rfl
        subst this
        exact stuck_pass (hs.quiet (quiet_set hi he)) h
    · exact stuck_pass hs h

theorem globalVars_stuck {p q : Prog Ref} (h : globalVars p = .ok q) : Stuck q := by
  unfold globalVars at h
  split at h
  · cases h
  · rename_i p1 h1
    split at h
    · cases h
    · rename_i p2 ch h2
      cases h
      exact stuck_pass (globalLoop_stuck h1) h2

/-! ### Numbers computed from constants -/

section
variable {fl : FloatOps} {val : Str → Option I32} {q : Prog Ref} {find : Str → Option Ref} {var : Ref → Bool}

/-- The integers that names stand for are so in the tree. -/
def Known (val : Str → Option I32) (find : Str → Option Ref) (q : Prog Ref) : Prop :=
  ∀ n v r, val n = some v → find n = some r →
    ∃ i t k c, r = .item i ∧ q[i]? = some (.var t true (some (.int v k c)))

theorem constInt_supported {e : Expr Unit} {e' : Expr Ref} {v : I32} (h : constInt fl val e = some v)
    (he : nameE find var e = some e') : evalSupported e' = true := by
  cases e with
  | int => rw [nameE] at he; cases he; rfl
  | ident =>
    rw [nameE, Option.map_eq_some_iff] at he
    obtain ⟨_, _, rfl⟩ := he
    rfl
  | un =>
    rw [nameE, Option.map_eq_some_iff] at he
    obtain ⟨_, _, rfl⟩ := he
    rfl
  | bin =>
    rw [nameE, Option.bind_eq_some_iff] at he
    obtain ⟨_, _, he⟩ := he
    rw [Option.map_eq_some_iff] at he
    obtain ⟨_, _, rfl⟩ := he
    rfl
  | _ => rw [constInt] at h <;> simp at *

theorem binary_int {op : Token} {a b v : I32} (h : Sem.binary fl op.type (.int a) (.int b) = .val (.int v)) :
    op.type ≠ .NOT ∧ ((∃ x, constBin op a b = .error x) ∨ constBin op a b = .ok v) := by
  have hv : ∀ w, Sem.binaryV fl op.type (.int a) (.int b) w = .ok (.int v) w := by
    intro w
    show (Sem.binary fl op.type (.int a) (.int b)).res w = _
    rw [h]
    rfl
  refine ⟨fun hn => ?_, ?_⟩
  · rw [hn] at h; cases h
  · rcases Props.constBin_runs fl op a b ⟨[], [], [], [], 0, Io.fresh⟩ with ⟨x, y1, y2, y3⟩ | ⟨_, y1, _⟩ | ⟨_, y1, _⟩ | ⟨_, y1⟩
    · rw [hv] at y3
      cases y3
      exact .inr y1
    · exact .inl ⟨_, y1⟩
    · exact .inl ⟨_, y1⟩
    · exact .inl ⟨_, y1⟩

/-- Folding finds the number, or gives up with an error. -/
theorem constInt_evalG (hk : Known val find q) : ∀ (e : Expr Unit) {e' : Expr Ref} {v : I32} (s : EvalSt),
    s.valid = true → constInt fl val e = some v → nameE find var e = some e' →
    (∃ x, evalG q e' s = .error x) ∨ evalG q e' s = .ok { s with stack := v :: s.stack }
  | .int x t c, e', v, s, _, h, he => by
    rw [nameE] at he
    rw [constInt] at h
    cases he; cases h
    rw [evalG]
    exact .inr rfl
  | .ident t _, e', v, s, _, h, he => by
    rw [nameE, Option.map_eq_some_iff] at he
    obtain ⟨r, hr, rfl⟩ := he
    rw [constInt] at h
    obtain ⟨i, t', k, c, rfl, hi⟩ := hk _ _ _ h hr
    rw [evalG]
    unfold evalIdent
    simp only [hi, or_true]
  | .un op a, e', v, s, hs, h, he => by
    rw [nameE, Option.map_eq_some_iff] at he
    obtain ⟨a', ha, rfl⟩ := he
    rw [constInt] at h
    split at h
    · rename_i x hx
      rw [evalG, constInt_supported hx ha]
      simp only [Bool.not_true, Bool.false_eq_true, if_false]
      rcases constInt_evalG hk a s hs hx ha with ⟨y, hy⟩ | hy
      · rw [hy]; exact .inl ⟨y, rfl⟩
      · rw [hy]
        dsimp only
        split
        · rename_i hop
          rw [hop] at h
          have h' : Sem.exact (-x.toInt) = .val (.int v) := by
            split at h
            · rename_i h1; cases h; exact h1
            · cases h
          have := Props.exact_res (-x.toInt) ⟨[], [], [], [], 0, Io.fresh⟩
          rw [h'] at this
          cases hr : ret32 (-x.toInt) with
          | error f => exact .inl ⟨_, rfl⟩
          | ok r => rw [hr] at this; cases this; exact .inr rfl
        · exact .inl ⟨_, rfl⟩
    · cases h
  | .bin op l r, e', v, s, hs, h, he => by
    rw [nameE, Option.bind_eq_some_iff] at he
    obtain ⟨l', hl, he⟩ := he
    rw [Option.map_eq_some_iff] at he
    obtain ⟨r', hr, rfl⟩ := he
    rw [constInt] at h
    split at h
    · rename_i x y hx hy
      rw [evalG, constInt_supported hx hl, constInt_supported hy hr]
      simp only [Bool.not_true, Bool.or_false, Bool.false_eq_true, if_false]
      rcases constInt_evalG hk l s hs hx hl with ⟨z, hz⟩ | hz
      · rw [hz]; exact .inl ⟨z, rfl⟩
      · rw [hz]
        dsimp only
        rcases constInt_evalG hk r { s with stack := x :: s.stack } hs hy hr with ⟨z, hz⟩ | hz
        · rw [hz]; exact .inl ⟨z, rfl⟩
        · rw [hz]
          dsimp only
          rw [hs]
          simp only [Bool.not_true, Bool.false_eq_true, if_false]
          have h' : Sem.binary fl op.type (.int x) (.int y) = .val (.int v) := by
            split at h
            · rename_i h1; cases h; exact h1
            · cases h
          rcases (binary_int h').2 with ⟨z, hz⟩ | hz
          · rw [hz]; exact .inl ⟨z, rfl⟩
          · rw [hz]; exact .inr rfl
    · cases h
  | .float .., _, _, _, _, h, _ => by rw [constInt] at h <;> simp at *
  | .str .., _, _, _, _, h, _ => by rw [constInt] at h <;> simp at *
  | .none .., _, _, _, _, h, _ => by rw [constInt] at h <;> simp at *
  | .arr .., _, _, _, _, h, _ => by rw [constInt] at h <;> simp at *
  | .member .., _, _, _, _, h, _ => by rw [constInt] at h <;> simp at *
  | .deref .., _, _, _, _, h, _ => by rw [constInt] at h <;> simp at *
  | .call .., _, _, _, _, h, _ => by rw [constInt] at h <;> simp at *

/-- Evaluating the expression gives the number. -/
theorem constInt_evalE (hk : Known val find q) (dx : Sem.Ctx) (hf : dx.fl = fl) (hq : dx.prog = q) (cf : CallF)
    (ρ : Vars) (w : State) : ∀ (e : Expr Unit) {e' : Expr Ref} {v : I32},
    constInt fl val e = some v → nameE find var e = some e' → Sem.evalE dx cf ρ e' w = .ok (.int v) w
  | .int x t c, e', v, h, he => by
    rw [nameE] at he
    rw [constInt] at h
    cases he; cases h
    rw [Sem.evalE]
  | .ident t _, e', v, h, he => by
    rw [nameE, Option.map_eq_some_iff] at he
    obtain ⟨r, hr, rfl⟩ := he
    rw [constInt] at h
    obtain ⟨i, t', k, c, rfl, hi⟩ := hk _ _ _ h hr
    rw [Sem.evalE]
    unfold Sem.Ctx.ident
    rw [← hq] at hi
    simp only [hi, Sem.literal]
  | .un op a, e', v, h, he => by
    rw [nameE, Option.map_eq_some_iff] at he
    obtain ⟨a', ha, rfl⟩ := he
    rw [constInt] at h
    split at h
    · rename_i x hx
      rw [Sem.evalE, constInt_evalE hk dx hf hq cf ρ w a hx ha]
      show (if op.type = .SUB ∨ op.type = .NOT then (Sem.unary dx.fl op.type (.int x)).res w else _) = _
      split at h
      · rename_i h1
        cases h
        rw [hf, h1, if_pos]
        · rfl
        · revert h1
          generalize op.type = ty
          intro h1
          cases ty <;> first | exact .inl rfl | exact .inr rfl | cases h1
      · cases h
    · cases h
  | .bin op l r, e', v, h, he => by
    rw [nameE, Option.bind_eq_some_iff] at he
    obtain ⟨l', hl, he⟩ := he
    rw [Option.map_eq_some_iff] at he
    obtain ⟨r', hr, rfl⟩ := he
    rw [constInt] at h
    split at h
    · rename_i x y hx hy
      rw [Sem.evalE, constInt_evalE hk dx hf hq cf ρ w l hx hl]
      show ((Sem.evalE dx cf ρ r' w).bind fun b w => _) = _
      rw [constInt_evalE hk dx hf hq cf ρ w r hy hr]
      show (if op.type = .NOT then _ else (Sem.binary dx.fl op.type (.int x) (.int y)).res w) = _
      have h' : Sem.binary fl op.type (.int x) (.int y) = .val (.int v) := by
        split at h
        · rename_i h1; cases h; exact h1
        · cases h
      rw [if_neg (binary_int h').1, hf, h']
      rfl
    · cases h
  | .float .., _, _, h, _ => by rw [constInt] at h <;> simp at *
  | .str .., _, _, h, _ => by rw [constInt] at h <;> simp at *
  | .none .., _, _, h, _ => by rw [constInt] at h <;> simp at *
  | .arr .., _, _, h, _ => by rw [constInt] at h <;> simp at *
  | .member .., _, _, h, _ => by rw [constInt] at h <;> simp at *
  | .deref .., _, _, h, _ => by rw [constInt] at h <;> simp at *
  | .call .., _, _, h, _ => by rw [constInt] at h <;> simp at *
end

/-! ### All constants -/

theorem nameItems_get {p0 : Prog Unit} : ∀ {p : List (Item Unit)} {q : Prog Ref}, nameItems p0 p = some q →
    p.length = q.length ∧ ∀ (i : Nat) x, p[i]? = some x → ∃ y, q[i]? = some y ∧ nameItem p0 x = some y
  | [], q, h => by rw [nameItems] at h; cases h; exact ⟨rfl, nofun⟩
  | x :: xs, q, h => by
    rw [nameItems, Option.bind_eq_some_iff] at h
    obtain ⟨y, hy, h⟩ := h
    rw [Option.map_eq_some_iff] at h
    obtain ⟨ys, hys, rfl⟩ := h
    obtain ⟨h1, h2⟩ := nameItems_get hys
    refine ⟨by simp [h1], fun i x' hi => ?_⟩
    cases i with
    | zero => cases hi; exact ⟨y, rfl, hy⟩
    | succ i => exact h2 i x' hi

theorem resolve_get {p : Prog Unit} {q : Prog Ref} (h : resolve p = some q) :
    p.length = q.length ∧ ∀ (i : Nat) x, p[i]? = some x → ∃ y, q[i]? = some y ∧ nameItem p x = some y :=
  nameItems_get h

/-- A constant of the source in the annotated tree. -/
theorem resolve_const {p : Prog Unit} {q : Prog Ref} (h : resolve p = some q) {i : Nat} {t : Token} {c : Bool}
    {e : Expr Unit} (hi : p[i]? = some (.var t c (some e))) :
    ∃ e', q[i]? = some (.var t c (some e')) ∧ nameE (globalNames p).find (isVarOf p) e = some e' := by
  obtain ⟨y, h1, h2⟩ := (resolve_get h).2 i _ hi
  rw [nameItem, Option.map_eq_some_iff] at h2
  obtain ⟨o, h2, rfl⟩ := h2
  rw [nameO, Option.map_eq_some_iff] at h2
  obtain ⟨e', h2, rfl⟩ := h2
  exact ⟨e', h1, h2⟩

theorem constPass_back : ∀ {is : List Nat} {p q : Prog Ref}, constPass is p = .ok q →
    ∀ {i : Nat} {t : Token} {e : Expr Ref}, q[i]? = some (.var t true (some e)) →
      ∃ e', p[i]? = some (.var t true (some e'))
  | [], p, q, h, i, t, e, hi => by rw [constPass] at h; cases h; exact ⟨e, hi⟩
  | j :: is, p, q, h, i, t, e, hi => by
    rw [constPass] at h
    split at h
    · exact constPass_back h hi
    · rename_i x hx
      split at h
      · cases h
      · rename_i y hy
        obtain ⟨e', he'⟩ := constPass_back h hi
        by_cases hji : j = i
        · subst hji
          rw [List.getElem?_set_self (List.getElem?_eq_some_iff.1 hx).1] at he'
          cases he'
          cases x with
          | var t' c init =>
            obtain ⟨init', h1, h2, _⟩ := Props.constItem_const hy
            cases h2
            cases init with
            | none => cases h1
            | some e'' => exact ⟨e'', hx⟩
          | func f =>
            rw [constItem] at hy
            split at hy
            · cases hy
            · cases hy
          | syscall n a => cases hy
        · rw [List.getElem?_set_ne hji] at he'
          exact ⟨e', he'⟩

section
variable {cx : Ctx} {q1 q2 : Prog Ref} (hr : resolve cx.prog = some q1) (hs : ProgStep q1 q2) (hk : Stuck q2)
include hr hs hk

theorem const_folded {val : Str → Option I32} (hv : Known val (globalNames cx.prog).find q2) {i : Nat} {t : Token}
    {e : Expr Unit} (hi : cx.prog[i]? = some (.var t true (some e))) (hn : ∀ t x, e ≠ .ident t x) {v : I32}
    (h : constInt cx.fl val e = some v) : ∃ k c, q2[i]? = some (.var t true (some (.int v k c))) := by
  obtain ⟨e', h1, h2⟩ := resolve_const hr hi
  have hl : i < q2.length := hs.1 ▸ (List.getElem?_eq_some_iff.1 h1).1
  have h3 := List.getElem?_eq_getElem hl
  have h4 := hs.2 i _ _ h1 h3
  have key : q2[i]? = some (.var t true (some e')) → ∃ k c, q2[i]? = some (.var t true (some (.int v k c))) := by
    intro h5
    cases e with
    | int x k c =>
      rw [constInt] at h
      rw [nameE] at h2
      cases h; cases h2
      exact ⟨_, _, h5⟩
    | ident t x => exact absurd rfl (hn t x)
    | _ =>
      first
      | (rw [constInt] at h <;> simp at * ; done)
      | (have ho : isOp e' = true := by
           first
           | (rw [nameE, Option.map_eq_some_iff] at h2; obtain ⟨_, _, rfl⟩ := h2; rfl)
           | (rw [nameE, Option.bind_eq_some_iff] at h2; obtain ⟨_, _, h2⟩ := h2
              rw [Option.map_eq_some_iff] at h2; obtain ⟨_, _, rfl⟩ := h2; rfl)
         have h6 := hk i t true e' h5 ho
         unfold evalGlobal at h6
         rcases constInt_evalG hv _ ⟨[], true⟩ rfl h h2 with ⟨x, hx⟩ | hx
         · rw [hx] at h6; cases h6
         · rw [hx] at h6; cases h6)
  generalize hz : q2[i] = z at h3 h4
  cases h4 with
  | same => exact key h3
  | var _ _ h => 
    cases h with
    | same => exact key h3
    | drop => 
      cases e <;> first | (rw [constInt] at h <;> simp at * ; done) | (simp [nameE, Option.bind_eq_some_iff] at h2; done)
    | @fold _ v' k c ho hm =>
      refine ⟨k, c, ?_⟩
      have h5 := hm q2 (.refl q2) ⟨q2, cx.fl, cx.funAddr, cx.table, cx.host⟩ (fun _ _ _ => .timeout) (fun _ => .fresh) ⟨[], [], [], [], 0, Io.fresh⟩
      rw [constInt_evalE hv _ rfl rfl _ _ _ e h h2] at h5
      cases h5
      exact h3

theorem constNum_known : ∀ n, Known (cx.constNum n) (globalNames cx.prog).find q2
  | 0 => fun _ _ _ h => by cases h
  | n + 1 => fun name v r h hf => by
    rw [find_global, Option.map_eq_some_iff] at hf
    obtain ⟨i, hg, rfl⟩ := hf
    rw [Ctx.constNum, hg] at h
    dsimp only at h
    split at h
    · cases h
    · rename_i t e hn hi
      obtain ⟨k, c, h1⟩ := const_folded hr hs hk (constNum_known n) hi (fun t' x he => hn _ _ he) h
      exact ⟨i, t, k, c, rfl, h1⟩
    · cases h

theorem constVal_literal {q : Prog Ref} (hc : consts q2 = .ok q) : ∀ (n i : Nat) {v : Val}, cx.constVal n i = some v →
    ∃ t e, q[i]? = some (.var t true (some e)) ∧ Sem.literal e = some v
  | 0, i, v, h => by cases h
  | n + 1, i, v, h => by
    have hkeep := Props.constPass_keeps hc
    have lit : ∀ {t e} {e' : Expr Ref}, cx.prog[i]? = some (.var t true (some e)) → (∀ e'', nameE (globalNames cx.prog).find (isVarOf cx.prog) e = some e'' → e'' = e') →
        Sem.literal e' = some v → isOp e' = false → (∀ k, e' ≠ .none k) → ∃ t e, q[i]? = some (.var t true (some e)) ∧ Sem.literal e = some v := by
      intro t e e' hi he hl ho hnn
      obtain ⟨e1, h1, h2⟩ := resolve_const hr hi
      obtain rfl := he _ h2
      have hlt : i < q2.length := hs.1 ▸ (List.getElem?_eq_some_iff.1 h1).1
      have h3 := List.getElem?_eq_getElem hlt
      have h4 := hs.2 i _ _ h1 h3
      generalize q2[i] = z at h3 h4
      have h5 : q2[i]? = some (.var t true (some e1)) := by
        cases h4 with
        | same => exact h3
        | var _ _ h => cases h with
          | same => exact h3
          | drop k => exact absurd rfl (hnn k)
          | fold _ _ ho' _ => rw [ho] at ho'; cases ho'
      exact ⟨t, e1, hkeep i t e1 h5 (by rw [hl]; rfl), hl⟩
    rw [Ctx.constVal] at h
    split at h
    · rename_i t x k hi
      cases h
      exact lit (e' := .float x k) hi (fun e'' h => by rw [nameE] at h; cases h; rfl) rfl rfl nofun
    · rename_i t x k hi
      cases h
      exact lit (e' := .str x k) hi (fun e'' h => by rw [nameE] at h; cases h; rfl) rfl rfl nofun
    · rename_i t t' _ hi
      rw [Option.bind_eq_some_iff] at h
      obtain ⟨j, hj, h⟩ := h
      obtain ⟨tj, ej, h1, h2⟩ := constVal_literal hc n j h
      obtain ⟨e', h3, h4⟩ := resolve_const hr hi
      rw [nameE, find_global, hj] at h4
      cases h4
      have hlt : i < q2.length := hs.1 ▸ (List.getElem?_eq_some_iff.1 h3).1
      have h5 := List.getElem?_eq_getElem hlt
      have h6 := hs.2 i _ _ h3 h5
      generalize q2[i] = z at h5 h6
      have h7 : q2[i]? = some (.var t true (some (.ident t' (.item j)))) := by
        cases h6 with
        | same => exact h5
        | var _ _ h => cases h with
          | same => exact h5
          | fold _ _ ho' _ => cases ho'
      have hlq : i < q.length := by rw [Props.constPass_length hc]; exact hlt
      obtain ⟨p', x, g1, g2, g3, js, g4⟩ := Props.consts_at hc (List.getElem?_eq_getElem hlq)
      rw [h7] at g1
      cases g1
      obtain ⟨o, g5, g6, _⟩ := Props.constItem_const g2
      rw [constO] at g5
      split at g5
      · cases g5
      · rename_i e2 he2
        cases g5
        refine ⟨t, e2, by rw [List.getElem?_eq_getElem hlq, g6], ?_⟩
        rw [constE] at he2
        obtain ⟨e3, g7⟩ : ∃ e3, p'[j]? = some (.var tj true (some e3)) := by
          exact constPass_back g4 h1
        unfold constIdent at he2
        simp only [g7] at he2
        have : Sem.literal e3 = Sem.literal e2 ∧ (Sem.literal e3).isSome = true := by
          clear g7
          cases e3 with
          | int | str | float | none => cases he2; exact ⟨rfl, rfl⟩
          | _ =>
            dsimp only at he2
            unfold errTok at he2
            split at he2 <;> cases he2
        have g8 := g3 j tj e3 g7 this.2
        rw [h1] at g8
        cases g8
        rw [← this.1]
        exact h2
    · rename_i t e h1 h2 h3 hi
      rw [Option.map_eq_some_iff] at h
      obtain ⟨x, hx, rfl⟩ := h
      obtain ⟨k, c, h4⟩ := const_folded hr hs hk (constNum_known hr hs hk _) hi (fun t' y he => h3 _ _ he) hx
      exact ⟨t, _, hkeep i t _ h4 rfl, rfl⟩
    · cases h
end

end Ccml.Src
