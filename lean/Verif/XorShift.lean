import Verif.Builtins
import Verif.XorShiftData
/-!
`xorshift32` as a linear map: its powers as matrices over the two-element field (proof infrastructure).
-/
namespace Ccml.XorShift

/-- The matrix with the given columns applied to a number taken as a vector of bits. -/
def app : List Nat → Nat → Nat
  | [], _ => 0
  | c :: cs, x => (bif x.testBit 0 then c else 0) ^^^ app cs (x >>> 1)

theorem swap_mid (a b c d : Nat) : (a ^^^ b) ^^^ (c ^^^ d) = (a ^^^ c) ^^^ (b ^^^ d) := by
  rw [Nat.xor_assoc, ← Nat.xor_assoc b, Nat.xor_comm b c, Nat.xor_assoc c, ← Nat.xor_assoc a]

theorem swap_midB (a b c d : BitVec 32) : (a ^^^ b) ^^^ (c ^^^ d) = (a ^^^ c) ^^^ (b ^^^ d) := by
  rw [BitVec.xor_assoc, ← BitVec.xor_assoc b, BitVec.xor_comm b c, BitVec.xor_assoc c, ← BitVec.xor_assoc a]

theorem app_zero : ∀ M, app M 0 = 0
  | [] => rfl
  | c :: cs => by
    have := app_zero cs
    simp [app, this]

theorem app_xor : ∀ M x y, app M (x ^^^ y) = app M x ^^^ app M y
  | [], _, _ => (Nat.xor_self 0).symm
  | c :: cs, x, y => by
    have h : (bif (x ^^^ y).testBit 0 then c else 0) =
        (bif x.testBit 0 then c else 0) ^^^ (bif y.testBit 0 then c else 0) := by
      rw [Nat.testBit_xor]
      cases x.testBit 0 <;> cases y.testBit 0 <;> simp
    rw [app, h, Nat.shiftRight_xor_distrib, app_xor cs, swap_mid, app, app]

/-- A linear map. -/
structure Linear (g : Nat → Nat) : Prop where
  zero : g 0 = 0
  xor : ∀ x y, g (x ^^^ y) = g x ^^^ g y

theorem app_linear (M : List Nat) : Linear (app M) := ⟨app_zero M, app_xor M⟩

theorem app_map {h : Nat → Nat} (hh : Linear h) : ∀ M x, app (M.map h) x = h (app M x)
  | [], _ => hh.zero.symm
  | c :: cs, x => by
    simp only [List.map_cons, app, hh.xor, app_map hh cs]
    cases x.testBit 0 <;> simp [hh.zero]

theorem app_zip : ∀ (A B : List Nat), A.length = B.length → ∀ x,
    app (List.zipWith (· ^^^ ·) A B) x = app A x ^^^ app B x
  | [], [], _, _ => (Nat.xor_self 0).symm
  | a :: as, b :: bs, h, x => by
    simp only [List.zipWith_cons_cons, app, app_zip as bs (by simpa using h)]
    rw [← swap_mid]
    cases x.testBit 0 <;> simp

theorem low_high (x : Nat) : x = (bif x.testBit 0 then 1 else 0) ^^^ (x >>> 1) <<< 1 := by
  apply Nat.eq_of_testBit_eq
  intro i
  rw [Nat.testBit_xor, Nat.testBit_shiftLeft, Nat.testBit_shiftRight]
  cases i with
  | zero => cases x.testBit 0 <;> simp
  | succ i =>
    have : (bif x.testBit 0 then 1 else 0 : Nat).testBit (i + 1) = false := by
      cases x.testBit 0 <;> simp [Nat.testBit_succ]
    rw [this]
    simp [Nat.add_comm]

/-- A linear map is given by what it does with the powers of two. -/
theorem app_powers {g : Nat → Nat} (hg : Linear g) : ∀ n j x, x < 2 ^ n →
    app ((List.range' j n).map fun i => g (1 <<< i)) x = g (x <<< j)
  | 0, j, x, h => by
    have : x = 0 := by simpa using h
    subst this
    simp [app, hg.zero]
  | n + 1, j, x, h => by
    rw [List.range'_succ, List.map_cons, app, app_powers hg n (j + 1) (x >>> 1) (by
      rw [Nat.shiftRight_eq_div_pow]
      rw [Nat.pow_succ] at h
      omega)]
    conv => rhs; rw [low_high x, Nat.shiftLeft_xor_distrib, hg.xor]
    rw [← Nat.shiftLeft_add, Nat.add_comm 1 j]
    congr 1
    cases x.testBit 0 <;> simp [hg.zero]

/-! ### Powers -/

/-- `f` applied `k` times. -/
abbrev times (f : BitVec 32 → BitVec 32) (k : Nat) (x : BitVec 32) : BitVec 32 := Nat.repeat f k x

theorem times_add (f : BitVec 32 → BitVec 32) (a b : Nat) (x : BitVec 32) :
    times f (a + b) x = times f b (times f a x) := by
  induction b with
  | zero => rfl
  | succ b ih => exact congrArg f ih

/-- The matrix of `xorshift32` applied `k` times. -/
def Rep (M : List Nat) (k : Nat) : Prop :=
  ∀ x : BitVec 32, app M x.toNat = (times xorshift32 k x).toNat

/-- `x ^= x << n` -/
def left (n : Nat) (x : BitVec 32) : BitVec 32 := x ^^^ (x <<< n)
/-- `x ^= x >> n` -/
def right (n : Nat) (x : BitVec 32) : BitVec 32 := x ^^^ (x >>> n)

theorem left_xor (n : Nat) (x y : BitVec 32) : left n (x ^^^ y) = left n x ^^^ left n y := by
  unfold left
  rw [BitVec.shiftLeft_xor_distrib, swap_midB]

theorem right_xor (n : Nat) (x y : BitVec 32) : right n (x ^^^ y) = right n x ^^^ right n y := by
  unfold right
  rw [BitVec.ushiftRight_xor_distrib, swap_midB]

theorem shift_xor (x y : BitVec 32) : xorshift32 (x ^^^ y) = xorshift32 x ^^^ xorshift32 y := by
  have h : ∀ x, xorshift32 x = left 5 (right 17 (left 13 x)) := fun _ => rfl
  rw [h, h, h, left_xor, right_xor, left_xor]

/-- `xorshift32` on numbers. -/
def step (x : Nat) : Nat := (xorshift32 (BitVec.ofNat 32 x)).toNat

theorem step_linear : Linear step where
  zero := by decide
  xor x y := by
    unfold step
    rw [show BitVec.ofNat 32 (x ^^^ y) = BitVec.ofNat 32 x ^^^ BitVec.ofNat 32 y from BitVec.ofNat_xor .., shift_xor,
      BitVec.toNat_xor]

theorem rep_one {M : List Nat} (h : M = (List.range' 0 32).map fun i => step (1 <<< i)) : Rep M 1 := by
  intro x
  rw [h, app_powers step_linear 32 0 x.toNat x.isLt, Nat.shiftLeft_zero, step, BitVec.ofNat_toNat, BitVec.setWidth_eq]
  rfl

theorem Rep.mul {M N : List Nat} {a b : Nat} (hM : Rep M a) (hN : Rep N b) : Rep (M.map (app N)) (a + b) := by
  intro x
  rw [app_map (app_linear N), hM, hN, times_add]

/-- Every matrix of the list is the square of the one before. -/
def squares : List Nat → List (List Nat) → Bool
  | _, [] => true
  | M, N :: r => decide (N = M.map (app M)) && squares N r

theorem squares_rep : ∀ (r : List (List Nat)) (M : List Nat) (k : Nat), Rep M k → squares M r = true →
    Rep ((M :: r).getLast (by simp)) (k * 2 ^ r.length)
  | [], M, k, h, _ => by simpa using h
  | N :: r, M, k, h, hs => by
    simp only [squares, Bool.and_eq_true, decide_eq_true_eq] at hs
    rw [List.getLast_cons (by simp), List.length_cons, Nat.pow_succ, Nat.mul_comm (2 ^ _), ← Nat.mul_assoc]
    refine squares_rep r N (k * 2) ?_ hs.2
    rw [hs.1, Nat.mul_two]
    exact h.mul h

/-- If the sum of two powers can be undone, they differ everywhere but at 0. -/
theorem differ {A B V : List Nat} {a b : Nat} (hA : Rep A a) (hB : Rep B b) (hl : A.length = B.length)
    (hV : (List.zipWith (· ^^^ ·) A B).map (app V) = (List.range' 0 32).map fun i => 1 <<< i) {x : BitVec 32}
    (h : times xorshift32 a x = times xorshift32 b x) : x = 0 := by
  have h1 := app_map (app_linear V) (List.zipWith (· ^^^ ·) A B) x.toNat
  rw [hV, app_zip A B hl, hA, hB, h, Nat.xor_self, app_zero,
    app_powers (g := fun i => i) ⟨rfl, fun _ _ => rfl⟩ 32 0 x.toNat x.isLt] at h1
  exact BitVec.eq_of_toNat_eq (by simpa using h1)

/-! ### The numbers -/

/-- One stage: from the matrix `P` of the power `s` to that of `s * (2 ^ d + 1)`. -/
structure Stage (P : List Nat) (chain : List (List Nat)) (V Q : List Nat) : Prop where
  head : chain.head? = some P
  ok : squares P chain.tail = true
  last : chain.getLast? = some Q
  len : Q.length = P.length
  undo : (List.zipWith (· ^^^ ·) Q P).map (app V) = (List.range' 0 32).map fun i => 1 <<< i

theorem Stage.facts {P V Q : List Nat} {chain : List (List Nat)} (S : Stage P chain V Q) {s d : Nat} (hP : Rep P s)
    (hd : chain.length = d + 1) :
    (∀ x, times xorshift32 (s * 2 ^ d) x = times xorshift32 s x → x = 0) ∧
      Rep (P.map (app Q)) (s * (2 ^ d + 1)) := by
  have hc : chain = P :: chain.tail := by
    have := S.head
    cases chain with
    | nil => cases this
    | cons a l => cases this; rfl
  have ht : chain.tail.length = d := by simp [hd]
  have hQ := squares_rep chain.tail P s hP S.ok
  rw [ht] at hQ
  have : (P :: chain.tail).getLast (by simp) = Q := by
    have := S.last
    rw [hc, List.getLast?_eq_some_getLast (by simp)] at this
    exact Option.some.inj this
  rw [this] at hQ
  refine ⟨fun x => differ hQ hP S.len S.undo, ?_⟩
  rw [Nat.mul_add, Nat.mul_one, Nat.add_comm]
  exact hP.mul hQ

/-- The matrix at the start of a stage. -/
abbrev first (chain : List (List Nat)) : List Nat := chain.headD []
/-- The matrix at its end. -/
abbrev last (chain : List (List Nat)) : List Nat := chain.getLastD []

theorem stage16 : Stage (first chain16) chain16 undo16 (last chain16) :=
  ⟨by decide +kernel, by decide +kernel, by decide +kernel, by decide +kernel, by decide +kernel⟩
theorem stage8 : Stage (first chain8) chain8 undo8 (last chain8) :=
  ⟨by decide +kernel, by decide +kernel, by decide +kernel, by decide +kernel, by decide +kernel⟩
theorem stage4 : Stage (first chain4) chain4 undo4 (last chain4) :=
  ⟨by decide +kernel, by decide +kernel, by decide +kernel, by decide +kernel, by decide +kernel⟩
theorem stage2 : Stage (first chain2) chain2 undo2 (last chain2) :=
  ⟨by decide +kernel, by decide +kernel, by decide +kernel, by decide +kernel, by decide +kernel⟩
theorem stage1 : Stage (first chain1) chain1 undo1 (last chain1) :=
  ⟨by decide +kernel, by decide +kernel, by decide +kernel, by decide +kernel, by decide +kernel⟩

theorem start16 : first chain16 = (List.range' 0 32).map fun i => step (1 <<< i) := by decide +kernel
theorem link8 : (first chain16).map (app (last chain16)) = first chain8 := by decide +kernel
theorem link4 : (first chain8).map (app (last chain8)) = first chain4 := by decide +kernel
theorem link2 : (first chain4).map (app (last chain4)) = first chain2 := by decide +kernel
theorem link1 : (first chain2).map (app (last chain2)) = first chain1 := by decide +kernel
theorem link0 : (first chain1).map (app (last chain1)) = (List.range' 0 32).map fun i => 1 <<< i := by decide +kernel

/-- The powers that tell: `xorshift32` applied 2^32 - 1 times changes nothing, applied (2^32 - 1) / p
times, for any prime p dividing 2^32 - 1, it changes everything but 0. -/
theorem powers :
    (∀ x, times xorshift32 4294967295 x = x) ∧
    (∀ x, times xorshift32 65535 x = x → x = 0) ∧
    (∀ x, times xorshift32 16711935 x = x → x = 0) ∧
    (∀ x, times xorshift32 252645135 x = x → x = 0) ∧
    (∀ x, times xorshift32 858993459 x = x → x = 0) ∧
    (∀ x, times xorshift32 1431655765 x = x → x = 0) := by
  obtain ⟨d16, r8⟩ := stage16.facts (d := 16) (rep_one start16) (by decide +kernel)
  rw [link8] at r8
  obtain ⟨d8, r4⟩ := stage8.facts (d := 8) r8 (by decide +kernel)
  rw [link4] at r4
  obtain ⟨d4, r2⟩ := stage4.facts (d := 4) r4 (by decide +kernel)
  rw [link2] at r2
  obtain ⟨d2, r1⟩ := stage2.facts (d := 2) r2 (by decide +kernel)
  rw [link1] at r1
  obtain ⟨d1, r0⟩ := stage1.facts (d := 1) r1 (by decide +kernel)
  rw [link0] at r0
  have key : ∀ {a b c : Nat}, b = c + a → (∀ x, times xorshift32 b x = times xorshift32 a x → x = 0) →
      ∀ x, times xorshift32 c x = x → x = 0 := by
    intro a b c hb h x hx
    refine h x ?_
    rw [hb, times_add, hx]
  refine ⟨fun x => ?_, key (by decide) d16, key (by decide) d8, key (by decide) d4, key (by decide) d2,
    key (by decide) d1⟩
  have h := r0 x
  rw [app_powers (g := fun i => i) ⟨rfl, fun _ _ => rfl⟩ 32 0 x.toNat x.isLt] at h
  exact BitVec.eq_of_toNat_eq (by simpa using h.symm)

end Ccml.XorShift
