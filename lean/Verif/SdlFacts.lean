import Verif.SdlSpec
import Mathlib.Tactic.Linarith
import Mathlib.Tactic.Ring
/-!
The drawing functions paint sets of pixels (proofs).
-/
namespace Ccml.Sdl

theorem chk_ok {x : Int} (h1 : -2147483648 ≤ x) (h2 : x ≤ 2147483647) : chk x = .ok x := by
  unfold chk fits32
  rw [if_pos (by simpa using ⟨h1, h2⟩)]

theorem s32_small {n : Nat} (h : n < 2147483648) : s32 n = n := if_pos h

theorem u32_small {x : Int} (h1 : 0 ≤ x) (h2 : x < 4294967296) : (u32 x : Int) = x := by
  unfold u32
  omega

theorem row_lt {w h a b : Nat} (ha : a < w) (hb : b < h) : b * w + a < w * h := by
  have : (b + 1) * w ≤ h * w := Nat.mul_le_mul_right w hb
  rw [Nat.add_mul, Nat.one_mul, Nat.mul_comm h w] at this
  omega

theorem row_inj {w a b a' b' : Nat} (ha : a < w) (ha' : a' < w) (h : b * w + a = b' * w + a') : a = a' ∧ b = b' := by
  have hw : 0 < w := by omega
  have h1 := congrArg (· % w) h
  have h2 := congrArg (· / w) h
  simp only [Nat.mul_add_mod_self_right, Nat.mod_eq_of_lt ha, Nat.mod_eq_of_lt ha'] at h1
  rw [Nat.mul_comm b, Nat.mul_comm b', Nat.mul_add_div hw, Nat.mul_add_div hw, Nat.div_eq_of_lt ha,
    Nat.div_eq_of_lt ha'] at h2
  omega

namespace Painted

theorem refl (c : BitVec 32) (g : Video) : Painted c (fun _ _ => False) g g :=
  ⟨rfl, rfl, fun _ _ _ _ h => h.elim, fun _ _ _ _ _ => rfl⟩

variable {c : BitVec 32} {S T : Int → Int → Prop} {g g1 g2 : Video}

theorem width (h : Painted c S g g1) : g1.width = g.width := by rw [h.same]
theorem height (h : Painted c S g g1) : g1.height = g.height := by rw [h.same]
theorem rgb (h : Painted c S g g1) : g1.rgb = g.rgb := by rw [h.same]
theorem screen (h : Painted c S g g1) : g1.screen = g.screen := by rw [h.same]

theorem ready (h : Painted c S g g1) (hg : Ready g) : Ready g1 :=
  ⟨h.screen ▸ hg.shown, h.width ▸ hg.wide, h.height ▸ hg.high, by rw [h.width, h.height]; exact hg.small,
    by rw [h.size, h.width, h.height]; exact hg.size⟩

theorem trans (h1 : Painted c S g g1) (h2 : Painted c T g1 g2) : Painted c (fun a b => S a b ∨ T a b) g g2 where
  same := by rw [h2.same, h1.same]
  size := h2.size.trans h1.size
  on a b ha hb h := by
    by_cases ht : T a b
    · exact h2.on a b (h1.width.symm ▸ ha) (h1.height.symm ▸ hb) ht
    · rw [h2.off a b (h1.width.symm ▸ ha) (h1.height.symm ▸ hb) ht]
      exact h1.on a b ha hb (h.resolve_right ht)
  off a b ha hb h := by
    rw [h2.off a b (h1.width.symm ▸ ha) (h1.height.symm ▸ hb) fun ht => h (.inr ht)]
    exact h1.off a b ha hb fun hs => h (.inl hs)

theorem congr (h : Painted c S g g1)
    (hs : ∀ a b : Nat, a < g.width → b < g.height → (T a b ↔ S a b)) : Painted c T g g1 :=
  ⟨h.same, h.size, fun a b ha hb ht => h.on a b ha hb ((hs a b ha hb).1 ht),
    fun a b ha hb ht => h.off a b ha hb fun h => ht ((hs a b ha hb).2 h)⟩

end Painted

theorem plot_ok {g : Video} (hg : Ready g) (x y : Int) :
    ∃ g', plot x y g = .ok g' ∧ Painted g.rgb (fun a b => a = x ∧ b = y) g g' := by
  unfold plot
  rw [if_neg hg.shown, s32_small hg.wide, s32_small hg.high]
  split
  · rename_i hx
    split
    · rename_i hy
      obtain ⟨a, rfl⟩ := Int.eq_ofNat_of_zero_le hx.1
      obtain ⟨b, rfl⟩ := Int.eq_ofNat_of_zero_le hy.1
      have ha : a < g.width := by omega
      have hb : b < g.height := by omega
      have hlt := row_lt ha hb
      have hs := hg.small
      have hi : ((u32 ((b : Int) * g.width) : Nat) : Int) + a = ((b * g.width + a : Nat) : Int) := by
        rw [u32_small (by positivity) (by
          have : ((b * g.width : Nat) : Int) < 4294967296 := by omega
          simpa using this)]
        push_cast
        rfl
      rw [hi]
      unfold store
      rw [if_pos ⟨by omega, by rw [hg.size]; exact_mod_cast hlt⟩]
      refine ⟨_, rfl, rfl, by simp, ?_, ?_⟩
      · rintro a' b' ha' hb' ⟨h1, h2⟩
        obtain rfl : a' = a := by exact_mod_cast h1
        obtain rfl : b' = b := by exact_mod_cast h2
        simp only [pixel, Int.toNat_natCast]
        rw [List.getElem?_set_self (by rw [hg.size]; exact hlt)]
      · intro a' b' ha' hb' h
        simp only [pixel, Int.toNat_natCast]
        rw [List.getElem?_set_ne]
        intro he
        obtain ⟨h1, h2⟩ := row_inj ha ha' he
        exact h ⟨by rw [h1], by rw [h2]⟩
    · rename_i hy
      refine ⟨g, rfl, (Painted.refl _ g).congr fun a b ha hb => ⟨fun h => ?_, False.elim⟩⟩
      omega
  · rename_i hx
    refine ⟨g, rfl, (Painted.refl _ g).congr fun a b ha hb => ⟨fun h => ?_, False.elim⟩⟩
    omega

theorem fill_ok (c : BitVec 32) : ∀ (n i : Nat) (p : List (BitVec 32)), i + n ≤ p.length →
    ∃ p', fill c n i p = .ok p' ∧ p'.length = p.length ∧
      ∀ k, p'[k]? = if i ≤ k ∧ k < i + n then some c else p[k]?
  | 0, i, p, _ => ⟨p, rfl, rfl, fun k => by rw [if_neg (by omega)]⟩
  | n + 1, i, p, h => by
    obtain ⟨p', h1, h2, h3⟩ := fill_ok c n (i + 1) (p.set i c) (by simp; omega)
    refine ⟨p', ?_, by rw [h2, List.length_set], fun k => ?_⟩
    · unfold fill store
      rw [if_pos ⟨by omega, by omega⟩]
      exact h1
    · rw [h3, List.getElem?_set]
      by_cases hk : i = k
      · subst hk
        rw [if_neg (by omega), if_pos rfl, if_pos (by omega), if_pos (by omega)]
      · rw [if_neg hk]
        by_cases h4 : i + 1 ≤ k ∧ k < i + 1 + n
        · rw [if_pos h4, if_pos (by omega)]
        · rw [if_neg h4, if_neg (by omega)]

theorem span_ok {g : Video} (hg : Ready g) (x0 x1 y : Int) :
    ∃ g', span x0 x1 y g = .ok g' ∧ Painted g.rgb (fun a b => b = y ∧ x0 ≤ a ∧ a < x1) g g' := by
  unfold span
  rw [if_neg hg.shown, s32_small hg.wide, s32_small hg.high]
  split
  · refine ⟨g, rfl, (Painted.refl _ g).congr fun a b ha hb => ⟨fun h => ?_, False.elim⟩⟩
    omega
  · rename_i hy
    obtain ⟨b, rfl⟩ := Int.eq_ofNat_of_zero_le (a := y) (by omega)
    have hb : b < g.height := by omega
    have hr : (b + 1) * g.width ≤ g.height * g.width := Nat.mul_le_mul_right _ hb
    have hs := hg.small
    rw [Nat.add_mul, Nat.one_mul, Nat.mul_comm g.height] at hr
    have hi : ((u32 ((g.width : Int) * b) : Nat) : Int) = ((b * g.width : Nat) : Int) := by
      rw [u32_small (by positivity) (by
        have : ((b * g.width : Nat) : Int) < 4294967296 := by omega
        rw [mul_comm]
        simpa using this)]
      push_cast
      rw [mul_comm]
    have hm := hg.size
    generalize hR : b * g.width = R at hi hr
    by_cases hlt : max x0 0 < min x1 g.width
    · obtain ⟨i, hi'⟩ := Int.eq_ofNat_of_zero_le (a := max x0 0) (by omega)
      obtain ⟨n, hn⟩ := Int.eq_ofNat_of_zero_le (a := min x1 g.width - max x0 0) (by omega)
      have he : ((((u32 ((g.width : Int) * b) : Nat) : Int) + min x1 g.width) -
          (((u32 ((g.width : Int) * b) : Nat) : Int) + max x0 0)).toNat = n := by omega
      have hv : (((u32 ((g.width : Int) * b) : Nat) : Int) + max x0 0) = ((R + i : Nat) : Int) := by omega
      obtain ⟨p', h1, h2, h3⟩ := fill_ok g.rgb n (R + i) g.video (by omega)
      dsimp only
      rw [he, hv, h1]
      refine ⟨_, rfl, rfl, h2, ?_, ?_⟩
      · rintro a' b' ha' hb' ⟨h4, h5, h6⟩
        obtain rfl : b' = b := by exact_mod_cast h4
        show p'[b' * g.width + a']? = _
        rw [h3, if_pos (by omega)]
      · intro a' b' ha' hb' h4
        show p'[b' * g.width + a']? = _
        rw [h3, if_neg]
        · rfl
        · intro h5
          have hia : R + i ≤ b' * g.width + a' := h5.1
          have hib : b' * g.width + a' < R + i + n := h5.2
          have hlo : b = b' := by
            have hw : 0 < g.width := by omega
            have h6 : (b' * g.width + a') / g.width = b' := by
              rw [Nat.mul_comm, Nat.mul_add_div hw, Nat.div_eq_of_lt ha']
              rfl
            have h7 : (b' * g.width + a') / g.width = b := by
              refine Nat.div_eq_of_lt_le ?_ ?_
              · omega
              · rw [Nat.add_mul, Nat.one_mul, hR]
                omega
            omega
          subst hlo
          exact h4 ⟨rfl, by omega, by omega⟩
    · have he : ((((u32 ((g.width : Int) * b) : Nat) : Int) + min x1 g.width) -
          (((u32 ((g.width : Int) * b) : Nat) : Int) + max x0 0)).toNat = 0 := by omega
      dsimp only
      rw [he]
      refine ⟨g, rfl, (Painted.refl _ g).congr fun a b ha hb => ⟨fun h => ?_, False.elim⟩⟩
      omega

/-! ### `cls` -/

theorem clsRows_ok (w : Nat) : ∀ (n v : Nat) (p : List (BitVec 32)), v + n * w ≤ p.length →
    ∃ p', clsRows w n v p = .ok p' ∧ p'.length = p.length ∧
      ∀ k, p'[k]? = if v ≤ k ∧ k < v + n * w then some 0 else p[k]?
  | 0, v, p, _ => ⟨p, rfl, rfl, fun k => by rw [if_neg (by omega)]⟩
  | n + 1, v, p, h => by
    rw [Nat.add_mul, Nat.one_mul] at h ⊢
    obtain ⟨p1, h1, h2, h3⟩ := fill_ok 0 w v p (by omega)
    obtain ⟨p', h4, h5, h6⟩ := clsRows_ok w n (v + w) p1 (by omega)
    refine ⟨p', ?_, by omega, fun k => ?_⟩
    · unfold clsRows
      rw [h1]
      exact h4
    · rw [h6, h3]
      by_cases h7 : v + w ≤ k ∧ k < v + w + n * w
      · rw [if_pos h7, if_pos (by omega)]
      · rw [if_neg h7]
        by_cases h8 : v ≤ k ∧ k < v + w
        · rw [if_pos h8, if_pos (by omega)]
        · rw [if_neg h8, if_neg (by omega)]

/-! ### `circle` -/

/-- What is known of the variables of `vm_circle` before each round. -/
structure Arc (r x y p : Int) : Prop where
  first : x = 0 ∧ y = r ∨ 1 ≤ x
  pos : 0 ≤ x
  low : 0 ≤ y
  high : y ≤ r
  dec : p = (x + 1) * (x + 1) + y * y + y - r * r - 2 * r
  inside : x * x + y * y + y ≤ r * r + 2 * r
  strict : x ≤ y → x * x + y * y + y < r * r + 2 * r
  edge : r * r + 2 * r ≤ x * x + (y + 1) * (y + 1) + (y + 1)

theorem Arc.start {r : Int} (h : 1 ≤ r) : Arc r 0 r (1 - r) :=
  ⟨.inl ⟨rfl, rfl⟩, by omega, by omega, by omega, by ring, by nlinarith, fun _ => by nlinarith, by nlinarith⟩

/-- One round. -/
theorem Arc.step {r x y p : Int} (h : Arc r x y p) (hr : 1 ≤ r) (hxy : x ≤ y) :
    (p < 0 → Arc r (x + 1) y (p + (2 * (x + 1) + 1))) ∧
    (0 ≤ p → Arc r (x + 1) (y - 1) (p + (2 * (x + 1 - y) + 1))) := by
  obtain ⟨h1, h2, h3, h4, h5, h6, h7, h8⟩ := h
  have h7 := h7 hxy
  refine ⟨fun hp => ⟨.inr (by omega), by omega, h3, h4, by rw [h5]; ring, by nlinarith, fun _ => by nlinarith, by nlinarith⟩,
    fun hp => ⟨.inr (by omega), by omega, by omega, by omega, by rw [h5]; ring, by nlinarith, fun hxy' => by nlinarith, by nlinarith⟩⟩

theorem Arc.bounds {r x y p : Int} (h : Arc r x y p) : -2 * r - 1 ≤ p ∧ p ≤ 2 * x + 1 := by
  obtain ⟨h1, h2, h3, h4, h5, h6, h7, h8⟩ := h
  constructor <;> nlinarith

theorem ok_bind {α β : Type} (a : α) (f : α → Out β) : ((.ok a : Out α) >>= f) = f a := rfl

/-- The set drawn so far, relative to the centre. -/
structure Disc (r x y : Int) (S : Int → Int → Prop) : Prop where
  only : ∀ a b, S a b → a * a + b * b < (r + 1) * (r + 1)
  near : ∀ a b, -x ≤ b → b ≤ x → a * a + b * b ≤ (r - 1) * (r - 1) → S a b
  far : ∀ a b, (y < b ∨ b < -y) → a * a + b * b ≤ (r - 1) * (r - 1) → S a b
  row : ∀ a b, (b = y ∨ b = -y) → 1 ≤ x → -x ≤ a → a < x → S a b

theorem sq_le {a x : Int} (h0 : 0 ≤ x) (h1 : -x ≤ a) (h2 : a ≤ x) : a * a ≤ x * x := by nlinarith

theorem le_sq {a x : Int} (h0 : 0 ≤ x) (h : a ≤ -x ∨ x ≤ a) : x * x ≤ a * a := by
  rcases h with h | h <;> nlinarith

/-- One round draws four spans. -/
theorem Disc.step {r x y p y' p' : Int} {S : Int → Int → Prop} (h : Disc r x y S) (ha : Arc r x y p) (hr : 1 ≤ r)
    (hxy : x ≤ y) (hn : p < 0 ∧ y' = y ∨ 0 ≤ p ∧ y' = y - 1) (ha' : Arc r (x + 1) y' p') :
    Disc r (x + 1) y' fun a b => (((S a b ∨ b = y' ∧ -(x + 1) ≤ a ∧ a < x + 1) ∨ b = -y' ∧ -(x + 1) ≤ a ∧ a < x + 1) ∨
      b = x + 1 ∧ -y' ≤ a ∧ a < y') ∨ b = -(x + 1) ∧ -y' ≤ a ∧ a < y' := by
  have hin := ha'.inside
  have hlow := ha'.low
  have hhi := ha'.high
  have hed := ha'.edge
  have hx0 := ha.pos
  refine ⟨?_, ?_, ?_, ?_⟩
  · rintro a b ((((h1 | ⟨rfl, h1, h2⟩) | ⟨rfl, h1, h2⟩) | ⟨rfl, h1, h2⟩) | ⟨rfl, h1, h2⟩)
    · exact h.only a b h1
    · have := sq_le (by omega) h1 (by omega)
      nlinarith
    · have := sq_le (by omega) h1 (by omega)
      nlinarith
    · have := sq_le (by omega) h1 (by omega)
      nlinarith
    · have := sq_le (by omega) h1 (by omega)
      nlinarith
  · intro a b h1 h2 h3
    by_cases hb : -x ≤ b ∧ b ≤ x
    · exact .inl (.inl (.inl (.inl (h.near a b hb.1 hb.2 h3))))
    · have hbb : b * b = (x + 1) * (x + 1) := by
        rcases (by omega : b = x + 1 ∨ b = -(x + 1)) with rfl | rfl <;> ring
      have hay : -y' ≤ a ∧ a < y' := by
        refine Classical.byContradiction fun hc => ?_
        have h4 : y' * y' ≤ a * a := le_sq hlow (by omega)
        rcases (by omega : y' = r ∨ y' ≤ r - 1) with h5 | h5 <;> nlinarith
      rcases (by omega : b = x + 1 ∨ b = -(x + 1)) with h4 | h4
      · exact .inl (.inr ⟨h4, hay⟩)
      · exact .inr ⟨h4, hay⟩
  · intro a b h1 h3
    by_cases hb : y < b ∨ b < -y
    · exact .inl (.inl (.inl (.inl (h.far a b hb h3))))
    · obtain ⟨hp, rfl⟩ : 0 ≤ p ∧ y' = y - 1 := by omega
      have hby : b = y ∨ b = -y := by omega
      have hbb : b * b = y * y := by rcases hby with rfl | rfl <;> ring
      have hyr := ha.high
      have hdec := ha.dec
      have hax : 1 ≤ x ∧ -x ≤ a ∧ a < x := by
        refine Classical.byContradiction fun hc => ?_
        have h4 : x * x ≤ a * a := by
          rcases (by omega : x = 0 ∨ 1 ≤ x) with h5 | h5
          · subst h5
            nlinarith [mul_self_nonneg a]
          · exact le_sq hx0 (by omega)
        rcases (by omega : y = r ∨ y ≤ r - 1) with h5 | h5 <;> nlinarith
      exact .inl (.inl (.inl (.inl (h.row a b hby hax.1 hax.2.1 hax.2.2))))
  · rintro a b (h1 | h1) _ h3 h4
    · exact .inl (.inl (.inl (.inr ⟨h1, h3, h4⟩)))
    · exact .inl (.inl (.inr ⟨h1, h3, h4⟩))

/-- Where the set is on the screen. -/
def at' (xC yC : Int) (S : Int → Int → Prop) : Int → Int → Prop := fun a b => S (a - xC) (b - yC)

theorem circleLoop_ok {xC yC r : Int} (hr : 1 ≤ r) (hr2 : r ≤ 536870912) (hx : -536870912 ≤ xC ∧ xC ≤ 536870912)
    (hy : -536870912 ≤ yC ∧ yC ≤ 536870912) {g0 : Video} (hg0 : Ready g0) :
    ∀ (n : Nat) (x y p : Int) (g : Video) (S : Int → Int → Prop), Arc r x y p → Disc r x y S → r + 2 - x ≤ n → x ≤ r + 1 →
      Painted g0.rgb (at' xC yC S) g0 g → ∃ g' S', circleLoop xC yC n x y p g = .ok g' ∧
        Painted g0.rgb (at' xC yC S') g0 g' ∧ ∀ a b, (S' a b → a * a + b * b < (r + 1) * (r + 1)) ∧
          (a * a + b * b ≤ (r - 1) * (r - 1) → S' a b)
  | 0, x, y, p, g, S, ha, hd, hn, hxr, hP => by omega
  | n + 1, x, y, p, g, S, ha, hd, hn, hxr, hP => by
    by_cases hxy : x ≤ y
    · have hx0 := ha.pos
      have hy0 := ha.low
      have hyr := ha.high
      obtain ⟨hp1, hp2⟩ := ha.bounds
      have next : ∀ y' p', (p < 0 ∧ y' = y ∨ 0 ≤ p ∧ y' = y - 1) → Arc r (x + 1) y' p' →
          ∃ g' S', (do
            let g ← span (← chk (xC - (x + 1))) (← chk (xC + (x + 1))) (← chk (yC + y')) g
            let g ← span (← chk (xC - (x + 1))) (← chk (xC + (x + 1))) (← chk (yC - y')) g
            let g ← span (← chk (xC - y')) (← chk (xC + y')) (← chk (yC + (x + 1))) g
            let g ← span (← chk (xC - y')) (← chk (xC + y')) (← chk (yC - (x + 1))) g
            circleLoop xC yC n (x + 1) y' p' g) = .ok g' ∧
          Painted g0.rgb (at' xC yC S') g0 g' ∧ ∀ a b, (S' a b → a * a + b * b < (r + 1) * (r + 1)) ∧
            (a * a + b * b ≤ (r - 1) * (r - 1) → S' a b) := by
        intro y' p' hy' ha'
        have hy0' := ha'.low
        have hyr' := ha'.high
        have e1 : chk (xC - (x + 1)) = .ok (xC - (x + 1)) := chk_ok (by omega) (by omega)
        have e2 : chk (xC + (x + 1)) = .ok (xC + (x + 1)) := chk_ok (by omega) (by omega)
        have e3 : chk (yC + y') = .ok (yC + y') := chk_ok (by omega) (by omega)
        have e4 : chk (yC - y') = .ok (yC - y') := chk_ok (by omega) (by omega)
        have e5 : chk (xC - y') = .ok (xC - y') := chk_ok (by omega) (by omega)
        have e6 : chk (xC + y') = .ok (xC + y') := chk_ok (by omega) (by omega)
        have e7 : chk (yC + (x + 1)) = .ok (yC + (x + 1)) := chk_ok (by omega) (by omega)
        have e8 : chk (yC - (x + 1)) = .ok (yC - (x + 1)) := chk_ok (by omega) (by omega)
        have c0 : g.rgb = g0.rgb := hP.rgb
        obtain ⟨g1, s1, q1⟩ := span_ok (hP.ready hg0) (xC - (x + 1)) (xC + (x + 1)) (yC + y')
        rw [c0] at q1
        have P1 := hP.trans q1
        obtain ⟨g2, s2, q2⟩ := span_ok (P1.ready hg0) (xC - (x + 1)) (xC + (x + 1)) (yC - y')
        rw [P1.rgb] at q2
        have P2 := P1.trans q2
        obtain ⟨g3, s3, q3⟩ := span_ok (P2.ready hg0) (xC - y') (xC + y') (yC + (x + 1))
        rw [P2.rgb] at q3
        have P3 := P2.trans q3
        obtain ⟨g4, s4, q4⟩ := span_ok (P3.ready hg0) (xC - y') (xC + y') (yC - (x + 1))
        rw [P3.rgb] at q4
        have P4 := P3.trans q4
        simp only [e1, e2, e3, e4, e5, e6, e7, e8, ok_bind, s1, s2, s3, s4]
        refine circleLoop_ok hr hr2 hx hy hg0 n (x + 1) y' p' g4 _ ha' (hd.step ha hr hxy hy' ha') (by omega) (by omega)
          (P4.congr fun a b _ _ => ?_)
        unfold at'
        refine or_congr (or_congr (or_congr (or_congr Iff.rfl ?_) ?_) ?_) ?_ <;> omega
      obtain ⟨st1, st2⟩ := ha.step hr hxy
      have f1 : chk (x + 1) = .ok (x + 1) := chk_ok (by omega) (by omega)
      unfold circleLoop
      rw [if_pos hxy, f1, ok_bind]
      by_cases hp : p < 0
      · have f2 : chk (2 * (x + 1)) = .ok (2 * (x + 1)) := chk_ok (by omega) (by omega)
        have f3 : chk (2 * (x + 1) + 1) = .ok (2 * (x + 1) + 1) := chk_ok (by omega) (by omega)
        have f4 : chk (p + (2 * (x + 1) + 1)) = .ok (p + (2 * (x + 1) + 1)) := chk_ok (by omega) (by omega)
        rw [if_pos hp, f2, ok_bind, f3, ok_bind, f4, ok_bind, ok_bind]
        exact next y _ (.inl ⟨hp, rfl⟩) (st1 hp)
      · have f2 : chk (x + 1 - y) = .ok (x + 1 - y) := chk_ok (by omega) (by omega)
        have f3 : chk (2 * (x + 1 - y)) = .ok (2 * (x + 1 - y)) := chk_ok (by omega) (by omega)
        have f4 : chk (2 * (x + 1 - y) + 1) = .ok (2 * (x + 1 - y) + 1) := chk_ok (by omega) (by omega)
        have f5 : chk (p + (2 * (x + 1 - y) + 1)) = .ok (p + (2 * (x + 1 - y) + 1)) := chk_ok (by omega) (by omega)
        have f6 : chk (y - 1) = .ok (y - 1) := chk_ok (by omega) (by omega)
        rw [if_neg hp, f2, ok_bind, f3, ok_bind, f4, ok_bind, f5, ok_bind, f6, ok_bind, ok_bind]
        exact next (y - 1) _ (.inr ⟨by omega, rfl⟩) (st2 (by omega))
    · unfold circleLoop
      rw [if_neg hxy]
      refine ⟨g, S, rfl, hP, fun a b => ⟨hd.only a b, fun h => ?_⟩⟩
      by_cases hb : -x ≤ b ∧ b ≤ x
      · exact hd.near a b hb.1 hb.2 h
      · exact hd.far a b (by omega) h

theorem circle_ok {xC yC r : Int} (hr : 1 ≤ r) (hr2 : r ≤ 536870912) (hx : -536870912 ≤ xC ∧ xC ≤ 536870912)
    (hy : -536870912 ≤ yC ∧ yC ≤ 536870912) {g : Video} (hg : Ready g) :
    ∃ g' S, circle xC yC r g = .ok g' ∧ Painted g.rgb (at' xC yC S) g g' ∧
      ∀ a b, (S a b → a * a + b * b < (r + 1) * (r + 1)) ∧ (a * a + b * b ≤ (r - 1) * (r - 1) → S a b) := by
  have e1 : chk (1 - r) = .ok (1 - r) := chk_ok (by omega) (by omega)
  have e2 : chk (xC - r) = .ok (xC - r) := chk_ok (by omega) (by omega)
  have e3 : chk (xC + r) = .ok (xC + r) := chk_ok (by omega) (by omega)
  obtain ⟨g1, s1, q1⟩ := span_ok hg (xC - r) (xC + r) yC
  unfold circle
  rw [e1, ok_bind, e2, ok_bind, e3, ok_bind, s1, ok_bind]
  refine circleLoop_ok hr hr2 hx hy hg _ 0 r (1 - r) g1 (fun a b => b = 0 ∧ -r ≤ a ∧ a < r) (.start hr) ⟨?_, ?_, ?_, ?_⟩
    (by omega) (by omega) (q1.congr fun a b _ _ => ?_)
  · rintro a b ⟨rfl, h1, h2⟩
    have := sq_le (by omega) h1 (by omega)
    nlinarith
  · intro a b h1 h2 h3
    obtain rfl : b = 0 := by omega
    refine ⟨rfl, ?_⟩
    refine Classical.byContradiction fun hc => ?_
    have h4 : r * r ≤ a * a := le_sq (by omega) (by omega)
    nlinarith
  · intro a b h1 h3
    have h4 : r * r ≤ b * b := le_sq (by omega) (by omega)
    nlinarith [mul_self_nonneg a]
  · intro a b _ h
    omega
  · unfold at'
    omega

end Ccml.Sdl
