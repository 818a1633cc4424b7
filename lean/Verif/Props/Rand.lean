import Verif.XorShift
import Verif.Props.Io
import Mathlib.Data.Nat.Count
import Mathlib.Data.Fintype.Card
import Mathlib.Tactic.NormNum.Prime
/-!
C64: the random numbers of the drivers go through all values.
-/
namespace Ccml.Props
open Ccml

/-! ### The period -/

theorem repeat_add (f : BitVec 32 → BitVec 32) (a b : Nat) (x : BitVec 32) :
    Nat.repeat f (a + b) x = Nat.repeat f b (Nat.repeat f a x) := XorShift.times_add f a b x

theorem repeat_mul {x : BitVec 32} {a : Nat} (h : Nat.repeat xorshift32 a x = x) : ∀ c, Nat.repeat xorshift32 (a * c) x = x
  | 0 => rfl
  | c + 1 => by rw [Nat.mul_succ, repeat_add, repeat_mul h c, h]

theorem repeat_inj : ∀ (a : Nat) {x y : BitVec 32}, Nat.repeat xorshift32 a x = Nat.repeat xorshift32 a y → x = y
  | 0, _, _, h => h
  | a + 1, _, _, h => repeat_inj a (C63_injective _ _ h)

/-- Common periods. -/
theorem repeat_gcd {x : BitVec 32} (a b : Nat) (ha : Nat.repeat xorshift32 a x = x) (hb : Nat.repeat xorshift32 b x = x) :
    Nat.repeat xorshift32 (Nat.gcd a b) x = x := by
  induction a, b using Nat.gcd.induction with
  | H0 n => rwa [Nat.gcd_zero_left]
  | H1 m n hm ih =>
    rw [Nat.gcd_rec]
    refine ih ?_ ha
    have := repeat_mul ha (n / m)
    have h2 : Nat.repeat xorshift32 (m * (n / m) + n % m) x = x := by rw [Nat.div_add_mod]; exact hb
    rwa [repeat_add, this] at h2

theorem divides {g p q : Nat} (hp : p.Prime) (hg : g ∣ p * q) (hq : ¬ g ∣ q) : p ∣ g := by
  rcases (Nat.coprime_or_dvd_of_prime hp g) with h | h
  · exact absurd (Nat.Coprime.dvd_of_dvd_mul_left (Nat.Coprime.symm h) hg) hq
  · exact h

/-- C64: from any seed but 0 the generator comes back to it after 2^32 - 1 steps and not before. -/
theorem C64_period (x : BitVec 32) (hx : x ≠ 0) (k : Nat) :
    Nat.repeat xorshift32 k x = x ↔ 4294967295 ∣ k := by
  obtain ⟨p0, p1, p2, p3, p4, p5⟩ := XorShift.powers
  constructor
  · intro hk
    have hg := repeat_gcd k 4294967295 hk (p0 x)
    have hd : Nat.gcd k 4294967295 ∣ 4294967295 := Nat.gcd_dvd_right ..
    have hk' : Nat.gcd k 4294967295 ∣ k := Nat.gcd_dvd_left ..
    generalize Nat.gcd k 4294967295 = g at hg hd hk'
    have no : ∀ q, (∀ x, XorShift.times xorshift32 q x = x → x = 0) → ¬ g ∣ q := by
      rintro q hq ⟨c, rfl⟩
      exact hx (hq x (repeat_mul hg c))
    have h1 : 65537 ∣ g := divides (by norm_num) hd (no 65535 p1)
    have h2 : 257 ∣ g := divides (q := 16711935) (by norm_num) hd (no _ p2)
    have h3 : 17 ∣ g := divides (q := 252645135) (by norm_num) hd (no _ p3)
    have h4 : 5 ∣ g := divides (q := 858993459) (by norm_num) hd (no _ p4)
    have h5 : 3 ∣ g := divides (q := 1431655765) (by norm_num) hd (no _ p5)
    have h6 : 65537 * 257 ∣ g := Nat.Coprime.mul_dvd_of_dvd_of_dvd (by decide +kernel) h1 h2
    have h7 : 65537 * 257 * 17 ∣ g := Nat.Coprime.mul_dvd_of_dvd_of_dvd (by decide +kernel) h6 h3
    have h8 : 65537 * 257 * 17 * 5 ∣ g := Nat.Coprime.mul_dvd_of_dvd_of_dvd (by decide +kernel) h7 h4
    have h9 : 65537 * 257 * 17 * 5 * 3 ∣ g := Nat.Coprime.mul_dvd_of_dvd_of_dvd (by decide +kernel) h8 h5
    exact Nat.dvd_trans (by simpa using h9) hk'
  · rintro ⟨c, rfl⟩
    exact repeat_mul (p0 x) c

theorem repeat_distinct {x : BitVec 32} (hx : x ≠ 0) {i j : Nat} (hi : i < 4294967295) (hj : j < 4294967295)
    (h : Nat.repeat xorshift32 i x = Nat.repeat xorshift32 j x) : i = j := by
  have key : ∀ {i j : Nat}, j < 4294967295 → i ≤ j →
      Nat.repeat xorshift32 i x = Nat.repeat xorshift32 j x → i = j := by
    intro i j hj hij h
    obtain ⟨d, rfl⟩ := Nat.exists_eq_add_of_le hij
    rw [Nat.add_comm i d, repeat_add] at h
    have := (C64_period x hx d).1 (repeat_inj i h.symm)
    obtain ⟨c, hc⟩ := this
    cases c with
    | zero => omega
    | succ c => omega
  rcases Nat.le_total i j with hij | hij
  · exact key hj hij h
  · exact (key hi hij h.symm).symm

/-- C64: from any seed but 0 the generator reaches every seed but 0, each once in 2^32 - 1 steps. -/
theorem C64_orbit (x y : BitVec 32) (hx : x ≠ 0) (hy : y ≠ 0) :
    ∃ k, k < 4294967295 ∧ Nat.repeat xorshift32 k x = y ∧
      ∀ j, j < 4294967295 → Nat.repeat xorshift32 j x = y → j = k := by
  have h : ∃ k, k < 4294967295 ∧ Nat.repeat xorshift32 k x = y := by
    let f : Nat → Fin (2 ^ 32) := fun k => (Nat.repeat xorshift32 k x).toFin
    have hs : (Finset.range 4294967295).image f ⊆ Finset.univ.erase 0 := by
      intro z hz
      obtain ⟨k, _, rfl⟩ := Finset.mem_image.1 hz
      refine Finset.mem_erase.2 ⟨fun h0 => repeat_nonzero hx k ?_, Finset.mem_univ _⟩
      exact BitVec.eq_of_toFin_eq h0
    have hc : ((Finset.range 4294967295).image f).card = 4294967295 := by
      rw [Finset.card_image_of_injOn, Finset.card_range]
      intro i hi j hj hij
      exact repeat_distinct hx (Finset.mem_range.1 hi) (Finset.mem_range.1 hj) (BitVec.eq_of_toFin_eq hij)
    have he := Finset.eq_of_subset_of_card_le hs (by
      rw [hc, Finset.card_erase_of_mem (Finset.mem_univ _), Finset.card_univ, Fintype.card_fin]
      decide +kernel)
    have : y.toFin ∈ (Finset.range 4294967295).image f := by
      rw [he]
      refine Finset.mem_erase.2 ⟨fun h0 => hy (BitVec.eq_of_toFin_eq h0), Finset.mem_univ _⟩
    obtain ⟨k, hk, hky⟩ := Finset.mem_image.1 this
    exact ⟨k, Finset.mem_range.1 hk, BitVec.eq_of_toFin_eq hky⟩
  obtain ⟨k, hk, hky⟩ := h
  exact ⟨k, hk, hky, fun j hj h => repeat_distinct hx hj hk (h.trans hky.symm)⟩

/-! ### How often each number is drawn -/

theorem count_filter {α : Type} [DecidableEq α] (f : Nat → α) (v : α) (n : Nat) :
    ((List.range n).map f).count v = ((Finset.range n).filter fun k => f k = v).card := by
  rw [← Nat.count_eq_card_filter_range]
  induction n with
  | zero => rfl
  | succ n ih => rw [List.range_succ, List.map_append, List.count_append, ih, Nat.count_succ]; simp [List.count_singleton]

/-- Numbers below 2^32 with given lowest 23 bits. -/
theorem count_low (v : Nat) (hv : v < 8388608) :
    ((Finset.range 4294967296).filter fun y => y % 8388608 = v).card = 512 := by
  have h : (Finset.range 4294967296).filter (fun y => y % 8388608 = v) =
      (Finset.range 512).image fun q => v + 8388608 * q := by
    ext y
    simp only [Finset.mem_filter, Finset.mem_range, Finset.mem_image]
    constructor
    · rintro ⟨h1, h2⟩
      exact ⟨y / 8388608, by omega, by omega⟩
    · rintro ⟨q, h1, rfl⟩
      omega
  rw [h, Finset.card_image_of_injective, Finset.card_range]
  intro a b hab
  dsimp only at hab
  omega

/-- C64: the random numbers that `rand` draws from any seed but 0 (see `C64_draws`) are after 2^32 - 1 draws spread evenly: every
number from 1 to 0x7fffff has come 512 times, and 0 once less. -/
theorem C64_even (x : BitVec 32) (hx : x ≠ 0) (v : BitVec 32) (hv : v.toNat ≤ 0x7fffff) :
    ((List.range 4294967295).map fun k => Nat.repeat xorshift32 (k + 1) x &&& 0x7fffff).count v =
      if v = 0 then 511 else 512 := by
  rw [count_filter]
  have hm : ∀ y : BitVec 32, y &&& 0x7fffff = v ↔ y.toNat % 8388608 = v.toNat := by
    intro y
    rw [← BitVec.toNat_inj, BitVec.toNat_and, show (0x7fffff : BitVec 32).toNat = 2 ^ 23 - 1 from rfl,
      Nat.and_two_pow_sub_one_eq_mod]
  have hx1 : xorshift32 x ≠ 0 := repeat_nonzero hx 1
  have hr : ∀ k, Nat.repeat xorshift32 (k + 1) x = Nat.repeat xorshift32 k (xorshift32 x) := fun k => by
    rw [Nat.add_comm, repeat_add]
    rfl
  have hc : ((Finset.range 4294967295).filter fun k => Nat.repeat xorshift32 (k + 1) x &&& 0x7fffff = v).card =
      (((Finset.range 4294967296).filter fun y => y % 8388608 = v.toNat).erase 0).card := by
    refine Finset.card_bij (fun k _ => (Nat.repeat xorshift32 (k + 1) x).toNat) ?_ ?_ ?_
    · intro k hk
      obtain ⟨h1, h2⟩ := Finset.mem_filter.1 hk
      refine Finset.mem_erase.2 ⟨fun h0 => repeat_nonzero hx (k + 1) (BitVec.eq_of_toNat_eq h0), ?_⟩
      exact Finset.mem_filter.2 ⟨Finset.mem_range.2 (Nat.repeat xorshift32 (k + 1) x).isLt, (hm _).1 h2⟩
    · intro i hi j hj h
      have h := BitVec.eq_of_toNat_eq h
      rw [hr, hr] at h
      exact repeat_distinct hx1 (Finset.mem_range.1 (Finset.mem_filter.1 hi).1)
        (Finset.mem_range.1 (Finset.mem_filter.1 hj).1) h
    · intro y hy
      obtain ⟨h1, h2⟩ := Finset.mem_erase.1 hy
      obtain ⟨h2, h3⟩ := Finset.mem_filter.1 h2
      have hlt : y < 2 ^ 32 := Finset.mem_range.1 h2
      have ht : (BitVec.ofNat 32 y).toNat = y := by rw [BitVec.toNat_ofNat, Nat.mod_eq_of_lt hlt]
      obtain ⟨k, hk, hky, _⟩ := C64_orbit (xorshift32 x) (BitVec.ofNat 32 y) hx1 (fun h0 => h1 (by rw [← ht, h0]; rfl))
      refine ⟨k, Finset.mem_filter.2 ⟨Finset.mem_range.2 hk, ?_⟩, ?_⟩
      · rw [hr, hky, hm, ht, h3]
      · rw [hr, hky, ht]
  rw [hc]
  have hl := count_low v.toNat (by omega)
  split
  · rename_i h0
    subst h0
    have h0 : 0 ∈ (Finset.range 4294967296).filter fun y => y % 8388608 = (0 : BitVec 32).toNat :=
      Finset.mem_filter.2 ⟨Finset.mem_range.2 (by norm_num), rfl⟩
    rw [Finset.card_erase_of_mem h0, hl]
  · rename_i h0
    rw [Finset.erase_eq_of_notMem, hl]
    intro h
    exact h0 (BitVec.eq_of_toNat_eq (Finset.mem_filter.1 h).2.symm)

/-- C64: calling `rand` again and again leaves these numbers. -/
theorem C64_draws {e : Env Val Store} (he : e.mem = Mem.abs) : ∀ (n : Nat) (s : St Val Store),
    times (HostFn.rand.run e) n s = .ok ((), gives s
      (((List.range n).map fun k => Val.int (Nat.repeat xorshift32 (k + 1) s.io.seed &&& 0x7fffff)).reverse)
      { s.io with seed := Nat.repeat xorshift32 n s.io.seed })
  | 0, s => rfl
  | n + 1, s => by
    have h1 : HostFn.rand.run e s = .ok ((), gives s [.int (xorshift32 s.io.seed &&& 0x7fffff)]
        { s.io with seed := xorshift32 s.io.seed }) := by
      simp only [HostFn.run, hostRand, pushInt, he]
      rfl
    have hr : ∀ k, Nat.repeat xorshift32 (k + 1) (xorshift32 s.io.seed) =
        Nat.repeat xorshift32 (k + 1 + 1) s.io.seed := fun k => by
      have := repeat_add xorshift32 1 (k + 1) s.io.seed
      rw [Nat.add_comm 1 (k + 1)] at this
      exact this.symm
    have h2 := C64_draws he n (gives s [.int (xorshift32 s.io.seed &&& 0x7fffff)]
      { s.io with seed := xorshift32 s.io.seed })
    have h0 : times (HostFn.rand.run e) (n + 1) s = times (HostFn.rand.run e) n
        (gives s [.int (xorshift32 s.io.seed &&& 0x7fffff)] { s.io with seed := xorshift32 s.io.seed }) := by
      show (bind (HostFn.rand.run e) fun _ => times (HostFn.rand.run e) n) s = _
      rw [vm_bind, h1]
    have h3 : Nat.repeat xorshift32 n (xorshift32 s.io.seed) = Nat.repeat xorshift32 (n + 1) s.io.seed := by
      rw [Nat.add_comm n 1, repeat_add]
      rfl
    rw [h0, h2, List.range_succ_eq_map]
    simp only [gives, hr, h3, List.map_cons, List.map_map, List.reverse_cons, List.append_assoc]
    rfl

/-- `C64_period`, `C64_orbit`: the seed of the driver. -/
example (k : Nat) : Nat.repeat xorshift32 k 12345 = 12345 ↔ 4294967295 ∣ k := C64_period _ (by decide +kernel) k

example : ∃ k, k < 4294967295 ∧ Nat.repeat xorshift32 k 12345 = 1 :=
  let ⟨k, h, hk, _⟩ := C64_orbit 12345 1 (by decide +kernel) (by decide +kernel)
  ⟨k, h, hk⟩

/-- `C64_even`: the seed of the driver. -/
example : ((List.range 4294967295).map fun k => Nat.repeat xorshift32 (k + 1) 12345 &&& 0x7fffff).count 77 = 512 ∧
    ((List.range 4294967295).map fun k => Nat.repeat xorshift32 (k + 1) 12345 &&& 0x7fffff).count 0 = 511 :=
  ⟨(C64_even 12345 (by decide +kernel) 77 (by decide +kernel)).trans (if_neg (by decide +kernel)),
    (C64_even 12345 (by decide +kernel) 0 (by decide +kernel)).trans (if_pos rfl)⟩

/-- `C64_draws`: three numbers. -/
example : ∃ s', times (HostFn.rand.run ioEnv) 3 (ioSt [] []) = .ok ((), s') ∧ s'.th.stack.length = 3 ∧
    s'.th.stack.Nodup :=
  ⟨_, C64_draws rfl 3 (ioSt [] []), by decide +kernel, by decide +kernel⟩

end Ccml.Props
