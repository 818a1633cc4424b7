import Verif.SdlFacts
/-!
`line` paints a chain of pixels along the line (proofs).
-/
namespace Ccml.Sdl

/-- The point of round `m`. -/
def step (yl : Bool) (x y inc dec : Int) (m : Nat) : Int × Int :=
  if yl then (x + dec * m / 65536, y + inc * m) else (x + inc * m, y + dec * m / 65536)

theorem lineLoop_ok (yl : Bool) (x y inc dec : Int) (N : Nat)
    (h1 : ∀ m : Nat, m ≤ N → chk (inc * m) = .ok (inc * m)) (h2 : ∀ m : Nat, m ≤ N → chk (dec * m) = .ok (dec * m))
    (h3 : ∀ m : Nat, m < N → chk (step yl x y inc dec m).1 = .ok (step yl x y inc dec m).1)
    (h4 : ∀ m : Nat, m < N → chk (step yl x y inc dec m).2 = .ok (step yl x y inc dec m).2) :
    ∀ (n k : Nat) (g : Video), Ready g → k + n = N →
      ∃ g', lineLoop yl x y inc dec n (inc * k) (dec * k) g = .ok g' ∧
        Painted g.rgb (fun a b => ∃ m : Nat, k ≤ m ∧ m < N ∧ step yl x y inc dec m = (a, b)) g g'
  | 0, k, g, hg, hk => ⟨g, rfl, (Painted.refl _ g).congr fun a b _ _ => ⟨fun ⟨m, _⟩ => by omega, False.elim⟩⟩
  | n + 1, k, g, hg, hk => by
    have e1 : chk (inc * k + inc) = .ok (inc * (k + 1 : Nat)) := by
      have := h1 (k + 1) (by omega)
      push_cast at this ⊢
      rw [← this]
      ring_nf
    have e2 : chk (dec * k + dec) = .ok (dec * (k + 1 : Nat)) := by
      have := h2 (k + 1) (by omega)
      push_cast at this ⊢
      rw [← this]
      ring_nf
    obtain ⟨g1, p1, q1⟩ := plot_ok hg (step yl x y inc dec k).1 (step yl x y inc dec k).2
    obtain ⟨g', p2, q2⟩ := lineLoop_ok yl x y inc dec N h1 h2 h3 h4 n (k + 1) g1 (q1.ready hg) (by omega)
    refine ⟨g', ?_, (q1.trans (q1.rgb ▸ q2)).congr fun a b _ _ => ⟨?_, ?_⟩⟩
    · have e3 := h3 k (by omega)
      have e4 := h4 k (by omega)
      unfold lineLoop
      cases yl
      · simp only [step, Bool.false_eq_true, if_false] at e3 e4 p1 ⊢
        rw [e3, ok_bind, e4, ok_bind, p1, ok_bind, e1, ok_bind, e2, ok_bind]
        exact p2
      · simp only [step, if_true] at e3 e4 p1 ⊢
        rw [e3, ok_bind, e4, ok_bind, p1, ok_bind, e1, ok_bind, e2, ok_bind]
        exact p2
    · rintro ⟨m, h5, h6, h7⟩
      by_cases hm : m = k
      · subst hm
        rw [h7]
        exact .inl ⟨rfl, rfl⟩
      · exact .inr ⟨m, by omega, h6, h7⟩
    · rintro (⟨h5, h6⟩ | ⟨m, h5, h6, h7⟩)
      · exact ⟨k, by omega, by omega, Prod.ext h5.symm h6.symm⟩
      · exact ⟨m, by omega, h6, h7⟩

/-- The slope in 65536ths. -/
theorem slope {s : Int} {n : Nat} (hn : 0 < n) (hs : s.natAbs ≤ n) {m : Nat} (hm : m ≤ n) :
    let dec := (s * 65536).tdiv n
    (-65536 ≤ dec ∧ dec ≤ 65536) ∧
    (0 ≤ s → 0 ≤ dec * m ∧ dec * m ≤ s * 65536 ∧ dec * n ≤ s * 65536 ∧ s * 65536 < dec * n + n) ∧
    (s ≤ 0 → dec * m ≤ 0 ∧ s * 65536 ≤ dec * m ∧ s * 65536 ≤ dec * n ∧ dec * n < s * 65536 + n) := by
  intro dec
  have hd : n * dec + (s * 65536).tmod n = s * 65536 := Int.mul_tdiv_add_tmod ..
  have hn' : (0 : Int) < n := by omega
  have hm' : (0 : Int) ≤ m := by omega
  have hmn : (m : Int) ≤ n := by omega
  have pos : 0 ≤ s → 0 ≤ dec * m ∧ dec * m ≤ s * 65536 ∧ dec * n ≤ s * 65536 ∧ s * 65536 < dec * n + n ∧ 0 ≤ dec := by
    intro h
    have h1 : 0 ≤ (s * 65536).tmod n := Int.tmod_nonneg _ (by omega)
    have h2 : (s * 65536).tmod n < n := Int.tmod_lt_of_pos _ hn'
    have h3 : 0 ≤ dec := Int.tdiv_nonneg (by omega) (by omega)
    refine ⟨by positivity, by nlinarith, by nlinarith, by nlinarith, h3⟩
  have neg : s ≤ 0 → dec * m ≤ 0 ∧ s * 65536 ≤ dec * m ∧ s * 65536 ≤ dec * n ∧ dec * n < s * 65536 + n ∧ dec ≤ 0 := by
    intro h
    have e : (s * 65536).tmod n = -((-(s * 65536)).tmod n) := by rw [Int.neg_tmod, Int.neg_neg]
    have e' : dec = -((-(s * 65536)).tdiv n) := by rw [Int.neg_tdiv, Int.neg_neg]
    have h1 : 0 ≤ (-(s * 65536)).tmod n := Int.tmod_nonneg _ (by omega)
    have h2 : (-(s * 65536)).tmod n < n := Int.tmod_lt_of_pos _ hn'
    have h3 : 0 ≤ (-(s * 65536)).tdiv n := Int.tdiv_nonneg (by omega) (by omega)
    have h4 : dec ≤ 0 := by omega
    refine ⟨by nlinarith, by nlinarith, by nlinarith, by nlinarith, h4⟩
  refine ⟨?_, fun h => ?_, fun h => ?_⟩
  · rcases Int.le_total 0 s with h | h
    · obtain ⟨_, _, h3, _, h5⟩ := pos h
      refine ⟨by omega, ?_⟩
      by_contra hc
      have : (65537 : Int) * n ≤ dec * n := by nlinarith
      nlinarith [show s ≤ n by omega]
    · obtain ⟨_, _, h3, _, h5⟩ := neg h
      refine ⟨?_, by omega⟩
      by_contra hc
      have : dec * n ≤ (-65537 : Int) * n := by nlinarith
      nlinarith [show -(n : Int) ≤ s by omega]
  · obtain ⟨h1, h2, h3, h4, _⟩ := pos h
    exact ⟨h1, h2, h3, h4⟩
  · obtain ⟨h1, h2, h3, h4, _⟩ := neg h
    exact ⟨h1, h2, h3, h4⟩

/-- How far the pixel of round `m` is from the line. -/
theorem slope_near {s : Int} {n : Nat} (hn : 0 < n) (hn2 : n ≤ 65536) (hs : s.natAbs ≤ n) {m : Nat} (hm : m ≤ n) :
    let d := ((s * 65536).tdiv n * m / 65536 : Int);
    (-2 * n < n * d - m * s) ∧ n * d - m * s < 2 * n := by
  intro d
  obtain ⟨_, h1, h2⟩ := slope hn hs hm
  have hd1 : d * 65536 ≤ (s * 65536).tdiv n * m := Int.ediv_mul_le _ (by omega)
  have hd2 : (s * 65536).tdiv n * m < (d + 1) * 65536 := Int.lt_ediv_add_one_mul_self _ (by omega)
  generalize (s * 65536).tdiv n = dec at h1 h2 hd1 hd2
  have hmn : (m : Int) ≤ n := by omega
  have hm0 : (0 : Int) ≤ m := by omega
  have hn0 : (0 : Int) < n := by omega
  have hnn : (n : Int) * n ≤ n * 65536 := by nlinarith
  have hmm : (m : Int) * n ≤ n * n := by nlinarith
  have a1 : n * (d * 65536) ≤ n * (dec * m) := by nlinarith
  have a2 : n * (dec * m) < n * ((d + 1) * 65536) := by nlinarith
  rcases Int.le_total 0 s with h | h
  · obtain ⟨_, _, h3, h4⟩ := h1 h
    have b1 : (m : Int) * (dec * n) ≤ m * (s * 65536) := by nlinarith
    have b2 : (m : Int) * (s * 65536) ≤ m * (dec * n + n) := by nlinarith
    constructor <;> nlinarith
  · obtain ⟨_, _, h3, h4⟩ := h2 h
    have b1 : (m : Int) * (s * 65536) ≤ m * (dec * n) := by nlinarith
    have b2 : (m : Int) * (dec * n) ≤ m * (s * 65536 + n) := by nlinarith
    constructor <;> nlinarith

theorem unit_mul {d : Int} {inc : Int} (h : inc = if d < 0 then -1 else 1) : inc * d.natAbs = d := by
  rw [h]; split <;> omega

theorem chain {x0 y0 s l : Int} (hl : l ≠ 0) (hs : s.natAbs ≤ l.natAbs) {inc : Int} (hi : inc = if l < 0 then -1 else 1) :
    Chain x0 y0 l s l.natAbs (step false x0 y0 inc ((s * 65536).tdiv l.natAbs)) ∧
    Chain x0 y0 s l l.natAbs (step true x0 y0 inc ((s * 65536).tdiv l.natAbs)) := by
  have hu := unit_mul hi
  have hn : 0 < l.natAbs := by omega
  generalize hnn : l.natAbs = n at *
  have hi2 : inc = 1 ∨ inc = -1 := by rw [hi]; split <;> omega
  have major : ∀ k < n, min 0 l ≤ inc * k ∧ inc * k ≤ max 0 l := by
    intro k hk
    rcases hi2 with h | h <;> rw [h] at hu ⊢ <;> omega
  have minor : ∀ k ≤ n, min 0 s ≤ (s * 65536).tdiv n * k / 65536 ∧ (s * 65536).tdiv n * k / 65536 ≤ max 0 s := by
    intro k hk
    obtain ⟨_, h1, h2⟩ := slope hn hs hk
    rcases Int.le_total 0 s with h | h
    · obtain ⟨h3, h4, _⟩ := h1 h
      omega
    · obtain ⟨h3, h4, _⟩ := h2 h
      omega
  have ex : ∀ k : Nat, (n : Int) * (inc * k) = k * l := by
    intro k
    rw [← hu]; ring
  have jm : ∀ k : Nat, (inc * (k + 1 : Nat) - inc * k).natAbs ≤ 1 := by
    intro k
    rcases hi2 with h | h <;> rw [h] <;> omega
  have jn : ∀ k : Nat, ((s * 65536).tdiv n * (k + 1 : Nat) / 65536 - (s * 65536).tdiv n * k / 65536).natAbs ≤ 1 := by
    intro k
    obtain ⟨h1, _⟩ := slope hn hs (Nat.le_refl n)
    have : (s * 65536).tdiv n * (k + 1 : Nat) = (s * 65536).tdiv n * k + (s * 65536).tdiv n := by push_cast; ring
    rw [this]
    omega
  have zr : (s * 65536).tdiv n * (0 : Nat) / 65536 = 0 := by simp
  have tw : ∀ k : Nat, ((n : Int) * (inc * k) - k * l).natAbs < 2 * n := by
    intro k
    rw [ex]
    omega
  have nr : n ≤ 65536 → ∀ k < n, ((n : Int) * ((s * 65536).tdiv n * k / 65536) - k * s).natAbs < 2 * n := by
    intro h k hk
    have := slope_near hn h hs (Nat.le_of_lt hk)
    dsimp only at this
    omega
  constructor
  · refine ⟨?_, fun k hk => ?_, fun k hk => ?_, fun k hk => .inl ⟨hnn, ?_⟩, fun h k hk => ⟨?_, ?_⟩⟩ <;>
      simp only [step, Bool.false_eq_true, if_false]
    · rw [zr]; simp
    · have h1 := major k hk
      have h2 := minor k (by omega)
      omega
    · have h1 := jm k
      have h2 := jn k
      omega
    · rw [← ex k]; ring
    · have := tw k
      rwa [add_sub_cancel_left]
    · have := nr h k hk
      rwa [add_sub_cancel_left]
  · refine ⟨?_, fun k hk => ?_, fun k hk => ?_, fun k hk => .inr ⟨hnn, ?_⟩, fun h k hk => ⟨?_, ?_⟩⟩ <;>
      simp only [step, if_true]
    · rw [zr]; simp
    · have h1 := major k hk
      have h2 := minor k (by omega)
      omega
    · have h1 := jm k
      have h2 := jn k
      omega
    · rw [← ex k]; ring
    · have := nr h k hk
      rwa [add_sub_cancel_left]
    · have := tw k
      rwa [add_sub_cancel_left]

theorem iabs_ok {x : Int} (h1 : -2147483647 ≤ x) (h2 : x ≤ 2147483647) : iabs x = .ok (x.natAbs : Int) := by
  unfold iabs
  split
  · rw [chk_ok (by omega) (by omega)]
    congr 1
    omega
  · congr 1
    omega

theorem line_ok {x0 y0 x1 y1 : Int} {g : Video} (hg : Ready g)
    (hx0 : fits32 x0 = true) (hy0 : fits32 y0 = true) (hx1 : fits32 x1 = true) (hy1 : fits32 y1 = true)
    (hdx : (x1 - x0).natAbs ≤ 2147483647) (hdy : (y1 - y0).natAbs ≤ 2147483647)
    (hs : (x1 - x0).natAbs ≤ 32767 ∨ (y1 - y0).natAbs ≤ 32767) :
    ∃ g' P, line x0 y0 x1 y1 g = .ok g' ∧
      Chain x0 y0 (x1 - x0) (y1 - y0) (max (x1 - x0).natAbs (y1 - y0).natAbs) P ∧
      Painted g.rgb (fun a b => ∃ k, k < max (x1 - x0).natAbs (y1 - y0).natAbs ∧ P k = (a, b)) g g' := by
  simp only [fits32, decide_eq_true_eq] at hx0 hy0 hx1 hy1
  have main : ∀ (yl : Bool) (s l : Int), s.natAbs ≤ l.natAbs → s.natAbs ≤ 32767 → l ≠ 0 → l.natAbs ≤ 2147483647 →
      (yl = false → s = y1 - y0 ∧ l = x1 - x0) → (yl = true → s = x1 - x0 ∧ l = y1 - y0) →
      ∃ g' P, (do
        let longLen ← iabs l
        let dec ← if longLen = 0 then .ok 0 else do
          .ok ((← chk (s * 65536)).tdiv longLen)
        lineLoop yl x0 y0 (if l < 0 then -1 else 1) dec l.natAbs 0 0 g) = .ok g' ∧
      Chain x0 y0 (x1 - x0) (y1 - y0) l.natAbs P ∧
      Painted g.rgb (fun a b => ∃ k, k < l.natAbs ∧ P k = (a, b)) g g' := by
    intro yl s l h1 h2 h3 h4 h5 h6
    rw [iabs_ok (by omega) (by omega), ok_bind, if_neg (by omega), chk_ok (by omega) (by omega), ok_bind, ok_bind]
    obtain ⟨c1, c2⟩ := chain (x0 := x0) (y0 := y0) h3 h1 (inc := if l < 0 then -1 else 1) rfl
    have hc : Chain x0 y0 (x1 - x0) (y1 - y0) l.natAbs
        (step yl x0 y0 (if l < 0 then -1 else 1) ((s * 65536).tdiv l.natAbs)) := by
      cases yl
      · obtain ⟨rfl, rfl⟩ := h5 rfl
        exact c1
      · obtain ⟨rfl, rfl⟩ := h6 rfl
        exact c2
    have hu := unit_mul (d := l) rfl
    obtain ⟨g', e, q⟩ := lineLoop_ok yl x0 y0 (if l < 0 then -1 else 1) ((s * 65536).tdiv l.natAbs) l.natAbs
      (fun m hm => by split <;> exact chk_ok (by omega) (by omega))
      (fun m hm => by
        obtain ⟨_, k1, k2⟩ := slope (by omega) h1 hm
        rcases Int.le_total 0 s with h | h
        · obtain ⟨k3, k4, _⟩ := k1 h
          exact chk_ok (by omega) (by omega)
        · obtain ⟨k3, k4, _⟩ := k2 h
          exact chk_ok (by omega) (by omega))
      (fun m hm => by
        have := hc.box m hm
        exact chk_ok (by omega) (by omega))
      (fun m hm => by
        have := hc.box m hm
        exact chk_ok (by omega) (by omega))
      l.natAbs 0 g hg (by omega)
    refine ⟨g', _, ?_, hc, q.congr fun a b _ _ => ?_⟩
    · simpa using e
    · constructor
      · rintro ⟨k, hk, he⟩
        exact ⟨k, by omega, hk, he⟩
      · rintro ⟨k, _, hk, he⟩
        exact ⟨k, hk, he⟩
  unfold line
  rw [chk_ok (by omega) (by omega), ok_bind, chk_ok (by omega) (by omega), ok_bind, iabs_ok (by omega) (by omega), ok_bind,
    iabs_ok (by omega) (by omega), ok_bind]
  by_cases h : (x1 - x0).natAbs < (y1 - y0).natAbs
  · have hd : decide (((y1 - y0).natAbs : Int) > ((x1 - x0).natAbs : Int)) = true := decide_eq_true (by omega)
    rw [hd]
    have := main true (x1 - x0) (y1 - y0) (by omega) (by omega) (by omega) (by omega) (fun h => by cases h) (fun _ => ⟨rfl, rfl⟩)
    rw [show max (x1 - x0).natAbs (y1 - y0).natAbs = (y1 - y0).natAbs by omega]
    exact this
  · have hd : decide (((y1 - y0).natAbs : Int) > ((x1 - x0).natAbs : Int)) = false := decide_eq_false (by omega)
    rw [hd]
    rw [show max (x1 - x0).natAbs (y1 - y0).natAbs = (x1 - x0).natAbs by omega]
    by_cases h0 : x1 - x0 = 0
    · refine ⟨g, fun _ => (x0, y0), ?_, ⟨rfl, ?_, ?_, ?_, ?_⟩, (Painted.refl _ g).congr fun a b _ _ =>
        ⟨fun ⟨k, hk, _⟩ => by omega, False.elim⟩⟩
      · rw [h0]
        rfl
      · intro k hk; omega
      · intro k hk; omega
      · intro k hk; omega
      · intro _ k hk; omega
    · have := main false (y1 - y0) (x1 - x0) (by omega) (by omega) h0 (by omega) (fun _ => ⟨rfl, rfl⟩) (fun h => by cases h)
      exact this

end Ccml.Sdl
