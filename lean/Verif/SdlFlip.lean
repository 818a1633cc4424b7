import Verif.SdlFacts
/-!
What `flip` copies to the window (proofs).
-/
namespace Ccml.Sdl

theorem store_ok {p : List (BitVec 32)} {i : Nat} (c : BitVec 32) (h : i < p.length) :
    ∃ p', store p i c = .ok p' ∧ p'.length = p.length ∧ ∀ k, p'[k]? = if k = i then some c else p[k]? := by
  unfold store
  rw [if_pos ⟨by omega, by omega⟩]
  refine ⟨_, rfl, by simp, fun k => ?_⟩
  rw [Int.toNat_natCast, List.getElem?_set]
  by_cases hk : i = k
  · subst hk
    rw [if_pos rfl, if_pos h, if_pos rfl]
  · rw [if_neg hk, if_neg (Ne.symm hk)]

theorem u32_nat {n : Nat} (h : n < 4294967296) : u32 n = n := by
  unfold u32
  omega

theorem stores {p q r : List (BitVec 32)} {c : BitVec 32} {P : Nat → Prop} [DecidablePred P] {i : Nat}
    (h1 : ∀ k, q[k]? = if P k then some c else p[k]?) (h2 : ∀ k, r[k]? = if k = i then some c else q[k]?) (k : Nat) :
    r[k]? = if k = i ∨ P k then some c else p[k]? := by
  rw [h2, h1]
  by_cases h : k = i
  · rw [if_pos h, if_pos (.inl h)]
  · rw [if_neg h]
    by_cases h' : P k
    · rw [if_pos h', if_pos (.inr h')]
    · rw [if_neg h', if_neg (not_or.2 ⟨h, h'⟩)]

theorem flipBlock_ok (c : BitVec 32) {W d j : Nat} {px : List (BitVec 32)} (hj : j + 3 ≤ W) (hW : 3 * W < 4294967296)
    (hl : d + 3 * W ≤ px.length) :
    ∃ p', flipBlock c W (W + W) d j px = .ok p' ∧ p'.length = px.length ∧
      (∀ k, k < d ∨ d + 3 * W ≤ k → p'[k]? = px[k]?) ∧
      ∀ B < 3, ∀ X < W, p'[d + B * W + X]? = if j ≤ X ∧ X < j + 3 then some c else px[d + B * W + X]? := by
  obtain ⟨a1, e1, l1, g1⟩ := store_ok (p := px) (i := d + (j + 2)) c (by omega)
  obtain ⟨a2, e2, l2, g2⟩ := store_ok (p := a1) (i := d + (j + 1)) c (by omega)
  obtain ⟨a3, e3, l3, g3⟩ := store_ok (p := a2) (i := d + j) c (by omega)
  obtain ⟨a4, e4, l4, g4⟩ := store_ok (p := a3) (i := d + (j + 2 + W)) c (by omega)
  obtain ⟨a5, e5, l5, g5⟩ := store_ok (p := a4) (i := d + (j + 1 + W)) c (by omega)
  obtain ⟨a6, e6, l6, g6⟩ := store_ok (p := a5) (i := d + (j + W)) c (by omega)
  obtain ⟨a7, e7, l7, g7⟩ := store_ok (p := a6) (i := d + (j + 2 + (W + W))) c (by omega)
  obtain ⟨a8, e8, l8, g8⟩ := store_ok (p := a7) (i := d + (j + 1 + (W + W))) c (by omega)
  obtain ⟨a9, e9, l9, g9⟩ := store_ok (p := a8) (i := d + (j + (W + W))) c (by omega)
  have G := stores (stores (stores (stores (stores (stores (stores (stores g1 g2) g3) g4) g5) g6) g7) g8) g9
  have hu : ∀ n : Nat, n < 4294967296 → ((d : Int) + ((u32 n : Nat) : Int)) = ((d + n : Nat) : Int) := by
    intro n hn
    rw [u32_nat hn]
    push_cast
    rfl
  refine ⟨a9, ?_, by omega, ?_, ?_⟩
  · unfold flipBlock
    have f1 := hu (j + 2) (by omega)
    have f2 := hu (j + 1) (by omega)
    have f3 := hu j (by omega)
    have f4 := hu (j + 2 + W) (by omega)
    have f5 := hu (j + 1 + W) (by omega)
    have f6 := hu (j + W) (by omega)
    have f7 := hu (j + 2 + (W + W)) (by omega)
    have f8 := hu (j + 1 + (W + W)) (by omega)
    have f9 := hu (j + (W + W)) (by omega)
    push_cast at f1 f2 f3 f4 f5 f6 f7 f8 f9 e1 e2 e3 e4 e5 e6 e7 e8 e9 ⊢
    rw [f1, e1, ok_bind, f2, e2, ok_bind, f3, e3, ok_bind, f4, e4, ok_bind, f5, e5, ok_bind, f6, e6, ok_bind,
      f7, e7, ok_bind, f8, e8, ok_bind, f9, e9]
  · intro k hk
    rw [G, if_neg (by omega)]
  · intro B hB X hX
    rw [G]
    by_cases hc : j ≤ X ∧ X < j + 3
    · rw [if_pos hc, if_pos]
      obtain rfl | rfl | rfl : B = 0 ∨ B = 1 ∨ B = 2 := by omega
      all_goals omega
    · rw [if_neg hc, if_neg]
      obtain rfl | rfl | rfl : B = 0 ∨ B = 1 ∨ B = 2 := by omega
      all_goals omega

theorem flipRow_ok (src : List (BitVec 32)) {w s d : Nat} (hw : 9 * w < 4294967296) :
    ∀ (n x : Nat) (px : List (BitVec 32)), x + n ≤ w → s + x + n ≤ src.length → d + 9 * w ≤ px.length →
    ∃ p', flipRow src (3 * w) (3 * w + 3 * w) s d n x (3 * x) px = .ok p' ∧ p'.length = px.length ∧
      (∀ k, k < d ∨ d + 9 * w ≤ k → p'[k]? = px[k]?) ∧
      ∀ B < 3, ∀ X < 3 * w, p'[d + B * (3 * w) + X]? =
        if 3 * x ≤ X ∧ X < 3 * (x + n) then src[s + X / 3]? else px[d + B * (3 * w) + X]?
  | 0, x, px, h1, h2, h3 => ⟨px, rfl, rfl, fun _ _ => rfl, fun B _ X _ => by rw [if_neg (by omega)]⟩
  | n + 1, x, px, h1, h2, h3 => by
    have hx : s + x < src.length := by omega
    obtain ⟨a, e1, l1, o1, b1⟩ := flipBlock_ok src[s + x] (W := 3 * w) (d := d) (j := 3 * x) (px := px) (by omega) (by omega) (by omega)
    obtain ⟨p', e2, l2, o2, b2⟩ := flipRow_ok src (s := s) (d := d) hw n (x + 1) a (by omega) (by omega) (by omega)
    refine ⟨p', ?_, by omega, fun k hk => ?_, fun B hB X hX => ?_⟩
    · unfold flipRow load
      rw [List.getElem?_eq_getElem hx]
      dsimp only
      rw [ok_bind, e1, ok_bind]
      have : u32 ((3 * x : Nat) + 3 : Int) = 3 * (x + 1) := by
        have := u32_nat (n := 3 * x + 3) (by omega)
        push_cast at this ⊢
        omega
      rw [this]
      exact e2
    · rw [o2 k hk, o1 k (by omega)]
    · rw [b2 B hB X hX, b1 B hB X hX]
      by_cases c1 : 3 * (x + 1) ≤ X ∧ X < 3 * (x + 1 + n)
      · rw [if_pos c1, if_pos (by omega)]
      · rw [if_neg c1]
        by_cases c2 : 3 * x ≤ X ∧ X < 3 * x + 3
        · rw [if_pos c2, if_pos (by omega), show X / 3 = x by omega, List.getElem?_eq_getElem hx]
        · rw [if_neg c2, if_neg (by omega)]

theorem flipRows_ok (src : List (BitVec 32)) {w h : Nat} (hw : 9 * w < 4294967296) (hh : h ≤ w) (hs : src.length = w * h) :
    ∀ (n y : Nat) (px : List (BitVec 32)), y + n = h → px.length = 9 * (w * h) →
    ∃ p', flipRows src w h (3 * w) (3 * w + 3 * w) n (y * w) (y * (9 * w)) px = .ok p' ∧ p'.length = px.length ∧
      (∀ k, k < y * (9 * w) → p'[k]? = px[k]?) ∧
      ∀ X Y, X < 3 * w → 3 * y ≤ Y → Y < 3 * h → p'[Y * (3 * w) + X]? =
        if X < 3 * h then src[Y / 3 * w + X / 3]? else px[Y * (3 * w) + X]?
  | 0, y, px, h1, h2 => ⟨px, rfl, rfl, fun _ _ => rfl, fun X Y _ _ _ => by omega⟩
  | n + 1, y, px, h1, h2 => by
    have hr : (y + 1) * w ≤ h * w := Nat.mul_le_mul_right w (by omega)
    rw [Nat.add_mul, Nat.one_mul, Nat.mul_comm h] at hr
    have hy9 : y * (9 * w) = 9 * (y * w) := by ring
    obtain ⟨a, e1, l1, o1, b1⟩ := flipRow_ok src (w := w) (s := y * w) (d := y * (9 * w)) hw h 0 px (by omega) (by omega) (by omega)
    obtain ⟨p', e2, l2, o2, b2⟩ := flipRows_ok src hw hh hs n (y + 1) a (by omega) (by omega)
    have hy1 : (y + 1) * (9 * w) = y * (9 * w) + 9 * w := by ring
    refine ⟨p', ?_, by omega, fun k hk => ?_, fun X Y hX hY hY2 => ?_⟩
    · unfold flipRows
      have hu : u32 ((3 * w : Nat) * 3 : Int) = 9 * w := by
        have := u32_nat (n := 9 * w) (by omega)
        rw [← this]
        congr 1
        push_cast
        ring
      rw [Nat.mul_zero] at e1
      rw [e1, ok_bind, hu, ← hy1, show y * w + w = (y + 1) * w by ring]
      exact e2
    · rw [o2 k (by omega), o1 k (.inl hk)]
    · by_cases c1 : 3 * (y + 1) ≤ Y
      · rw [b2 X Y hX c1 hY2]
        split
        · rfl
        · refine o1 _ (.inr ?_)
          have : 3 * (y + 1) * (3 * w) ≤ Y * (3 * w) := Nat.mul_le_mul_right _ c1
          have h9 : 3 * (y + 1) * (3 * w) = y * (9 * w) + 9 * w := by ring
          omega
      · obtain ⟨B, rfl⟩ : ∃ B, Y = 3 * y + B := ⟨Y - 3 * y, by omega⟩
        have hB : B < 3 := by omega
        have hi : (3 * y + B) * (3 * w) + X = y * (9 * w) + B * (3 * w) + X := by ring
        rw [hi, o2, b1 B hB X hX]
        · rw [show (3 * y + B) / 3 = y by omega]
          by_cases c2 : X < 3 * h
          · rw [if_pos c2, if_pos (by omega)]
          · rw [if_neg c2, if_neg (by omega)]
        · have : B * (3 * w) ≤ 2 * (3 * w) := Nat.mul_le_mul_right _ (by omega)
          omega

theorem bind_ok' {α β : Type} {x : Out α} {f : α → Out β} {b : β} (h : (x >>= f) = .ok b) : ∃ a, x = .ok a ∧ f a = .ok b := by
  cases x with
  | error e => cases h
  | ok a => exact ⟨a, rfl, h⟩

/-- A row that is too long. -/
theorem flipRow_src {src : List (BitVec 32)} {p1 p2 s d : Nat} : ∀ {n x j : Nat} {px p' : List (BitVec 32)},
    flipRow src p1 p2 s d n x j px = .ok p' → 0 < n → s + x + n ≤ src.length
  | 0, _, _, _, _, _, h => by omega
  | n + 1, x, j, px, p', h, _ => by
    unfold flipRow at h
    obtain ⟨c, h1, h2⟩ := bind_ok' h
    obtain ⟨q, h3, h4⟩ := bind_ok' h2
    have : s + x < src.length := by
      unfold load at h1
      split at h1
      · rename_i h5
        exact (List.getElem?_eq_some_iff.1 h5).1
      · cases h1
    rcases Nat.eq_zero_or_pos n with h5 | h5
    · omega
    · have := flipRow_src h4 h5
      omega

theorem flipRows_src {src : List (BitVec 32)} {w h p1 p2 : Nat} (hh : 0 < h) : ∀ {n s d : Nat} {px p' : List (BitVec 32)},
    flipRows src w h p1 p2 n s d px = .ok p' → 0 < n → s + (n - 1) * w + h ≤ src.length
  | 0, _, _, _, _, _, h => by omega
  | n + 1, s, d, px, p', h1, _ => by
    unfold flipRows at h1
    obtain ⟨q, h3, h4⟩ := bind_ok' h1
    rcases Nat.eq_zero_or_pos n with h5 | h5
    · subst h5
      have := flipRow_src h3 hh
      omega
    · have := flipRows_src hh h4 h5
      have e : (n + 1 - 1) * w = (n - 1) * w + w := by
        obtain ⟨m, rfl⟩ : ∃ m, n = m + 1 := ⟨n - 1, by omega⟩
        simp [Nat.add_mul]
      omega

/-- The only ways the copying can end. -/
theorem flipRow_err {src : List (BitVec 32)} {p1 p2 s d : Nat} : ∀ {n x j : Nat} {px : List (BitVec 32)} {f : Fault},
    flipRow src p1 p2 s d n x j px = .error f → f = .ub := by
  have hs : ∀ {p : List (BitVec 32)} {i : Int} {c f}, store p i c = .error f → f = .ub := by
    intro p i c f h
    unfold store at h
    split at h <;> cases h
    rfl
  have hb : ∀ {α β : Type} {x : Out α} {k : α → Out β} {f : Fault}, (∀ f, x = .error f → f = .ub) →
      (∀ a f, k a = .error f → f = .ub) → (x >>= k) = .error f → f = .ub := by
    intro α β x k f h1 h2 h3
    cases x with
    | error e =>
      cases h3
      exact h1 _ rfl
    | ok a => exact h2 a f h3
  intro n
  induction n with
  | zero => intro x j px f h; cases h
  | succ n ih =>
    intro x j px f h
    unfold flipRow at h
    refine hb (fun f h => ?_) (fun c f h => hb (fun f h => ?_) (fun _ _ h => ih h) h) h
    · unfold load at h
      split at h <;> cases h
      rfl
    · unfold flipBlock at h
      iterate 8 refine hb (fun f h => hs h) (fun _ f h => ?_) h; rename_i h
      exact hs ‹_›

theorem flipRows_err {src : List (BitVec 32)} {w h p1 p2 : Nat} : ∀ {n s d : Nat} {px : List (BitVec 32)} {f : Fault},
    flipRows src w h p1 p2 n s d px = .error f → f = .ub
  | 0, _, _, _, _, h => by cases h
  | n + 1, s, d, px, f, h1 => by
    unfold flipRows at h1
    cases hr : flipRow src p1 p2 s d h 0 0 px with
    | error e =>
      rw [hr] at h1
      cases h1
      exact flipRow_err hr
    | ok q =>
      rw [hr, ok_bind] at h1
      exact flipRows_err h1

end Ccml.Sdl
