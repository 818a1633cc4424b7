import Verif.LexSpec
/-!
Lemmas about the lexer.
-/
namespace Ccml

/-! ### Characters -/

theorem isAlpha_iff : ∀ c : Byte, isAlpha c = true ↔ NameStart c := by decide +kernel
theorem isNumeric_iff : ∀ c : Byte, isNumeric c = true ↔ Digit c := by decide +kernel
theorem lower_eq : ∀ c : Byte, lower c = caseFold c := by decide +kernel
theorem lower_fun : lower = caseFold := funext lower_eq

theorem isAlphaNum_iff (c : Byte) : isAlphaNum c = true ↔ NameChar c := by
  simp [isAlphaNum, NameChar, isAlpha_iff, isNumeric_iff]

theorem nameChar_facts : ∀ c : Byte, NameChar c →
    c ≠ 0 ∧ c ≠ ch ' ' ∧ c ≠ ch '\r' ∧ c ≠ ch '\t' ∧ c ≠ ch '"' ∧ c ≠ ch '#' ∧ c ≠ ch '\n' ∧
    c ≠ ch '.' ∧ c ≠ ch '=' ∧ punct c = none ∧ punctEq c = none := by decide +kernel

theorem digit_facts : ∀ c : Byte, Digit c →
    keywordsFor (lower c) = [] ∧ isAlpha c = false ∧ c.toInt - (ch '0').toInt = ((c.toNat - 48 : Nat) : Int) ∧
    c.toNat - 48 < 10 := by decide +kernel

theorem nameStart_facts : ∀ c : Byte, NameStart c → isNumeric c = false := by decide +kernel

/-! ### Scanning -/

/-- A buffer that still contains its terminator. -/
def Term (s : List Byte) : Prop := ∃ p, s = p ++ [0]

theorem Term.ne_nil {s : List Byte} (h : Term s) : s ≠ [] := by
  rcases h with ⟨p, rfl⟩; simp

theorem Term.tail {c : Byte} {s : List Byte} (h : Term (c :: s)) (hc : c ≠ 0) : Term s := by
  rcases h with ⟨p, hp⟩
  cases p with
  | nil => simp at hp; exact absurd hp.1 hc
  | cons a p => simp at hp; exact ⟨p, hp.2⟩

theorem scanWhile_append {p : Byte → Bool} {w r : List Byte} {d : Byte}
    (hw : ∀ c ∈ w, p c = true) (hd : p d = false) :
    scanWhile p (w ++ d :: r) = .ok (w, d :: r) := by
  induction w with
  | nil => simp [scanWhile, hd]
  | cons c w ih =>
    simp only [List.cons_append, scanWhile]
    rw [if_pos (hw c (by simp)), ih (fun x hx => hw x (by simp [hx]))]

theorem scanWhile_ok {p : Byte → Bool} (h0 : p 0 = false) {s : List Byte} (hs : Term s) :
    ∃ w d r, scanWhile p s = .ok (w, d :: r) ∧ s = w ++ d :: r ∧ (∀ c ∈ w, p c = true) ∧
      p d = false ∧ Term (d :: r) := by
  induction s with
  | nil => exact absurd rfl hs.ne_nil
  | cons c s ih =>
    by_cases hc : p c = true
    · have hc0 : c ≠ 0 := by rintro rfl; exact Bool.false_ne_true (h0.symm.trans hc)
      obtain ⟨w, d, r, e, hs', hw, hd, ht⟩ := ih (hs.tail hc0)
      refine ⟨c :: w, d, r, ?_, by simp [hs'], ?_, hd, ht⟩
      · simp [scanWhile, hc, e]
      · intro x hx; rcases List.mem_cons.1 hx with rfl | hx
        · exact hc
        · exact hw x hx
    · exact ⟨[], c, s, by simp [scanWhile, hc], rfl, by simp, by simpa using hc, hs⟩

theorem scanString_append {q r : List Byte}
    (hq : ∀ c ∈ q, c ≠ ch '"' ∧ c ≠ ch '\n' ∧ c ≠ 0) :
    scanString (q ++ ch '"' :: r) = .ok (some (q, r)) := by
  induction q with
  | nil => simp [scanString]
  | cons c q ih =>
    obtain ⟨h1, h2, h3⟩ := hq c (by simp)
    simp only [List.cons_append, scanString]
    rw [if_neg h1, if_neg (by simp [h2]; exact h3), ih (fun x hx => hq x (by simp [hx]))]

theorem scanString_ok {s : List Byte} (hs : Term s) :
    scanString s = .ok none ∨ ∃ q r, scanString s = .ok (some (q, r)) ∧
      s = q ++ ch '"' :: r ∧ (∀ c ∈ q, c ≠ ch '"' ∧ c ≠ ch '\n' ∧ c ≠ 0) ∧ Term r := by
  induction s with
  | nil => exact absurd rfl hs.ne_nil
  | cons c s ih =>
    simp only [scanString]
    by_cases h1 : c = ch '"'
    · right; subst h1
      exact ⟨[], s, by simp, rfl, by simp, hs.tail (by decide)⟩
    · rw [if_neg h1]
      by_cases h2 : (c = ch '\n' || c = 0) = true
      · left; rw [if_pos h2]
      · rw [if_neg h2]
        simp only [Bool.or_eq_true, decide_eq_true_eq, not_or] at h2
        rcases ih (hs.tail h2.2) with e | ⟨q, r, e, hs', hq, ht⟩
        · left; rw [e]
        · right
          refine ⟨c :: q, r, by rw [e], by simp [hs'], ?_, ht⟩
          intro x hx; rcases List.mem_cons.1 hx with rfl | hx
          · exact ⟨h1, h2.1, h2.2⟩
          · exact hq x hx

/-! ### Keywords -/

theorem munch_word {w r k : List Byte} {d : Byte} (hw : ∀ c ∈ w, NameChar c) (hd : ¬ NameChar d)
    (hk : ∀ c ∈ k, NameChar c ∧ lower c = c) :
    munch (w ++ d :: r) k = .ok (if w.map caseFold = k then some (d :: r) else none) := by
  induction w generalizing k with
  | nil =>
    cases k with
    | nil =>
      have : isAlphaNum d = false := by
        rw [Bool.eq_false_iff]; intro h; exact hd ((isAlphaNum_iff d).1 h)
      simp [munch, this]
    | cons c k =>
      have hne : lower d ≠ lower c := by
        have hc := hk c (by simp)
        intro e
        rw [hc.2] at e
        have key : ∀ x : Byte, NameChar (lower x) → NameChar x := by decide +kernel
        exact hd (key d (by rw [e]; exact hc.1))
      simp [munch, hne]
  | cons c w ih =>
    cases k with
    | nil =>
      have : isAlphaNum c = true := (isAlphaNum_iff c).2 (hw c (by simp))
      simp [munch, this]
    | cons a k =>
      have ha := hk a (by simp)
      simp only [List.cons_append, munch, List.map_cons]
      by_cases he : lower c = lower a
      · rw [if_pos he, ih (fun x hx => hw x (by simp [hx])) (fun x hx => hk x (by simp [hx]))]
        have : caseFold c = a := by rw [← lower_eq, he, ha.2]
        simp [this]
      · rw [if_neg he]
        have : ¬ caseFold c = a := by rw [← lower_eq]; intro e; exact he (by rw [e, ha.2])
        simp [this]

theorem munch_ok {s k : List Byte} (hs : Term s) (hk : ∀ c ∈ k, NameChar c ∧ lower c = c) :
    munch s k = .ok none ∨ ∃ w d r, munch s k = .ok (some (d :: r)) ∧ s = w ++ d :: r ∧
      w.map caseFold = k ∧ ¬ NameChar d ∧ Term (d :: r) := by
  induction s generalizing k with
  | nil => exact absurd rfl hs.ne_nil
  | cons c s ih =>
    cases k with
    | nil =>
      by_cases h : isAlphaNum c = true
      · left; simp [munch, h]
      · right
        exact ⟨[], c, s, by simp [munch, h], rfl, rfl, by rwa [← isAlphaNum_iff], hs⟩
    | cons a k =>
      have ha := hk a (by simp)
      by_cases he : lower c = lower a
      · have hc0 : c ≠ 0 := by
          rintro rfl
          rw [ha.2] at he
          have : ¬ NameChar (lower 0) := by decide
          exact this (he ▸ ha.1)
        rcases ih (k := k) (hs.tail hc0) (fun x hx => hk x (by simp [hx])) with e | ⟨w, d, r, e, hs', hw, hd, ht⟩
        · left; simp only [munch, if_pos he, e]
        · right
          refine ⟨c :: w, d, r, by simp only [munch, if_pos he, e], by simp [hs'], ?_, hd, ht⟩
          rw [List.map_cons, hw, ← lower_eq, he, ha.2]
      · left; simp only [munch, if_neg he]

theorem munchAny_word {w r : List Byte} {d : Byte} (hw : ∀ c ∈ w, NameChar c) (hd : ¬ NameChar d)
    {ks : List (Str × Tok)} (hk : ∀ k ∈ ks, ∀ x ∈ k.1, NameChar x ∧ lower x = x) :
    munchAny (w ++ d :: r) ks =
      .ok ((ks.find? (fun k => w.map caseFold = k.1)).map (fun k => (k.2, d :: r))) := by
  induction ks with
  | nil => rfl
  | cons k ks ih =>
    rcases k with ⟨k, t⟩
    simp only [munchAny]
    rw [munch_word hw hd (hk (k, t) (by simp))]
    by_cases h : w.map caseFold = k
    · simp [h]
    · simp only [if_neg h]
      rw [ih (fun x hx => hk x (by simp [hx])), List.find?_cons_of_neg (by simpa using h)]

theorem munchAny_ok {s : List Byte} (hs : Term s) {ks : List (Str × Tok)}
    (hk : ∀ k ∈ ks, ∀ x ∈ k.1, NameChar x ∧ lower x = x) :
    munchAny s ks = .ok none ∨ ∃ t w d r, munchAny s ks = .ok (some (t, d :: r)) ∧ s = w ++ d :: r ∧
      (w.map caseFold, t) ∈ ks ∧ ¬ NameChar d ∧ Term (d :: r) := by
  induction ks with
  | nil => exact .inl rfl
  | cons k ks ih =>
    rcases k with ⟨k, t⟩
    rcases munch_ok hs (hk (k, t) (by simp)) with e | ⟨w, d, r, e, hs', hw, hd, ht⟩
    · rcases ih (fun x hx => hk x (by simp [hx])) with e' | ⟨t', w, d, r, e', h1, h2, h3⟩
      · left; simp [munchAny, e, e']
      · right
        exact ⟨t', w, d, r, by simp [munchAny, e, e'], h1, by simp [h2], h3⟩
    · right
      exact ⟨t, w, d, r, by simp [munchAny, e], hs', by simp [hw], hd, ht⟩

theorem keywordsFor_filter : ∀ a : Byte,
    keywordsFor a = keywordTable.filter (fun k => k.1.head? = some a) := by decide +kernel

theorem keyword_chars (c : Byte) : ∀ k ∈ keywordsFor c, ∀ x ∈ k.1, NameChar x ∧ lower x = x := by
  have h : ∀ k ∈ keywordTable, ∀ x ∈ k.1, NameChar x ∧ lower x = x := by decide +kernel
  intro k hk
  rw [keywordsFor_filter] at hk
  exact h k (List.mem_filter.1 hk).1

/-- The keywords tried for a first letter are the keywords of the table with that letter. -/
theorem keywordsFor_find (c : Byte) (w : Str) :
    ((keywordsFor (lower c)).find? (fun k => (c :: w).map caseFold = k.1)).map (·.2) =
      keywordOf (c :: w) := by
  rw [keywordsFor_filter, List.find?_filter, keywordOf]
  congr 2
  funext k
  simp only [List.map_cons, ← lower_eq]
  by_cases h : k.1 = lower c :: w.map caseFold
  · simp [h]
  · simp [h, eq_comm]

/-! ### Numbers -/

/-- Accumulating digits from a value `v`. -/
def foldDigits (v : Nat) (w : Str) : Nat := w.foldl (fun v c => 10 * v + (c.toNat - 48)) v

theorem foldDigits_cons (v : Nat) (c : Byte) (w : Str) :
    foldDigits v (c :: w) = foldDigits (10 * v + (c.toNat - 48)) w := by
  unfold foldDigits; rw [List.foldl_cons]

theorem foldDigits_append (v : Nat) (a b : Str) :
    foldDigits v (a ++ b) = foldDigits (foldDigits v a) b := by
  simp [foldDigits, List.foldl_append]

theorem le_foldDigits (v : Nat) (w : Str) : v ≤ foldDigits v w := by
  induction w generalizing v with
  | nil => exact Nat.le_refl _
  | cons c w ih => rw [foldDigits_cons]; have := ih (10 * v + (c.toNat - 48)); omega

theorem toInt_ofNat31 {n : Nat} (h : n < 2 ^ 31) : (BitVec.ofNat 32 n).toInt = n := by
  rw [BitVec.toInt_ofNat']
  simp only [Int.bmod]
  omega

theorem ret32_nat (n : Nat) :
    ret32 (n : Int) = if n < 2 ^ 31 then .ok (BitVec.ofNat 32 n) else .error .ub := by
  unfold ret32 fits32
  by_cases h : n < 2 ^ 31
  · rw [if_pos (by simp; omega), if_pos h]; rfl
  · rw [if_neg (by simp; omega), if_neg h]

theorem numLoop_digits {w rest : Str} (hw : ∀ c ∈ w, Digit c) {v f : Nat} (hv : v < 2 ^ 31)
    (hf : f < 2 ^ 31) :
    numLoop (w ++ rest) (BitVec.ofNat 32 v) (BitVec.ofNat 32 f) =
      if foldDigits v w < 2 ^ 31 ∧ f * 10 ^ w.length < 2 ^ 31 then
        numLoop rest (BitVec.ofNat 32 (foldDigits v w)) (BitVec.ofNat 32 (f * 10 ^ w.length))
      else .error .overflow := by
  induction w generalizing v f with
  | nil => simp [foldDigits, hv, hf]
  | cons c w ih =>
    have hc := hw c (by simp)
    obtain ⟨_, _, h3, h4⟩ := digit_facts c hc
    have hdot : c ≠ ch '.' := (nameChar_facts c (.inr hc)).2.2.2.2.2.2.2.1
    have hnum : isNumeric c = true := (isNumeric_iff c).2 hc
    have e1 : ((v : Int) * 10) = ((v * 10 : Nat) : Int) := by simp
    have e2 : ((f : Int) * 10) = ((f * 10 : Nat) : Int) := by simp
    simp only [List.cons_append, numLoop, if_neg hdot, if_pos hnum, toInt_ofNat31 hv,
      toInt_ofNat31 hf, e1, e2, ret32_nat, foldDigits_cons, List.length_cons]
    by_cases b1 : v * 10 < 2 ^ 31
    · simp only [if_pos b1, toInt_ofNat31 b1, h3]
      rw [← Int.natCast_add, ret32_nat]
      have e3 : v * 10 + (c.toNat - 48) = 10 * v + (c.toNat - 48) := by omega
      rw [e3]
      by_cases b2 : 10 * v + (c.toNat - 48) < 2 ^ 31
      · simp only [if_pos b2]
        by_cases b3 : f * 10 < 2 ^ 31
        · simp only [if_pos b3]
          rw [ih (fun x hx => hw x (by simp [hx])) b2 b3]
          have e4 : f * 10 * 10 ^ w.length = f * 10 ^ (w.length + 1) := by
            rw [Nat.pow_succ, Nat.mul_assoc, Nat.mul_comm 10]
          rw [e4]
        · simp only [if_neg b3]
          rw [if_neg]
          intro h
          have : f * 10 ≤ f * 10 ^ (w.length + 1) := by
            apply Nat.mul_le_mul_left
            rw [Nat.pow_succ]
            have := Nat.pos_of_ne_zero (Nat.ne_of_gt (Nat.pow_pos (n := w.length) (show 0 < 10 by decide)))
            omega
          omega
      · simp only [if_neg b2]
        rw [if_neg]
        intro h
        have := le_foldDigits (10 * v + (c.toNat - 48)) w
        omega
    · simp only [if_neg b1]
      rw [if_neg]
      intro h
      have := le_foldDigits (10 * v + (c.toNat - 48)) w
      omega

theorem numToken_int (fl : FloatOps) {w : Str} (hw : ∀ c ∈ w, Digit c) (l : SrcLine) :
    numToken fl w l = if digitsValue w < 2 ^ 31 then
      .ok (.number .INT (BitVec.ofNat 32 (digitsValue w)) l) else .error .overflow := by
  have h := numLoop_digits (rest := []) hw (v := 0) (f := 0) (by decide) (by decide)
  rw [List.append_nil] at h
  unfold numToken
  have e0 : (0 : I32) = BitVec.ofNat 32 0 := rfl
  rw [e0, h]
  have hd : foldDigits 0 w = digitsValue w := rfl
  rw [hd, Nat.zero_mul]
  by_cases b : digitsValue w < 2 ^ 31
  · rw [if_pos ⟨b, by decide⟩, if_pos b]; simp [numLoop]
  · rw [if_neg (fun h => b h.1), if_neg b]

theorem ofNat_ne_zero {n : Nat} (h : n < 2 ^ 31) (hp : 0 < n) : BitVec.ofNat 32 n ≠ 0 := by
  intro e
  have := congrArg BitVec.toNat e
  simp at this
  omega

theorem numLoop_dot (b : Str) (v : I32) : numLoop (ch '.' :: b) v 0 = numLoop b v 1 := by
  simp only [numLoop, if_true]

theorem numToken_float (fl : FloatOps) {a b : Str} (ha : ∀ c ∈ a, Digit c) (hb : ∀ c ∈ b, Digit c)
    (l : SrcLine) :
    numToken fl (a ++ ch '.' :: b) l =
      if digitsValue (a ++ b) < 2 ^ 31 ∧ 10 ^ b.length < 2 ^ 31 then
      .ok (.number .FLOAT (fl.div (fl.ofInt (BitVec.ofNat 32 (digitsValue (a ++ b))))
          (fl.ofInt (BitVec.ofNat 32 (10 ^ b.length)))) l) else .error .overflow := by
  have h := numLoop_digits (rest := ch '.' :: b) ha (v := 0) (f := 0) (by decide) (by decide)
  have e0 : (0 : I32) = BitVec.ofNat 32 0 := rfl
  have hfold : foldDigits (foldDigits 0 a) b = digitsValue (a ++ b) := by
    rw [← foldDigits_append]; rfl
  unfold numToken
  rw [e0, h, Nat.zero_mul]
  by_cases b1 : foldDigits 0 a < 2 ^ 31
  · rw [if_pos ⟨b1, by decide⟩]
    have h2 := numLoop_digits (rest := []) hb (v := foldDigits 0 a) (f := 1) b1 (by decide)
    rw [List.append_nil, hfold, Nat.one_mul] at h2
    have e1 : (1 : I32) = BitVec.ofNat 32 1 := rfl
    rw [← e0, numLoop_dot, e1, h2]
    by_cases b2 : digitsValue (a ++ b) < 2 ^ 31 ∧ 10 ^ b.length < 2 ^ 31
    · rw [if_pos b2, if_pos b2]
      have hne := ofNat_ne_zero b2.2 (Nat.pow_pos (by decide))
      simp only [numLoop]
      rw [if_neg hne]
    · rw [if_neg b2, if_neg b2]
  · rw [if_neg (by intro h; exact b1 h.1), if_neg]
    intro h
    have := le_foldDigits (foldDigits 0 a) b
    rw [hfold] at this
    omega

end Ccml
