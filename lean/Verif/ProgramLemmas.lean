import Verif.Program
import Verif.InstrLemmas
/-! Helper lemmas for the program file format. -/
namespace Ccml

/-- Reader `m` turns the bytes `w` into `a`, whatever follows, and fails cleanly on every
strict prefix of `w`. -/
structure Codec {α : Type} (m : Rd α) (w : List Byte) (a : α) : Prop where
  reads : ∀ rest, m (w ++ rest) = .ok (some (a, rest))
  cut : ∀ pre suf, w = pre ++ suf → suf ≠ [] → m pre = .ok none

theorem Codec.pure {α : Type} (a : α) : Codec (Rd.pure a) [] a where
  reads := fun rest => rfl
  cut := by
    intro pre suf h hs
    have := List.append_eq_nil_iff.mp h.symm
    exact absurd this.2 hs

/-- A strict prefix of `w₁ ++ w₂` is a strict prefix of `w₁`, or `w₁` followed by a strict
prefix of `w₂`. -/
theorem prefix_split {α : Type} {w₁ w₂ pre suf : List α} (h : w₁ ++ w₂ = pre ++ suf)
    (_ : suf ≠ []) :
    (∃ s, w₁ = pre ++ s ∧ s ≠ []) ∨ (∃ p, pre = w₁ ++ p ∧ w₂ = p ++ suf) := by
  rcases List.append_eq_append_iff.mp h with ⟨a, h1, h2⟩ | ⟨a, h1, h2⟩
  · right; exact ⟨a, h1, h2⟩
  · by_cases ha : a = []
    · right; subst ha; exact ⟨[], by simpa using h1.symm, by simpa using h2.symm⟩
    · left; exact ⟨a, h1, ha⟩

theorem Codec.bind {α β : Type} {m : Rd α} {f : α → Rd β} {w₁ w₂ : List Byte} {a : α} {b : β}
    (h₁ : Codec m w₁ a) (h₂ : Codec (f a) w₂ b) : Codec (Rd.bind m f) (w₁ ++ w₂) b where
  reads := by
    intro rest
    simp [Rd.bind, List.append_assoc, h₁.reads, h₂.reads]
  cut := by
    intro pre suf h hs
    rcases prefix_split h hs with ⟨s, e, hne⟩ | ⟨p, e, e2⟩
    · simp [Rd.bind, h₁.cut pre s e hne]
    · subst e
      simp [Rd.bind, h₁.reads, h₂.cut p suf e2 hs]

theorem Codec.map {α β : Type} {m : Rd α} {w : List Byte} {a : α} (g : α → β)
    (h : Codec m w a) : Codec (Rd.bind m fun x => Rd.pure (g x)) w (g a) := by
  have := Codec.bind (f := fun x => Rd.pure (g x)) h (Codec.pure (g a))
  simpa using this

theorem Codec.i32 (v : I32) : Codec readI32 (saveI32 v) v where
  reads := by
    intro rest
    simp only [saveI32, le32, List.cons_append, List.nil_append, readI32]
    rw [of32_le32]
  cut := by
    intro pre suf h hs
    have hl : pre.length < 4 := by
      have := congrArg List.length h
      simp [saveI32] at this
      have : 0 < suf.length := List.length_pos_iff.mpr hs
      omega
    match pre, hl with
    | [], _ => rfl
    | [_], _ => rfl
    | [_, _], _ => rfl
    | [_, _, _], _ => rfl

theorem Codec.bytes (d : List Byte) : Codec (readBytes d.length) d d where
  reads := by intro rest; simp [readBytes]
  cut := by
    intro pre suf h hs
    have := congrArg List.length h
    have : 0 < suf.length := List.length_pos_iff.mpr hs
    simp at *
    simp [readBytes]; omega

theorem size32_toInt {n : Nat} (h : n < 2147483648) : (size32 n).toInt = n := by
  unfold size32
  rw [BitVec.toInt_ofNat']
  simp only [Int.bmod]
  omega

theorem size32_toNat {n : Nat} (h : n < 2147483648) : (size32 n).toNat = n := by
  unfold size32
  rw [BitVec.toNat_ofNat]
  omega

theorem takeWhile_all {α : Type} {p : α → Bool} {l : List α} (h : ∀ x ∈ l, p x = true) :
    l.takeWhile p = l := by
  induction l with
  | nil => rfl
  | cons a t ih =>
    rw [List.takeWhile_cons, h a (by simp)]
    simp [ih (fun x hx => h x (by simp [hx]))]

theorem Codec.str (s : Str) (hl : s.length < 256) (hz : ∀ b ∈ s, b ≠ 0) :
    Codec readStr (saveStr s) s := by
  have key : Codec (fun r : List Byte =>
      if ¬ (size32 s.length).toInt < 256 then .error .assert
      else if (size32 s.length).toInt < 0 then .error .exn
      else match readBytes (size32 s.length).toNat r with
        | .error e => .error e
        | .ok none => .ok none
        | .ok (some (d, r')) => .ok (some (d.takeWhile (fun b => b != 0), r'))) s s := by
    have e1 : (size32 s.length).toInt = s.length := size32_toInt (by omega)
    have e2 : (size32 s.length).toNat = s.length := size32_toNat (by omega)
    have e3 : s.takeWhile (fun b => b != 0) = s :=
      takeWhile_all (by intro x hx; simpa using hz x hx)
    have hb := Codec.bytes s
    constructor
    · intro rest
      simp only [e1, e2]
      rw [if_neg (by simp; omega), if_neg (by omega), hb.reads]
      show Except.ok (some (s.takeWhile (fun b => b != 0), rest)) = _
      rw [e3]
    · intro pre suf h hs
      simp only [e1, e2]
      rw [if_neg (by simp; omega), if_neg (by omega), hb.cut pre suf h hs]
  exact Codec.bind (Codec.i32 _) key

theorem Codec.many {α : Type} {m : Rd α} {f : α → List Byte} (l : List α)
    (h : ∀ a ∈ l, Codec m (f a) a) : Codec (readMany m l.length) (l.flatMap f) l := by
  induction l with
  | nil => exact Codec.pure []
  | cons a t ih =>
    simp only [List.length_cons, readMany, List.flatMap_cons]
    refine Codec.bind (h a (by simp)) ?_
    exact Codec.map (fun l => a :: l) (ih (fun x hx => h x (by simp [hx])))

theorem Codec.list {α : Type} {m : Rd α} {f : α → List Byte} (l : List α)
    (hl : l.length < 2147483648) (h : ∀ a ∈ l, Codec m (f a) a) :
    Codec (readList m) (saveList f l) l := by
  refine Codec.bind (Codec.i32 _) ?_
  have := Codec.many l h
  rw [size32_toInt hl]
  simpa using this

theorem LineTable.sorted_tail {a : I32 × Line} {t : LineTable} (h : LineTable.Sorted (a :: t)) :
    LineTable.Sorted t := by
  cases t with
  | nil => trivial
  | cons b t => exact h.2

theorem LineTable.sorted_lt {a : I32 × Line} {t : LineTable} (h : LineTable.Sorted (a :: t)) :
    ∀ e ∈ t, a.1.toInt < e.1.toInt := by
  induction t generalizing a with
  | nil => intro e he; simp at he
  | cons b t ih =>
    intro e he
    have h1 := h.1
    rcases List.mem_cons.mp he with rfl | he
    · exact h1
    · have := ih h.2 e he; omega

theorem LineTable.set_last {t : LineTable} {k : I32} {l : Line}
    (h : ∀ e ∈ t, e.1.toInt < k.toInt) : t.set k l = t ++ [(k, l)] := by
  induction t with
  | nil => rfl
  | cons a t ih =>
    have ha := h a (by simp)
    obtain ⟨k', l'⟩ := a
    simp only [LineTable.set]
    simp only at ha
    rw [if_neg (by omega), if_neg (by intro e; subst e; omega)]
    rw [ih (fun e he => h e (by simp [he]))]
    rfl

theorem LineTable.fold_set (t : LineTable) (h : LineTable.Sorted t) :
    ∀ acc : LineTable, (∀ a ∈ acc, ∀ e ∈ t, a.1.toInt < e.1.toInt) →
      t.foldl (fun t e => LineTable.set t e.1 e.2) acc = acc ++ t := by
  induction t with
  | nil => intro acc _; simp
  | cons e t ih =>
    intro acc hacc
    simp only [List.foldl_cons]
    rw [LineTable.set_last (fun a ha => hacc a ha e (by simp))]
    rw [ih (sorted_tail h)]
    · simp
    · intro a ha e' he'
      rcases List.mem_append.mp ha with ha | ha
      · exact hacc a ha e' (by simp [he'])
      · simp at ha; subst ha
        exact sorted_lt h e' he'

end Ccml
