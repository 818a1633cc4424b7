import Verif.Show
import Verif.Props.Ops
/-!
C77: how values are shown to the host.
-/
namespace Ccml.Props

theorem show_decimal_head (v : I32) : ∃ c cs, decimal v = c :: cs ∧ (c = ch '-' ∨ IsDigit c) := by
  obtain ⟨⟨ds, h, -, hd, hn, -⟩, -⟩ := C32_integer_text v
  cases ds with
  | nil => exact absurd rfl hn
  | cons d ds =>
    rw [h]
    split
    · exact ⟨_, _, rfl, .inl rfl⟩
    · exact ⟨_, _, rfl, .inr (hd _ List.mem_cons_self)⟩

theorem show_minus : ¬ IsDigit (ch '-') := by unfold IsDigit; decide

theorem show_decimal_inj {v w : I32} (h : decimal v = decimal w) : v = w := by
  obtain ⟨⟨ds, h1, h2, h3, h4, -⟩, -⟩ := C32_integer_text v
  obtain ⟨⟨es, k1, k2, k3, k4, -⟩, -⟩ := C32_integer_text w
  rw [h1, k1] at h
  refine BitVec.eq_of_toInt_eq ?_
  by_cases hv : v.toInt < 0 <;> by_cases hw : w.toInt < 0 <;> simp only [hv, hw, if_true, if_false,
    List.singleton_append, List.nil_append] at h
  · have := (List.cons.inj h).2
    rw [this] at h2
    omega
  · subst h
    exact absurd (k3 _ List.mem_cons_self) show_minus
  · subst h
    exact absurd (h3 _ List.mem_cons_self) show_minus
  · rw [h] at h2
    omega

/-- Values that have their whole meaning in what they show: not floats, of which six decimals are shown, and not
arrays, which are shown by their address; texts without NUL. -/
def Telling : View → Prop
  | .float _ => False
  | .arr _ => False
  | .str s => ∀ c ∈ s, c ≠ 0
  | _ => True

theorem show_cstr {s : Str} (h : ∀ c ∈ s, c ≠ 0) : cstr s = s := by
  unfold cstr
  induction s with
  | nil => rfl
  | cons c s ih =>
    have hc : (c != 0) = true := by simpa using h c List.mem_cons_self
    rw [List.takeWhile_cons, hc, if_pos rfl, ih fun d hd => h d (List.mem_cons_of_mem _ hd)]

/-- C77: different values look different. -/
theorem C77_apart (fl : FloatOps) (p q : Str) (u v : View) (hu : Telling u) (hv : Telling v)
    (h : u.show fl p = v.show fl q) : u = v := by
  have num : ∀ (x : I32) (c : Byte) (cs : Str), c ≠ ch '-' → ¬ IsDigit c → decimal x ≠ c :: cs := by
    intro x c cs h1 h2 e
    obtain ⟨d, ds, k, hd⟩ := show_decimal_head x
    rw [e] at k
    cases k
    exact hd.elim h1 h2
  cases u <;> cases v <;> first | exact hu.elim | exact hv.elim | skip
  all_goals simp only [View.show] at h
  all_goals first
    | rfl
    | exact congrArg _ (show_decimal_inj h)
    | exact congrArg _ (show_decimal_inj (List.append_cancel_left h))
    | exact absurd h (num _ _ _ (by decide) (by unfold IsDigit; decide))
    | exact absurd h.symm (num _ _ _ (by decide) (by unfold IsDigit; decide))
    | (rw [show_cstr hu, show_cstr hv] at h
       exact congrArg _ (List.append_cancel_left (List.append_cancel_right h)))
    | exact absurd (congrArg List.head? h) (by simp [str]; decide)

/-- C77: a float does not look like an integer, if `%f` writes a point, or anything else that is neither a digit nor a
minus sign. -/
theorem C77_float (fl : FloatOps) (p q : Str) (f : F32) (v : I32)
    (hf : ∃ c ∈ fl.fmt f, c ≠ ch '-' ∧ ¬ IsDigit c) : (View.float f).show fl p ≠ (View.int v).show fl q := by
  obtain ⟨c, hc, h1, h2⟩ := hf
  intro h
  simp only [View.show] at h
  rw [h] at hc
  obtain ⟨⟨ds, k, -, hd, -, -⟩, -⟩ := C32_integer_text v
  rw [k] at hc
  rcases List.mem_append.1 hc with hc | hc
  · split at hc
    · exact h1 (List.mem_singleton.1 hc)
    · cases hc
  · exact h2 (hd c hc)

/-- C77 fails for texts with a NUL: they are cut there. -/
theorem C77_cut (fl : FloatOps) (p : Str) :
    (View.str (str "a" ++ 0 :: str "b")).show fl p = (View.str (str "a")).show fl p := rfl

/-- Cases of `C77_apart`: a number, the text of that number, a function at that position. -/
example (fl : FloatOps) (p : Str) :
    (View.int (-7)).show fl p = str "-7" ∧ (View.str (str "-7")).show fl p = str "\"-7\"" ∧
      (View.func 7).show fl p = str "function@7" ∧ Telling (.int (-7)) ∧ Telling (.str (str "-7")) ∧ Telling (.func 7) :=
  ⟨rfl, rfl, rfl, trivial, by simp only [Telling]; decide, trivial⟩

/-- A case of `C77_float`. -/
example (fl : FloatOps) (h : fl.fmt 0 = str "0.000000") : (View.float 0).show fl [] ≠ (View.int 0).show fl [] :=
  C77_float fl [] [] 0 0 (by rw [h]; exact ⟨ch '.', by decide, by decide, by unfold IsDigit; decide⟩)

end Ccml.Props
