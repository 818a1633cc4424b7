import Verif.SdlLine
import Verif.SdlFlip
/-!
C65: the drawing functions of the graphical driver stay inside the frame buffer and paint the pixels they should.
C66: what `flip` shows.
C73: `rand`, `sleep` and `keydown`.

The vocabulary (`Ready`, `pixel`, `Painted`, `Chain`) is in `Verif/SdlSpec.lean`.
-/
namespace Ccml.Props
open Ccml.Sdl

/-! ### C65 -/

/-- C65: `video` with a size whose product fits 32 bits, when SDL opens a window, gives a black frame buffer
of that size. -/
theorem C65_video (px : List (BitVec 32)) (w h : Nat) (hw : w < 2147483648) (hh : h < 2147483648)
    (hs : w * h < 2147483648) (g : Video) :
    ∃ g', video (some (some px)) w h g = .ok (g', 0) ∧ Ready g' ∧ g'.width = w ∧ g'.height = h ∧ g'.screen = some px ∧
      g'.rgb = g.rgb ∧ ∀ a b, a < w → b < h → pixel g' a b = some 0 := by
  have hc : chk ((w : Int) * h) = .ok ((w * h : Nat) : Int) := by
    rw [← Int.natCast_mul]
    exact chk_ok (by omega) (by omega)
  have hu : ∀ n : Nat, n < 2147483648 → u32 n = n := fun n hn => u32_nat (by omega)
  refine ⟨{ g with width := w, height := h, video := List.replicate (w * h) 0, screen := some px }, ?_, ?_, rfl, rfl, rfl,
    rfl, ?_⟩
  · unfold video
    rw [hc, ok_bind, if_neg (by omega), hu w hw, hu h hh, Int.toNat_natCast]
    rfl
  · exact ⟨by simp, hw, hh, hs, by simp⟩
  · intro a b ha hb
    have := row_lt ha hb
    simp [pixel, List.getElem?_replicate, this]

/-- C65: `video` gives 1 exactly when there is no window to draw in. -/
theorem C65_video_report (window : Option (Option (List (BitVec 32)))) (w h : Int) (g g' : Video) (r : I32)
    (hv : video window w h g = .ok (g', r)) :
    (∃ px, window = some (some px)) ∧ r = 0 ∨ (∀ px, window ≠ some (some px)) ∧ r = 1 := by
  unfold video at hv
  obtain ⟨n, _, h2⟩ := bind_ok' hv
  split at h2
  · cases h2
  · have := (Prod.mk.inj (Except.ok.inj h2)).2
    subst this
    match window with
    | none => exact .inr ⟨by simp, by simp⟩
    | some none => exact .inr ⟨by simp, by simp⟩
    | some (some px) => exact .inl ⟨⟨px, rfl⟩, by simp⟩

/-- C65 is violated by sizes whose product does not fit, or is negative: undefined behaviour whatever SDL does. -/
theorem C65_video_overflow (window : Option (Option (List (BitVec 32)))) (g : Video) :
    video window 65536 65536 g = .error .ub ∧ video window (-1) 200 g = .error .ub := ⟨rfl, rfl⟩

/-- C65: `cls` makes every pixel black and changes nothing else. -/
theorem C65_cls (g : Video) (hg : Ready g) : ∃ g', cls g = .ok g' ∧ Painted 0 (fun _ _ => True) g g' := by
  obtain ⟨p', h1, h2, h3⟩ := clsRows_ok g.width g.height 0 g.video (by rw [hg.size, Nat.mul_comm]; omega)
  unfold cls
  rw [show ((0 : Nat) : Int) = 0 from rfl] at h1
  rw [h1, ok_bind]
  refine ⟨_, rfl, rfl, h2, fun a b ha hb _ => ?_, fun a b ha hb h => absurd trivial h⟩
  have := row_lt ha hb
  show p'[b * g.width + a]? = _
  rw [h3, if_pos (by rw [Nat.mul_comm g.height]; omega)]

/-- C65: `setrgb` takes the lowest eight bits of each of the three numbers. -/
theorem C65_setrgb (r g b : I32) (v : Video) :
    (setrgb r g b v).rgb.toNat = r.toNat % 256 * 65536 + g.toNat % 256 * 256 + b.toNat % 256 ∧
      { setrgb r g b v with rgb := v.rgb } = v := by
  refine ⟨?_, rfl⟩
  have h : setrgb r g b v = { v with rgb := BitVec.ofNat 32 (r.toNat % 256 * 65536 + g.toNat % 256 * 256 + b.toNat % 256) } := by
    unfold setrgb
    congr 1
    have e : ∀ x : I32, x &&& 0xff = (x.setWidth 8).setWidth 32 := by
      intro x
      apply BitVec.eq_of_toNat_eq
      rw [BitVec.toNat_and, show (0xff : BitVec 32).toNat = 2 ^ 8 - 1 from rfl, Nat.and_two_pow_sub_one_eq_mod]
      simp
      omega
    have e2 : ((r.setWidth 8).setWidth 32 <<< 16) ||| ((g.setWidth 8).setWidth 32 <<< 8) ||| (b.setWidth 8).setWidth 32 =
        (((r.setWidth 8) ++ (g.setWidth 8) : BitVec 16) ++ (b.setWidth 8) : BitVec 24).setWidth 32 := by
      apply BitVec.eq_of_getLsbD_eq
      intro i hi
      simp only [BitVec.getLsbD_or, BitVec.getLsbD_shiftLeft, BitVec.getLsbD_setWidth, BitVec.getLsbD_append, hi,
        decide_true, Bool.true_and]
      by_cases h1 : i < 8
      · simp [h1, show i < 16 by omega]
      · by_cases h2 : i < 16
        · simp [h1, h2, show i - 8 < 8 by omega, show i - 8 < 32 by omega]
        · simp [h1, h2, show ¬ i - 8 < 8 by omega, show i - 8 - 8 = i - 16 by omega, show i - 16 < 32 by omega]
    rw [e, e, e, e2]
    apply BitVec.eq_of_toNat_eq
    simp only [BitVec.toNat_setWidth, BitVec.toNat_append, BitVec.toNat_ofNat]
    have a1 : (r.toNat % 2 ^ 8) <<< 8 ||| g.toNat % 2 ^ 8 = (r.toNat % 2 ^ 8) * 2 ^ 8 + g.toNat % 2 ^ 8 := by
      rw [← Nat.shiftLeft_add_eq_or_of_lt (by omega), Nat.shiftLeft_eq]
    rw [a1]
    have a2 : ((r.toNat % 2 ^ 8) * 2 ^ 8 + g.toNat % 2 ^ 8) <<< 8 ||| b.toNat % 2 ^ 8 =
        ((r.toNat % 2 ^ 8) * 2 ^ 8 + g.toNat % 2 ^ 8) * 2 ^ 8 + b.toNat % 2 ^ 8 := by
      rw [← Nat.shiftLeft_add_eq_or_of_lt (by omega), Nat.shiftLeft_eq]
    rw [a2]
    omega
  rw [h, BitVec.toNat_ofNat, Nat.mod_eq_of_lt (by omega)]

/-- C65: `plot` paints the given pixel if it is on the screen, and nothing else, for all coordinates. -/
theorem C65_plot (g : Video) (hg : Ready g) (x y : Int) :
    ∃ g', plot x y g = .ok g' ∧ Painted g.rgb (fun a b => a = x ∧ b = y) g g' := plot_ok hg x y

/-- C65: `circle` paints, of the pixels on the screen, only such as are nearer to the centre than the radius plus
one, and all that are no further than the radius minus one. -/
theorem C65_circle_partial (g : Video) (hg : Ready g) (xC yC r : Int) (hr : 1 ≤ r ∧ r ≤ 536870912)
    (hx : -536870912 ≤ xC ∧ xC ≤ 536870912) (hy : -536870912 ≤ yC ∧ yC ≤ 536870912) :
    ∃ g' S, circle xC yC r g = .ok g' ∧ Painted g.rgb S g g' ∧
      (∀ a b, S a b → (a - xC) * (a - xC) + (b - yC) * (b - yC) < (r + 1) * (r + 1)) ∧
      ∀ a b, (a - xC) * (a - xC) + (b - yC) * (b - yC) ≤ (r - 1) * (r - 1) → S a b := by
  obtain ⟨g', S, h1, h2, h3⟩ := circle_ok hr.1 hr.2 hx hy hg
  exact ⟨g', _, h1, h2, fun a b h => (h3 _ _).1 h, fun a b h => (h3 _ _).2 h⟩

/-- A black screen of 11 by 11 pixels. -/
def board : Video := { width := 11, height := 11, video := List.replicate 121 0, screen := some [] }

theorem board_ready : Ready board := ⟨by decide, by decide, by decide, by decide, by decide⟩

/-- The pixel after drawing. -/
def pixelOf (r : Out Video) (a b : Nat) : Option (BitVec 32) :=
  match r with
  | .ok g => pixel g a b
  | .error _ => none

/-- C65: full discs are not drawn: of the two pixels at distance 3 left and right of the centre of a circle with
radius 3 only the left one is painted; a circle with radius 0 paints pixels above and below its centre but not the
centre. -/
theorem C65_circle_lopsided :
    pixelOf (circle 5 5 3 board) 2 5 = some 0xffffff ∧ pixelOf (circle 5 5 3 board) 8 5 = some 0 ∧
    pixelOf (circle 5 5 0 board) 5 5 = some 0 ∧ pixelOf (circle 5 5 0 board) 5 4 = some 0xffffff ∧
    pixelOf (circle 5 5 0 board) 5 6 = some 0xffffff := by
  decide +kernel

/-- C65: `line` paints a chain of touching pixels along the line: as many as the longer side of its rectangle has,
the first one at the start, the longer coordinate exact and the other off by less than two. -/
theorem C65_line_partial (g : Video) (hg : Ready g) (x0 y0 x1 y1 : I32)
    (hdx : (x1.toInt - x0.toInt).natAbs ≤ 2147483647) (hdy : (y1.toInt - y0.toInt).natAbs ≤ 2147483647)
    (hs : (x1.toInt - x0.toInt).natAbs ≤ 32767 ∨ (y1.toInt - y0.toInt).natAbs ≤ 32767) :
    ∃ g' P, line x0.toInt y0.toInt x1.toInt y1.toInt g = .ok g' ∧
      Chain x0.toInt y0.toInt (x1.toInt - x0.toInt) (y1.toInt - y0.toInt)
        (max (x1.toInt - x0.toInt).natAbs (y1.toInt - y0.toInt).natAbs) P ∧
      Painted g.rgb (fun a b => ∃ k, k < max (x1.toInt - x0.toInt).natAbs (y1.toInt - y0.toInt).natAbs ∧ P k = (a, b)) g g' :=
  line_ok hg (fits32_toInt _) (fits32_toInt _) (fits32_toInt _) (fits32_toInt _) hdx hdy hs

/-- C65: the other end of a line is never painted. -/
theorem C65_line_end (g : Video) (hg : Ready g) (x0 y0 x1 y1 : I32)
    (hdx : (x1.toInt - x0.toInt).natAbs ≤ 2147483647) (hdy : (y1.toInt - y0.toInt).natAbs ≤ 2147483647)
    (hs : (x1.toInt - x0.toInt).natAbs ≤ 32767 ∨ (y1.toInt - y0.toInt).natAbs ≤ 32767)
    (a b : Nat) (ha : a < g.width) (hb : b < g.height) (he : x1.toInt = a ∧ y1.toInt = b) :
    ∃ g', line x0.toInt y0.toInt x1.toInt y1.toInt g = .ok g' ∧ pixel g' a b = pixel g a b := by
  obtain ⟨g', P, h1, h2, h3⟩ := C65_line_partial g hg x0 y0 x1 y1 hdx hdy hs
  refine ⟨g', h1, h3.off a b ha hb ?_⟩
  rintro ⟨k, hk, hP⟩
  rcases h2.exact k hk with ⟨hn, h4⟩ | ⟨hn, h4⟩
  · rw [hP, ← he.1, hn.symm] at h4
    dsimp only at h4
    rw [← hn] at hk
    generalize x1.toInt - x0.toInt = d at h4 hk
    have : ((d.natAbs : Int) - k) * d = 0 := by linarith
    rcases mul_eq_zero.1 this with h | h <;> omega
  · rw [hP, ← he.2, hn.symm] at h4
    dsimp only at h4
    rw [← hn] at hk
    generalize y1.toInt - y0.toInt = d at h4 hk
    have : ((d.natAbs : Int) - k) * d = 0 := by linarith
    rcases mul_eq_zero.1 this with h | h <;> omega

/-- C65 is violated by lines whose both sides are longer than 32768: undefined behaviour (the slope overflows),
although most of such a line may be on the screen. -/
theorem C65_line_overflow (g : Video) (x0 y0 x1 y1 : I32)
    (hdx : 32768 < (x1.toInt - x0.toInt).natAbs ∧ (x1.toInt - x0.toInt).natAbs ≤ 2147483647)
    (hdy : 32768 < (y1.toInt - y0.toInt).natAbs ∧ (y1.toInt - y0.toInt).natAbs ≤ 2147483647) :
    line x0.toInt y0.toInt x1.toInt y1.toInt g = .error .ub := by
  unfold line
  rw [chk_ok (by omega) (by omega), ok_bind, chk_ok (by omega) (by omega), ok_bind, iabs_ok (by omega) (by omega), ok_bind,
    iabs_ok (by omega) (by omega), ok_bind]
  have bad : ∀ s : Int, 32768 < s.natAbs → chk (s * 65536) = .error .ub := by
    intro s hs
    unfold chk fits32
    rw [if_neg]
    simp only [decide_eq_true_eq]
    omega
  have main : ∀ (yl : Bool) (s l : Int), 32768 < s.natAbs → 32768 < l.natAbs → l.natAbs ≤ 2147483647 → (do
        let longLen ← iabs l
        let dec ← if longLen = 0 then .ok 0 else do
          .ok ((← chk (s * 65536)).tdiv longLen)
        lineLoop yl x0.toInt y0.toInt (if l < 0 then -1 else 1) dec l.natAbs 0 0 g : Out Video) = .error .ub := by
    intro yl s l h1 h2 h3
    rw [iabs_ok (by omega) (by omega), ok_bind, if_neg (by omega), bad s h1]
    rfl
  by_cases h : (x1.toInt - x0.toInt).natAbs < (y1.toInt - y0.toInt).natAbs
  · have hd : decide (((y1.toInt - y0.toInt).natAbs : Int) > ((x1.toInt - x0.toInt).natAbs : Int)) = true :=
      decide_eq_true (by omega)
    rw [hd]
    exact main true _ _ hdx.1 hdy.1 hdy.2
  · have hd : decide (((y1.toInt - y0.toInt).natAbs : Int) > ((x1.toInt - x0.toInt).natAbs : Int)) = false :=
      decide_eq_false (by omega)
    rw [hd]
    exact main false _ _ hdy.1 hdx.1 hdx.2

/-- Calls that the theorems above cover: all of `cls`, `setrgb` and `plot` with whole numbers, `circle` with
coordinates and a radius up to 2^29, `line` with one side up to 32767 and the other below 2^31. -/
inductive Tame : Fn → List View → Prop
  | cls : Tame .cls []
  | rand : Tame .rand []
  | setrgb (r g b : I32) : Tame .setrgb [.int r, .int g, .int b]
  | plot (x y : I32) : Tame .plot [.int x, .int y]
  | circle (x y r : I32) (hx : x.toInt.natAbs ≤ 536870912) (hy : y.toInt.natAbs ≤ 536870912)
      (hr : 1 ≤ r.toInt ∧ r.toInt ≤ 536870912) : Tame .circle [.int x, .int y, .int r]
  | line (x0 y0 x1 y1 : I32) (hdx : (x1.toInt - x0.toInt).natAbs ≤ 2147483647)
      (hdy : (y1.toInt - y0.toInt).natAbs ≤ 2147483647)
      (hs : (x1.toInt - x0.toInt).natAbs ≤ 32767 ∨ (y1.toInt - y0.toInt).natAbs ≤ 32767) :
      Tame .line [.int x0, .int y0, .int x1, .int y1]
  | keydown (s : Str) : Tame .keydown [.str s]
  | sleep (t : I32) : Tame .sleep [.int t]

/-- One call after the other. -/
def calls (fl : FloatOps) : List (Fn × List View × Outside) → Driver → Out Driver
  | [], d => .ok d
  | (f, vs, o) :: cs, d => do calls fl cs (← f.call fl o vs d).1

/-- C65: no sequence of such calls, however long, reads or writes outside the frame buffer or overflows, and the size
stays. -/
theorem C65_calls (fl : FloatOps) : ∀ (cs : List (Fn × List View × Outside)) (d : Driver), Ready d.video →
    (∀ c ∈ cs, Tame c.1 c.2.1) → ∃ d', calls fl cs d = .ok d' ∧ Ready d'.video ∧ d'.video.width = d.video.width ∧
      d'.video.height = d.video.height
  | [], d, hd, _ => ⟨d, rfl, hd, rfl, rfl⟩
  | (f, vs, o) :: cs, d, hd, h => by
    have one : ∃ d1 r, f.call fl o vs d = .ok (d1, r) ∧ Ready d1.video ∧ d1.video.width = d.video.width ∧
        d1.video.height = d.video.height := by
      have drawn : ∀ {k : Video → Out Video} {c S}, (∃ g', k d.video = .ok g' ∧ Painted c S d.video g') →
          ∃ d1 r, draw d k = .ok (d1, r) ∧ Ready d1.video ∧ d1.video.width = d.video.width ∧
            d1.video.height = d.video.height := by
        rintro k c S ⟨g', h1, h2⟩
        refine ⟨{ d with video := g' }, .none, ?_, h2.ready hd, h2.width, h2.height⟩
        unfold draw
        rw [h1]
        rfl
      have ht := h _ (List.mem_cons_self ..)
      dsimp only at ht
      cases ht with
      | cls => exact drawn (C65_cls d.video hd)
      | rand => exact ⟨_, _, rfl, hd, rfl, rfl⟩
      | setrgb r g b =>
        refine ⟨{ d with video := setrgb r g b d.video }, .none, rfl, ⟨hd.shown, hd.wide, hd.high, hd.small, hd.size⟩, rfl, rfl⟩
      | plot x y => exact drawn (C65_plot d.video hd x.toInt y.toInt)
      | circle x y r hx hy hr =>
        obtain ⟨g', S, h1, h2, _⟩ := C65_circle_partial d.video hd x.toInt y.toInt r.toInt hr (by omega) (by omega)
        exact drawn ⟨g', h1, h2⟩
      | line x0 y0 x1 y1 h1 h2 h3 =>
        obtain ⟨g', P, h4, _, h5⟩ := C65_line_partial d.video hd x0 y0 x1 y1 h1 h2 h3
        exact drawn ⟨g', h4, h5⟩
      | keydown s =>
        by_cases hs : s ∈ keyNames
        · refine ⟨d, .int (if o.key s then 1 else 0), ?_, hd, rfl, rfl⟩
          show (if s ∈ keyNames then _ else _) = _
          rw [if_pos hs]
        · refine ⟨d, .none, ?_, hd, rfl, rfl⟩
          show (if s ∈ keyNames then _ else _) = _
          rw [if_neg hs]
      | sleep t => exact ⟨_, _, rfl, hd, rfl, rfl⟩
    obtain ⟨d1, r, h1, h2, h3, h4⟩ := one
    obtain ⟨d', h5, h6, h7, h8⟩ := C65_calls fl cs d1 h2 fun c hc => h c (List.mem_cons_of_mem _ hc)
    refine ⟨d', ?_, h6, h7.trans h3, h8.trans h4⟩
    unfold calls
    rw [h1]
    exact h5

/-! ### C73 -/

/-- C73: `rand` gives the lowest 23 bits of the next number of the generator and changes nothing but the seed. -/
theorem C73_rand (fl : FloatOps) (o : Outside) (d : Driver) :
    ∃ d' r, Fn.rand.call fl o [] d = .ok (d', .int r) ∧ d'.seed = xorshift32 d.seed ∧
      r.toNat = (xorshift32 d.seed).toNat % 8388608 ∧ { d' with seed := d.seed } = d := by
  refine ⟨_, _, rfl, rfl, ?_, rfl⟩
  generalize xorshift32 d.seed = y
  have h : (0x7fffff : BitVec 32).toNat = 8388607 := by decide
  have h2 : y.toNat &&& 8388607 = y.toNat % 8388608 := Nat.and_two_pow_sub_one_eq_mod _ 23
  rw [BitVec.toNat_and, h, h2]

/-- C73: `sleep` with a whole number halts the thread and sets the mark to that many ticks from now, on the 32-bit
counter of SDL; the picture and the random numbers stay. -/
theorem C73_sleep (fl : FloatOps) (o : Outside) (d : Driver) (n : I32) :
    ∃ d', Fn.sleep.call fl o [.int n] d = .ok (d', .none) ∧ d'.halted = true ∧
      d'.tickMark.toNat = (o.ticks.toNat + n.toNat) % 4294967296 ∧ d'.video = d.video ∧ d'.seed = d.seed := by
  refine ⟨_, rfl, rfl, ?_, rfl, rfl⟩
  exact BitVec.toNat_add ..

/-- C73: a float is cut off to a whole number; one that has none is undefined behaviour. -/
theorem C73_sleep_float (fl : FloatOps) (o : Outside) (d : Driver) (f : F32) :
    Fn.sleep.call fl o [.float f] d = match fl.toInt f with
      | some n => Fn.sleep.call fl o [.int n] d
      | none => .error .ub := by
  change (match (some (match fl.toInt f with | some v => .ok v | none => .error .ub) : Option (Out I32)) with
    | some x => do .ok ({ d with tickMark := o.ticks + (← x), halted := true }, Ret.none)
    | none => .ok (d, Ret.none)) = _
  cases fl.toInt f <;> rfl

/-- C73: with anything else `sleep` does nothing. -/
theorem C73_sleep_other (fl : FloatOps) (o : Outside) (d : Driver) (v : View) (hi : ∀ n, v ≠ .int n)
    (hf : ∀ f, v ≠ .float f) : Fn.sleep.call fl o [v] d = .ok (d, .none) := by
  cases v with
  | int n => exact absurd rfl (hi n)
  | float f => exact absurd rfl (hf f)
  | _ => rfl

/-- C73: `keydown` tells for the six keys it knows by name whether they are held down, gives none for anything else, and
changes nothing. -/
theorem C73_keydown (fl : FloatOps) (o : Outside) (d : Driver) (v : View) :
    Fn.keydown.call fl o [v] d = .ok (d,
      if v = .str (str "up") ∨ v = .str (str "down") ∨ v = .str (str "left") ∨ v = .str (str "right") ∨
          v = .str (str "escape") ∨ v = .str (str "space")
        then match v with
          | .str s => if o.key s then .int 1 else .int 0
          | _ => .none
        else .none) := by
  cases v with
  | str s =>
    have hk : s ∈ keyNames ↔ View.str s = .str (str "up") ∨ View.str s = .str (str "down") ∨
        View.str s = .str (str "left") ∨ View.str s = .str (str "right") ∨ View.str s = .str (str "escape") ∨
        View.str s = .str (str "space") := by
      unfold keyNames
      generalize str "up" = a, str "down" = b, str "left" = c, str "right" = e, str "escape" = f, str "space" = g
      simp
    show (if s ∈ keyNames then _ else _) = _
    by_cases h : s ∈ keyNames
    · rw [if_pos h, if_pos (hk.1 h)]
      dsimp only
      cases o.key s <;> rfl
    · rw [if_neg h, if_neg fun h' => h (hk.2 h')]
  | _ =>
    generalize str "up" = a, str "down" = b, str "left" = c, str "right" = e, str "escape" = f, str "space" = g
    rw [if_neg (by simp)]
    rfl

/-- The first of the random numbers; a sleep that passes the end of the tick counter; a key. -/
example (fl : FloatOps) : (match Fn.rand.call fl ⟨0, fun _ => false, fun _ _ => none⟩ [] ⟨board, 0, false, 12345⟩ with
    | .ok (d, .int r) => some (d.seed, r)
    | _ => none) = some (0xc6e5747a#32, 0x65747a#32) := rfl
example (fl : FloatOps) : (match Fn.sleep.call fl ⟨4294967290, fun _ => false, fun _ _ => none⟩ [.int 10] ⟨board, 0, false, 1⟩ with
    | .ok (d, .none) => some (d.tickMark, d.halted)
    | _ => none) = some (4, true) := rfl
example (fl : FloatOps) : Fn.keydown.call fl ⟨0, fun _ => true, fun _ _ => none⟩ [.str (str "up")] ⟨board, 0, false, 1⟩ =
    .ok (⟨board, 0, false, 1⟩, .int 1) := by
  rw [C73_keydown, if_pos (.inl rfl)]
  rfl

/-! ### C66 -/

/-- The pixel in column `X` of row `Y` of the window, which is three times as large as the frame buffer. -/
def shownAt (g : Video) (X Y : Nat) : Option (BitVec 32) :=
  match g.screen with
  | some px => px[Y * (3 * g.width) + X]?
  | none => none

/-- C66: when the picture is not higher than wide, `flip` shows its first `height` columns, each pixel as a square of
three by three, and leaves the rest of the window as it was. -/
theorem C66_flip_partial (g : Video) (hg : Ready g) (px : List (BitVec 32)) (hp : g.screen = some px)
    (hl : px.length = 9 * (g.width * g.height)) (hw : 9 * g.width < 4294967296) (hh : g.height ≤ g.width) :
    ∃ g', Sdl.flip g = .ok g' ∧ { g' with screen := g.screen } = g ∧
      ∀ X Y, X < 3 * g.width → Y < 3 * g.height →
        shownAt g' X Y = if X < 3 * g.height then pixel g (X / 3) (Y / 3) else shownAt g X Y := by
  obtain ⟨p', h1, h2, h3, h4⟩ := flipRows_ok g.video hw hh hg.size g.height 0 px (by omega) hl
  have e1 : u32 ((g.width : Int) * 3) = 3 * g.width := by
    have := u32_nat (n := 3 * g.width) (by omega)
    rw [← this]
    congr 1
    push_cast
    ring
  have e2 : u32 (((3 * g.width : Nat) : Int) + ((3 * g.width : Nat) : Int)) = 3 * g.width + 3 * g.width := by
    have := u32_nat (n := 3 * g.width + 3 * g.width) (by omega)
    rw [← this]
    congr 1
  refine ⟨{ g with screen := some p' }, ?_, rfl, fun X Y hX hY => ?_⟩
  · unfold Sdl.flip
    rw [hp]
    dsimp only
    rw [e1, e2]
    rw [Nat.zero_mul, Nat.zero_mul] at h1
    rw [h1]
    rfl
  · show p'[Y * (3 * g.width) + X]? = _
    rw [h4 X Y hX (by omega) hY]
    unfold shownAt pixel
    rw [hp]

/-- C66: a square picture is shown completely. -/
theorem C66_flip_square (g : Video) (hg : Ready g) (px : List (BitVec 32)) (hp : g.screen = some px)
    (hl : px.length = 9 * (g.width * g.height)) (hw : 9 * g.width < 4294967296) (hh : g.height = g.width) :
    ∃ g', Sdl.flip g = .ok g' ∧ ∀ X Y, X < 3 * g.width → Y < 3 * g.height → shownAt g' X Y = pixel g (X / 3) (Y / 3) := by
  obtain ⟨g', h1, _, h3⟩ := C66_flip_partial g hg px hp hl hw (by omega)
  exact ⟨g', h1, fun X Y hX hY => by rw [h3 X Y hX hY, if_pos (by omega)]⟩

/-- C66 is violated by every picture higher than wide: undefined behaviour. -/
theorem C66_flip_tall (g : Video) (hg : Ready g) (hh : g.width < g.height) : Sdl.flip g = .error .ub := by
  unfold Sdl.flip
  cases hs : g.screen with
  | none => exact absurd hs hg.shown
  | some px =>
    dsimp only
    generalize u32 ((g.width : Int) * 3) = p1
    generalize u32 ((p1 : Int) + (p1 : Int)) = p2
    cases hr : flipRows g.video g.width g.height p1 p2 g.height 0 0 px with
    | ok p' =>
      have h1 := flipRows_src (by omega) hr (by omega)
      rw [hg.size] at h1
      obtain ⟨m, hm⟩ : ∃ m, g.height = m + 1 := ⟨g.height - 1, by omega⟩
      have : (g.height - 1) * g.width + g.width = g.width * g.height := by
        rw [hm]
        simp [Nat.add_mul, Nat.mul_add, Nat.mul_comm]
      omega
    | error f =>
      rw [flipRows_err hr]
      rfl

/-! ### Cases -/

/-- `C65_video`: an ordinary size. -/
example : ∃ g', video (some (some (List.replicate 9216 0))) 32 32 {} = .ok (g', 0) ∧ Ready g' ∧ pixel g' 31 31 = some 0 := by
  obtain ⟨g', h1, h2, _, _, _, _, h3⟩ := C65_video (List.replicate 9216 0) 32 32 (by decide) (by decide) (by decide) {}
  exact ⟨g', h1, h2, h3 31 31 (by decide) (by decide)⟩

/-- `C65_video_report`: no window. -/
example : ∃ g, video none 2 2 {} = .ok (g, 1) ∧ video (some (some [])) 2 2 {} ≠ .ok (g, 1) :=
  ⟨_, rfl, fun h => by
    have := congrArg (fun r => match r with | .ok x => x.2 | .error _ => 5) h
    exact absurd this (by decide)⟩

/-- `C65_cls`, `C65_setrgb`, `C65_plot`: on the board. -/
example : pixelOf (plot 3 4 (setrgb 1 2 259 board)) 3 4 = some 0x010203 ∧
    pixelOf (plot 3 4 board >>= cls) 3 4 = some 0 ∧ plot 11 4 board = .ok board ∧ plot (-1) 4 board = .ok board := by
  decide +kernel

/-- `C65_circle_partial`: a circle half off the screen. -/
example : ∃ g' S, circle (-3) 5 8 board = .ok g' ∧ Painted board.rgb S board g' ∧ S 4 5 ∧ ¬ S 6 5 := by
  obtain ⟨g', S, h1, h2, h3, h4⟩ := C65_circle_partial board board_ready (-3) 5 8 (by decide) (by decide) (by decide)
  refine ⟨g', S, h1, h2, h4 _ _ (by decide), fun h => absurd (h3 _ _ h) (by decide)⟩

example : pixelOf (circle (-3) 5 8 board) 4 5 = some 0xffffff ∧ pixelOf (circle (-3) 5 8 board) 6 5 = some 0 := by
  decide +kernel

/-- `C65_line_partial`, `C65_line_end`: down to the left; nine pixels and not the last. -/
example : ∃ g' P, line 9 1 0 6 board = .ok g' ∧ Chain 9 1 (-9) 5 9 P ∧
    Painted board.rgb (fun a b => ∃ k, k < 9 ∧ P k = (a, b)) board g' :=
  C65_line_partial board board_ready 9 1 0 6 (by decide) (by decide) (by decide)

example : pixelOf (line 9 1 0 6 board) 9 1 = some 0xffffff ∧ pixelOf (line 9 1 0 6 board) 5 3 = some 0xffffff ∧
    pixelOf (line 9 1 0 6 board) 0 6 = some 0 := by
  decide +kernel

/-- `C65_line_overflow`: a long diagonal. -/
example : line 0 0 40000 40000 board = .error .ub :=
  C65_line_overflow board 0 0 40000 40000 (by decide +kernel) (by decide +kernel)

/-- `C65_calls`: a few of each. -/
example (o : Outside) (fl : FloatOps) : ∃ d', calls fl [(.setrgb, [.int 1, .int 2, .int 3], o), (.plot, [.int (-5), .int 99], o),
    (.circle, [.int 5, .int (-5), .int 7], o), (.line, [.int 0, .int 0, .int 10, .int 3], o), (.cls, [], o)]
    { video := board } = .ok d' ∧ Ready d'.video := by
  obtain ⟨d', h1, h2, _⟩ := C65_calls fl [(.setrgb, [.int 1, .int 2, .int 3], o), (.plot, [.int (-5), .int 99], o),
    (.circle, [.int 5, .int (-5), .int 7], o), (.line, [.int 0, .int 0, .int 10, .int 3], o), (.cls, [], o)]
    { video := board } board_ready (by
      intro c hc
      simp only [List.mem_cons, List.not_mem_nil, or_false] at hc
      obtain rfl | rfl | rfl | rfl | rfl := hc
      · exact .setrgb ..
      · exact .plot ..
      · exact .circle _ _ _ (by decide +kernel) (by decide +kernel) (by decide +kernel)
      · exact .line _ _ _ _ (by decide +kernel) (by decide +kernel) (by decide +kernel)
      · exact .cls)
  exact ⟨d', h1, h2⟩

/-- A picture of three by two pixels and its window. -/
def small : Video := { width := 3, height := 2, video := [1, 2, 3, 4, 5, 6], screen := some (List.replicate 54 0) }

/-- `C66_flip_partial`: the third column is not shown. -/
example : ∃ g', Sdl.flip small = .ok g' ∧ shownAt g' 5 4 = some 5 ∧ shownAt g' 6 4 = some 0 := by
  obtain ⟨g', h1, _, h3⟩ := C66_flip_partial small ⟨by decide, by decide, by decide, by decide, by decide⟩
    (List.replicate 54 0) rfl (by decide) (by decide) (by decide)
  exact ⟨g', h1, (h3 5 4 (by decide) (by decide)).trans rfl, (h3 6 4 (by decide) (by decide)).trans rfl⟩

/-- `C66_flip_square`. -/
example : ∃ g', Sdl.flip { small with width := 2, video := [1, 2, 3, 4], screen := some (List.replicate 36 0) } = .ok g' ∧
    shownAt g' 5 5 = some 4 := by
  obtain ⟨g', h1, h3⟩ := C66_flip_square { small with width := 2, video := [1, 2, 3, 4], screen := some (List.replicate 36 0) }
    ⟨by decide, by decide, by decide, by decide, by decide⟩ (List.replicate 36 0) rfl (by decide) (by decide) rfl
  exact ⟨g', h1, (h3 5 5 (by decide) (by decide)).trans rfl⟩

/-- `C66_flip_tall`: the usual orientation of a page. -/
example : Sdl.flip { small with width := 2, height := 3 } = .error .ub :=
  C66_flip_tall _ ⟨by decide, by decide, by decide, by decide, by decide⟩ (by decide)

end Ccml.Props
