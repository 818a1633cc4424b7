import Verif.Value
/-!
The drawing functions of the graphical driver, driver_sdl/driver.cpp.

Variables of type `int32_t` are integers; each operation on them is checked (`chk`).  A pointer into the
frame buffer or the surface is its offset in pixels.  Accesses outside are undefined behaviour; that a
pointer outside is formed, which `span` does for spans left or right of the screen, is not an outcome.
SDL itself is a parameter: the surface of a new window, the clock and the state of the keys.
-/
namespace Ccml

/-- `xorshift32`, driver/driver.cpp:18-24 (and driver_sdl/driver.cpp:26-32). -/
def xorshift32 (x : BitVec 32) : BitVec 32 :=
  let x := x ^^^ (x <<< 13)
  let x := x ^^^ (x >>> 17)
  x ^^^ (x <<< 5)

namespace Sdl

/-- The result of an operation on `int32_t`: undefined when out of range. -/
def chk (x : Int) : Out Int := if fits32 x then .ok x else .error .ub

/-- Conversion to `uint32_t`. -/
def u32 (x : Int) : Nat := (x % 4294967296).toNat

/-- Conversion from `uint32_t` to `int32_t`. -/
def s32 (n : Nat) : Int := if n < 2147483648 then n else (n : Int) - 4294967296

/-- `global`, driver_sdl/driver.cpp:18-24 (zero-initialised before the members' initialisers).  `video` is
the frame buffer (`video_`; empty before it is allocated), `screen` the pixels of the surface of the window
(`screen_`, four bytes per pixel assumed) or `none` if there is no window; that there is a window without
surface does not matter. -/
structure Video where
  rgb : BitVec 32 := 0xffffff
  width : Nat := 0
  height : Nat := 0
  video : List (BitVec 32) := []
  screen : Option (List (BitVec 32)) := none
  deriving DecidableEq, Repr

/-- `p[i] = c`. -/
def store (p : List (BitVec 32)) (i : Int) (c : BitVec 32) : Out (List (BitVec 32)) :=
  if 0 ≤ i ∧ i < p.length then .ok (p.set i.toNat c) else .error .ub

/-- Write the `n` pixels from `i` on one after the other. -/
def fill (c : BitVec 32) : Nat → Int → List (BitVec 32) → Out (List (BitVec 32))
  | 0, _, p => .ok p
  | n + 1, i, p => do fill c n (i + 1) (← store p i c)

/-- `vm_cls`, driver_sdl/driver.cpp:41-51: the rows from the one starting at `v` on. -/
def clsRows (width : Nat) : Nat → Int → List (BitVec 32) → Out (List (BitVec 32))
  | 0, _, p => .ok p
  | n + 1, v, p => do clsRows width n (v + width) (← fill 0 width v p)

/-- `vm_cls`, driver_sdl/driver.cpp:41-51. -/
def cls (g : Video) : Out Video := do
  .ok { g with video := ← clsRows g.width g.height 0 g.video }

/-- `vm_video`, driver_sdl/driver.cpp:63-92, for numbers.  `window` is the surface of the window SDL opens:
`none` if no window can be opened, `some none` if the window has no surface.  A product that is negative
asks for at least 8 GB and clears 16 million TB (`memset` takes the product as `size_t`).  The old window
is not closed; if no new one can be opened, the old surface stays in use. -/
def video (window : Option (Option (List (BitVec 32)))) (w h : Int) (g : Video) : Out (Video × I32) := do
  let n ← chk (w * h)
  if n < 0 then .error .ub
  else
    let g := { g with width := u32 w, height := u32 h, video := List.replicate n.toNat 0 }
    let g := match window with
      | some s => { g with screen := s }
      | none => g
    .ok (g, if window.isNone ∨ g.screen = none then 1 else 0)

/-- `vm_setrgb`, driver_sdl/driver.cpp:94-107, for numbers. -/
def setrgb (r g b : I32) (v : Video) : Video :=
  { v with rgb := ((r &&& 0xff) <<< 16) ||| ((g &&& 0xff) <<< 8) ||| (b &&& 0xff) }

/-- `plot`, driver_sdl/driver.cpp:109-121. -/
def plot (x y : Int) (g : Video) : Out Video :=
  if g.screen = none then .ok g
  else if 0 ≤ x ∧ x < s32 g.width then
    if 0 ≤ y ∧ y < s32 g.height then do
      .ok { g with video := ← store g.video ((u32 (y * g.width) : Int) + x) g.rgb }
    else .ok g
  else .ok g

/-- `span`, driver_sdl/driver.cpp:123-139. -/
def span (x0 x1 y0 : Int) (g : Video) : Out Video :=
  if g.screen = none then .ok g
  else if y0 < 0 ∨ s32 g.height ≤ y0 then .ok g
  else do
    let x0 := max x0 0
    let x1 := min x1 (s32 g.width)
    let v : Int := u32 (g.width * y0)
    let e := v + x1
    let v := v + x0
    .ok { g with video := ← fill g.rgb (e - v).toNat v g.video }

/-- The loop of `vm_circle`, driver_sdl/driver.cpp:161-172; `n` bounds the rounds (there are at most
`radius + 1`, as `x` grows and `y` does not). -/
def circleLoop (xC yC : Int) : Nat → Int → Int → Int → Video → Out Video
  | 0, _, _, _, _ => .error .diverge
  | n + 1, x, y, p, g =>
    if x ≤ y then do
      let x ← chk (x + 1)
      let (p, y) ←
        if p < 0 then do
          let d ← chk (2 * x)
          let d ← chk (d + 1)
          .ok (← chk (p + d), y)
        else do
          let d ← chk (x - y)
          let d ← chk (2 * d)
          let d ← chk (d + 1)
          .ok (← chk (p + d), ← chk (y - 1))
      let g ← span (← chk (xC - x)) (← chk (xC + x)) (← chk (yC + y)) g
      let g ← span (← chk (xC - x)) (← chk (xC + x)) (← chk (yC - y)) g
      let g ← span (← chk (xC - y)) (← chk (xC + y)) (← chk (yC + x)) g
      let g ← span (← chk (xC - y)) (← chk (xC + y)) (← chk (yC - x)) g
      circleLoop xC yC n x y p g
    else .ok g

/-- `vm_circle`, driver_sdl/driver.cpp:141-173, for numbers. -/
def circle (xC yC radius : Int) (g : Video) : Out Video := do
  let p ← chk (1 - radius)
  let g ← span (← chk (xC - radius)) (← chk (xC + radius)) yC g
  circleLoop xC yC (radius.toNat + 2) 0 radius p g

/-- The loops of `line`, driver_sdl/driver.cpp:192-200: `i` runs from 0 to `endVal` in steps of
`incrementVal`, so there are `n = |endVal|` rounds.  `j >> 16` rounds down. -/
def lineLoop (yLonger : Bool) (x y inc dec : Int) : Nat → Int → Int → Video → Out Video
  | 0, _, _, g => .ok g
  | n + 1, i, j, g => do
    let g ←
      if yLonger then do plot (← chk (x + j / 65536)) (← chk (y + i)) g
      else do plot (← chk (x + i)) (← chk (y + j / 65536)) g
    let i ← chk (i + inc)
    let j ← chk (j + dec)
    lineLoop yLonger x y inc dec n i j g

/-- `abs`: undefined for the least number. -/
def iabs (x : Int) : Out Int := if x < 0 then chk (-x) else .ok x

/-- `line`, driver_sdl/driver.cpp:175-201.  The shift of a negative number to the left is taken as the
multiplication that compilers make of it (C++11 leaves it undefined); a result that does not fit is
undefined. -/
def line (x0 y0 x1 y1 : Int) (g : Video) : Out Video := do
  let shortLen ← chk (y1 - y0)
  let longLen ← chk (x1 - x0)
  let yLonger := decide ((← iabs shortLen) > (← iabs longLen))
  let (shortLen, longLen) := if yLonger then (longLen, shortLen) else (shortLen, longLen)
  let endVal := longLen
  let inc : Int := if longLen < 0 then -1 else 1
  let longLen ← iabs longLen
  let dec ← if longLen = 0 then .ok 0 else do
    .ok ((← chk (shortLen * 65536)).tdiv longLen)
  lineLoop yLonger x0 y0 inc dec endVal.natAbs 0 0 g

/-- `s[i]`. -/
def load (p : List (BitVec 32)) (i : Nat) : Out (BitVec 32) :=
  match p[i]? with
  | some c => .ok c
  | none => .error .ub

/-- One round of the inner loop of `vm_flip`, driver_sdl/driver.cpp:289-292: nine pixels of the surface
(`a = b = c` assigns from the right), from `d[j]` on; the sums are of type `uint32_t`. -/
def flipBlock (c : BitVec 32) (p1 p2 d j : Nat) (px : List (BitVec 32)) : Out (List (BitVec 32)) := do
  let px ← store px (d + u32 (j + 2)) c
  let px ← store px (d + u32 (j + 1)) c
  let px ← store px (d + u32 j) c
  let px ← store px (d + u32 (j + 2 + p1)) c
  let px ← store px (d + u32 (j + 1 + p1)) c
  let px ← store px (d + u32 (j + p1)) c
  let px ← store px (d + u32 (j + 2 + p2)) c
  let px ← store px (d + u32 (j + 1 + p2)) c
  store px (d + u32 (j + p2)) c

/-- The inner loop of `vm_flip`, driver_sdl/driver.cpp:287-293: `n` more rounds, from `s[x]` and `d[j]` on. -/
def flipRow (src : List (BitVec 32)) (p1 p2 s d : Nat) :
    Nat → Nat → Nat → List (BitVec 32) → Out (List (BitVec 32))
  | 0, _, _, px => .ok px
  | n + 1, x, j, px => do
    let c ← load src (s + x)
    flipRow src p1 p2 s d n (x + 1) (u32 (j + 3)) (← flipBlock c p1 p2 d j px)

/-- The outer loop of `vm_flip`, driver_sdl/driver.cpp:286-296: `n` more rows. -/
def flipRows (src : List (BitVec 32)) (width height p1 p2 : Nat) :
    Nat → Nat → Nat → List (BitVec 32) → Out (List (BitVec 32))
  | 0, _, _, px => .ok px
  | n + 1, s, d, px => do
    flipRows src width height p1 p2 n (s + width) (d + u32 (p1 * 3)) (← flipRow src p1 p2 s d height 0 0 px)

/-- `vm_flip`, driver_sdl/driver.cpp:270-302.  The inner loop runs to the height, not to the width. -/
def flip (g : Video) : Out Video :=
  match g.screen with
  | none => .ok g
  | some px => do
    let p1 := u32 (g.width * 3)
    let p2 := u32 (p1 + p1)
    .ok { g with screen := some (← flipRows g.video g.width g.height p1 p2 g.height 0 0 px) }

/-- What a call of a function of this driver leaves on the stack. -/
inductive Ret
  | none
  | int (v : I32)
  deriving DecidableEq, Repr

/-- What the functions get from SDL at the time of the call. -/
structure Outside where
  /-- the clock, `SDL_GetTicks` -/
  ticks : BitVec 32
  /-- `SDL_GetKeyboardState` -/
  key : Str → Bool
  /-- the new window of `SDL_CreateWindow` and `SDL_GetWindowSurface` for a width and height -/
  window : Nat → Nat → Option (Option (List (BitVec 32)))

/-- The state of the driver: `global`, `tick_mark`, whether the thread halts, the random numbers. -/
structure Driver where
  video : Video := {}
  tickMark : BitVec 32 := 0
  halted : Bool := false
  seed : BitVec 32 := 12345
  deriving DecidableEq, Repr

/-- The names the driver registers, driver_sdl/driver.cpp:339-348, 358-367. -/
inductive Fn
  | cls | rand | video | plot | flip | setrgb | circle | line | sleep | keydown
  deriving DecidableEq, Repr

/-- In the order of registration. -/
def Fn.all : List Fn := [.cls, .rand, .video, .plot, .flip, .setrgb, .circle, .line, .sleep, .keydown]

/-- The number of arguments each function pops. -/
def Fn.arity : Fn → Nat
  | .cls | .rand | .flip => 0
  | .sleep | .keydown => 1
  | .video | .plot => 2
  | .setrgb | .circle => 3
  | .line => 4

/-- The keys known to `keydown`. -/
def keyNames : List Str :=
  [str "up", str "down", str "left", str "right", str "escape", str "space"]

/-- `as_int` for each number. -/
def numbers (fl : FloatOps) : List View → Option (Out (List I32))
  | [] => some (.ok [])
  | v :: vs =>
    match v.int? fl, numbers fl vs with
    | some x, some xs => some (do .ok ((← x) :: (← xs)))
    | _, _ => Option.none

/-- Run a drawing function that leaves `none`. -/
def draw (d : Driver) (f : Video → Out Video) : Out (Driver × Ret) := do
  .ok ({ d with video := ← f d.video }, .none)

/-- The functions of the driver with their arguments in the order of the call,
driver_sdl/driver.cpp:34-301.  The drawing functions do nothing for arguments of other types. -/
def Fn.call (fl : FloatOps) (o : Outside) : Fn → List View → Driver → Out (Driver × Ret)
  | .cls, [], d => draw d Sdl.cls
  | .rand, [], d => .ok ({ d with seed := xorshift32 d.seed }, .int (xorshift32 d.seed &&& 0x7fffff))
  | .video, [.int w, .int h], d => do
    let (g, r) ← Sdl.video (o.window (w * 3).toNat (h * 3).toNat) w.toInt h.toInt d.video
    .ok ({ d with video := g }, .int r)
  | .video, [_, _], d => .ok (d, .int 0)
  | .plot, [x, y], d =>
    match numbers fl [x, y] with
    | some xs => do
      match ← xs with
      | [x, y] => draw d (Sdl.plot x.toInt y.toInt)
      | _ => .error .ub
    | Option.none => .ok (d, .none)
  | .flip, [], d => draw d Sdl.flip
  | .setrgb, [r, g, b], d =>
    match numbers fl [r, g, b] with
    | some xs => do
      match ← xs with
      | [r, g, b] => draw d fun v => .ok (Sdl.setrgb r g b v)
      | _ => .error .ub
    | Option.none => .ok (d, .none)
  | .circle, [x, y, r], d =>
    match numbers fl [x, y, r] with
    | some xs => do
      match ← xs with
      | [x, y, r] => draw d (Sdl.circle x.toInt y.toInt r.toInt)
      | _ => .error .ub
    | Option.none => .ok (d, .none)
  | .line, [.int x0, .int y0, .int x1, .int y1], d =>
    draw d (Sdl.line x0.toInt y0.toInt x1.toInt y1.toInt)
  | .line, [_, _, _, _], d => .ok (d, .none)
  | .sleep, [v], d =>
    match v.int? fl with
    | some x => do .ok ({ d with tickMark := o.ticks + (← x), halted := true }, .none)
    | Option.none => .ok (d, .none)
  | .keydown, [.str s], d =>
    if s ∈ keyNames then .ok (d, .int (if o.key s then 1 else 0)) else .ok (d, .none)
  | .keydown, [_], d => .ok (d, .none)
  | _, _, _ => .error .ub

end Sdl
end Ccml
