import Verif.Driver
import Verif.SdlDriver
/-!
What the drivers write to standard error when the compiler reports an error.
-/
namespace Ccml

/-- `on_error`, driver/driver.cpp:77-84 and driver_sdl/driver.cpp:303-310: the line written to standard error.
`line_t` holds 32 bit numbers. -/
def complaint (e : CErr) : Str :=
  str "file " ++ decimal (BitVec.ofNat 32 e.line.file) ++ str ", line:" ++ decimal (BitVec.ofNat 32 e.line.line) ++
    str " - " ++ cstr e.msg ++ str "\n"

/-- What `main` writes to standard error through `on_error` until the program is built, driver/driver.cpp:136-173 and
driver_sdl/driver.cpp:329-354, with the host functions `sys`. -/
def driverComplaint (fs : Str → Option Str) (fl : FloatOps) (L : Layout) (n : Nat) (sys : List (Str × Option Nat))
    (paths : List Str) : Option Str :=
  match loadFiles fs [] paths with
  | none => none
  | some srcs =>
    match build fs fl L true sys n srcs with
    | .error (.err e) => some (complaint e)
    | _ => none

end Ccml
