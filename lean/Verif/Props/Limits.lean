import Verif.SrcSize
import Verif.Props.Build
/-!
# C60: what the length of the texts says about the counters of the compiler
-/
namespace Ccml.Props

/-- The bytes of all texts a build reads, with one more for the end of each. -/
def textBytes (srcs : List Source) : Nat := (srcs.map fun s => (s.data.getD []).length + 1).sum

theorem textBytes_eq : ∀ srcs, textBytes srcs = Size.bytes srcs
  | [] => rfl
  | s :: ss => by
    have := textBytes_eq ss
    unfold textBytes at this ⊢
    simp [Size.bytes, ← this]

/-- Whatever `build` reads (`srcs'` are the sources given and imported), the declarations, and the arguments
and variables of each function, are no more than the bytes of the texts and the system calls registered. -/
theorem C60_count {fs : Str → Option Str} {fl : FloatOps} {n : Nat} {srcs srcs' : List Source}
    {sys : List (Str × Option Nat)} {p : Prog Unit}
    (h : buildSources fs fl n 0 srcs [] (registered sys) = .ok (p, srcs')) :
    p.length ≤ sys.length + textBytes srcs' ∧
    ∀ f, Item.func f ∈ p → f.args.length + Src.varsB f.body < sys.length + textBytes srcs' := by
  have h1 := Size.build_weight h
  rw [Size.weights_registered, ← textBytes_eq] at h1
  refine ⟨Nat.le_trans (Size.weights_length p) h1, fun f hf => ?_⟩
  have := Size.weights_mem hf
  simp only [Size.weight] at this
  omega

/-- The condition `Src.Small` of C57, C60, C62, C79 and C80 holds for all texts of together less than 2³¹
bytes. -/
theorem C60_limits {fs : Str → Option Str} {fl : FloatOps} {n : Nat} {srcs srcs' : List Source}
    {sys : List (Str × Option Nat)} {p : Prog Unit}
    (h : buildSources fs fl n 0 srcs [] (registered sys) = .ok (p, srcs'))
    (hb : sys.length + textBytes srcs' < 2147483648) : Src.Small p := by
  obtain ⟨h1, h2⟩ := C60_count h
  exact ⟨by omega, fun f hf => by have := h2 f hf; omega⟩

/-- `C60_count` and `C60_limits` for the program of two texts. -/
example : Src.Small runTree ∧ runTree.length ≤ textBytes runRead.2 ∧ textBytes runRead.2 < 300 ∧
    0 < runTree.length := by
  refine ⟨C60_limits run_reads ?_, ?_, by decide +kernel, by decide +kernel⟩
  · have : textBytes runRead.2 < 300 := by decide +kernel
    simp only [List.length_nil]
    omega
  · simpa using (C60_count run_reads).1

end Ccml.Props
