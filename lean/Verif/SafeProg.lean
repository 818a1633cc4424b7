import Verif.StepSafe
import Verif.SdlDriver
import Verif.Props.Layout
/-!
Compiled programs are in place, and the built-in functions are sound (proof infrastructure).
-/
set_option linter.unusedSimpArgs false
namespace Ccml
open Sem (State Res look)

/-- No binary operator `not` anywhere, and no built-in function with a fixed number of arguments
outside the callee position. -/
def plainP (q : Prog Ref) : Prop := (∀ f, Item.func f ∈ q → plainB q f.body) ∧ plainB q (initBody q)

theorem segsOf_fns {p : Prog Ref} {sys : List Syscall} : ∀ {xs : List (Item Ref)} {pc si segs},
    segsOf p sys pc si xs = .ok segs → ∃ fns : List Fn,
      (∀ G ∈ fns, ∃ f s, Item.func f ∈ xs ∧ s ∈ segs ∧ s.name = f.name.str ∧
        asmFunc p sys s.pc s.si f = .ok s.asm ∧
        G = ⟨s.pc, f.args.length, stackSize (funcLocals f.body), s.asm⟩) ∧
      (∀ f, Item.func f ∈ xs → ∃ s ∈ segs, s.name = f.name.str ∧
        (⟨s.pc, f.args.length, stackSize (funcLocals f.body), s.asm⟩ : Fn) ∈ fns)
  | [], pc, si, segs, h => ⟨[], fun _ h => (by cases h), fun _ h => (by cases h)⟩
  | .func f :: xs, pc, si, segs, h => by
    simp only [segsOf] at h
    obtain ⟨a, ha, h⟩ := bind_ok.1 h
    obtain ⟨r, hr, h⟩ := bind_ok.1 h
    cases h
    obtain ⟨fns, h1, h2⟩ := segsOf_fns hr
    refine ⟨⟨pc, f.args.length, stackSize (funcLocals f.body), a⟩ :: fns, ?_, ?_⟩
    · intro G hG
      rcases List.mem_cons.1 hG with rfl | hG
      · exact ⟨f, _, List.mem_cons_self .., List.mem_cons_self .., rfl, ha, rfl⟩
      · obtain ⟨f', s, k1, k2, k3⟩ := h1 G hG
        exact ⟨f', s, List.mem_cons_of_mem _ k1, List.mem_cons_of_mem _ k2, k3⟩
    · intro f' hf'
      rcases List.mem_cons.1 hf' with hf' | hf'
      · cases hf'
        exact ⟨_, List.mem_cons_self .., rfl, List.mem_cons_self ..⟩
      · obtain ⟨s, k1, k2, k3⟩ := h2 f' hf'
        exact ⟨s, List.mem_cons_of_mem _ k1, k2, List.mem_cons_of_mem _ k3⟩
  | .var .. :: xs, pc, si, segs, h => by
    simp only [segsOf] at h
    obtain ⟨fns, h1, h2⟩ := segsOf_fns h
    refine ⟨fns, fun G hG => ?_, fun f hf => ?_⟩
    · obtain ⟨f', s, k1, k2⟩ := h1 G hG
      exact ⟨f', s, List.mem_cons_of_mem _ k1, k2⟩
    · rcases List.mem_cons.1 hf with hf | hf
      · cases hf
      · exact h2 f hf
  | .syscall .. :: xs, pc, si, segs, h => by
    simp only [segsOf] at h
    obtain ⟨fns, h1, h2⟩ := segsOf_fns h
    refine ⟨fns, fun G hG => ?_, fun f hf => ?_⟩
    · obtain ⟨f', s, k1, k2⟩ := h1 G hG
      exact ⟨f', s, List.mem_cons_of_mem _ k1, k2⟩
    · rcases List.mem_cons.1 hf with hf | hf
      · cases hf
      · exact h2 f hf

/-- Where the functions of a program are: no position belongs to two of them. -/
structure Located (K : Lay) (prog : Program) : Prop where
  apart : ∀ F ∈ K.fns, ∀ G ∈ K.fns, ∀ x, F.pc ≤ x → x < F.pc + widthOf F.asm → G.pc ≤ x →
    x < G.pc + widthOf G.asm → F.pc = G.pc ∧ F.asm = G.asm
  func : ∀ f, Item.func f ∈ K.q → ∃ P ∈ prog.functions, P.name = f.name.str ∧ ∃ F ∈ K.fns,
    P.codeStart = i32 F.pc ∧ ∃ si, asmFunc K.q K.sys F.pc si f = .ok F.asm
  init : ∃ P ∈ prog.functions, P.name = initName ∧ ∃ F ∈ K.fns,
    P.codeStart = i32 F.pc ∧ ∃ si, asmInit K.q K.sys F.pc si = .ok F.asm
  own : ∀ F ∈ K.fns, ∃ P ∈ prog.functions, P.codeStart = i32 F.pc ∧ P.numArgs = F.nargs

section
variable {L : Layout} {opt : Bool} {p : Prog Unit} {q : Prog Ref} {prog : Program}
  {e : Env Val Store} {cx : Sem.Ctx}

/-- A compiled program in the machine. -/
theorem Compiles.inPlace (hc : Compiles L opt p q prog) (hi : ∀ x ∈ p, x.declName ≠ initName)
    (hl : Fits q prog) (hp : plainP q) (he : e.prog = { prog with syscalls := cx.table }) :
    ∃ K : Lay, K.q = q ∧ K.sys = prog.syscalls ∧ InPlace K e ∧ Located K prog := by
  have hn := hc.func hi
  have hc' := hc
  obtain ⟨q0, h1, h2, h3⟩ := hc
  obtain ⟨segs, es, G⟩ := codegen_generated hn h3
  obtain ⟨l, a, i, g1, g2, g3, g4⟩ := G.funcs
  obtain ⟨fs, g5, g6⟩ := G.table
  obtain ⟨fns, k1, k2⟩ := segsOf_fns g1
  have hcode : e.prog.code = prog.code := by rw [he]
  have hstr : e.prog.strings = prog.strings := by rw [he]
  have hfun : ∀ x, e.prog.findByPc x = prog.findByPc x := by intro x; rw [he]; rfl
  have hiseg : i ∈ segs := by rw [g4]; simp
  have codeAt : ∀ s ∈ segs, CodeAt e (addrMap segs) s.pc s.asm := fun s hs =>
    G.chain.codeAt (pre := []) (by rw [hcode, G.code]; rfl) rfl s hs
  have hstrl : prog.strings.length < 2147483648 := by
    have h4 := G.chain.strs_le
    have h5 := G.codeLength.2
    rw [G.code, bytesOf_length] at h5
    rw [G.strings]
    omega
  have text : ∀ s ∈ segs, ∀ x ∈ s.asm, TextOk e x.1 := by
    intro s hs x hx
    have good : AllGood q prog.syscalls s.si (s.si + s.strs.length) (starts s.pc s.asm) s.asm := by
      have hs' := hs
      rw [g4, List.mem_append] at hs'
      rcases hs' with hs' | hs'
      · exact Props.segsOf_good g1 s hs'
      · rw [List.mem_singleton] at hs'
        subst hs'
        subst g3
        exact asmInit_good g2
    have hle := Props.strs_seg G.chain s hs
    have := good x hx
    revert this
    generalize x.1 = z
    intro hg
    match z, hg with
    | .ins (.i1 o v), ⟨_, g, _⟩ =>
      intro ho
      obtain ⟨k, hk, hk', rfl⟩ := g ho
      have hlt : k < e.prog.strings.length := by rw [hstr, G.strings]; omega
      refine ⟨k, e.prog.strings[k], rfl, ?_, List.getElem?_eq_getElem hlt⟩
      rw [hstr] at hlt
      omega
    | .ins (.i0 _), _ => trivial
    | .ins (.i2 ..), _ => trivial
    | .call .., _ => trivial
    | .fn .., _ => trivial
  have wsmall : ∀ s ∈ segs, widthOf s.asm < 2147483648 := by
    intro s hs
    have := G.small s hs
    unfold Seg.stop at this
    omega
  have find : ∀ s ∈ segs, ∀ P ∈ prog.functions, P.name = s.name → e.prog.findByPc (i32 s.pc) = some P := by
    intro s hs P hP hPn
    rw [hfun]
    refine G.findByPc hs hP hPn (Nat.le_refl _) ?_
    have := G.chain.pos s hs
    unfold Seg.stop
    omega
  have hnod : (prog.functions.map Function.name).Nodup := by rw [G.fnames]; exact G.names
  have hini : place segs ⟨initName, 0, 0, [], []⟩ ∈ prog.functions := by
    rw [G.functions, g6]
    exact List.mem_map_of_mem (List.mem_append_right _ (List.mem_singleton.2 rfl))
  have hpl := place_eq G.names hiseg (F := ⟨initName, 0, 0, [], []⟩) (by rw [g3])
  have hiname : (place segs ⟨initName, 0, 0, [], []⟩).name = i.name := by rw [hpl, g3]
  have hiargs : (place segs ⟨initName, 0, 0, [], []⟩).numArgs = 0 := by rw [hpl]; rfl
  have entry : ∀ f, Item.func f ∈ q → ∀ s ∈ segs, s.name = f.name.str →
      ∃ P ∈ prog.functions, P.name = s.name ∧ P.numArgs = f.args.length ∧ P.codeStart = i32 s.pc := by
    intro f hf s hs hsn
    obtain ⟨j, hj⟩ := List.mem_iff_getElem?.1 hf
    obtain ⟨F', j1, j2, j3, j4, -⟩ := hc'.entry hi hj
    obtain ⟨s', j5, j6, j7, -⟩ := G.entry j2
    have := name_unique G.names hs j5 (by rw [hsn, ← j3, j6])
    subst this
    exact ⟨F', j2, j6, j4, j7⟩
  have g2' : asmInit q prog.syscalls i.pc i.si = .ok i.asm := by rw [g3]; exact g2
  let I : Fn := ⟨i.pc, 0, 0, i.asm⟩
  refine ⟨⟨q, prog.syscalls, addrMap segs, fns ++ [I]⟩, rfl, rfl,
    ⟨?_, ?_, ?_, ?_, hl.slots, hl.table⟩, ?_, ?_, ?_, ?_⟩
  · intro F hF
    rcases List.mem_append.1 hF with hF | hF
    · obtain ⟨f, s, j1, j2, j3, j4, rfl⟩ := k1 F hF
      have hs : s ∈ segs := by rw [g4]; exact List.mem_append_left _ j2
      obtain ⟨j, hj⟩ := List.mem_iff_getElem?.1 j1
      have hb := asmFunc_bal j4 (hp.1 f j1) (wsmall s hs) (hl.locals j f hj)
      exact ⟨codeAt s hs, hb.1, hb.2, hl.locals j f hj, text s hs⟩
    · rw [List.mem_singleton] at hF
      subst hF
      have hb := asmInit_bal g2' hp.2 (wsmall i hiseg)
      exact ⟨codeAt i hiseg, hb.1, hb.2, by simp [I], text i hiseg⟩
  · intro f hf
    obtain ⟨s, j1, j2, j3⟩ := k2 f hf
    refine ⟨_, List.mem_append_left _ j3, ?_, rfl⟩
    rw [← j2]
    exact mapGet_reverse G.names (by rw [g4]; exact List.mem_append_left _ j1)
  · intro F hF
    rcases List.mem_append.1 hF with hF | hF
    · obtain ⟨f, s, j1, j2, j3, j4, rfl⟩ := k1 F hF
      have hs : s ∈ segs := by rw [g4]; exact List.mem_append_left _ j2
      obtain ⟨P, m1, m2, m3, -⟩ := entry f j1 s hs j3
      exact ⟨P, find s hs P m1 m2, m3⟩
    · rw [List.mem_singleton] at hF
      subst hF
      exact ⟨_, find i hiseg _ hini hiname, hiargs⟩
  · intro P hP
    have hP : P ∈ prog.functions := by rw [he] at hP; exact hP
    obtain ⟨s, j1, j2, j3, -⟩ := G.entry hP
    have hs := j1
    rw [g4, List.mem_append] at hs
    rcases hs with hs | hs
    · have : s.name ∈ funcNames q := by
        rw [← segsOf_names g1]
        exact List.mem_map_of_mem hs
      obtain ⟨f, hf, hfn⟩ := funcNames_mem.1 this
      obtain ⟨s', m1, m2, m3⟩ := k2 f hf
      have := name_unique G.names j1 (show s' ∈ segs by rw [g4]; exact List.mem_append_left _ m1)
        (by rw [← hfn, m2])
      subst this
      obtain ⟨P', n1, n2, n3, n4⟩ := entry f hf s j1 m2
      have := fname_unique hnod hP n1 (j2.trans n2.symm)
      subst this
      exact ⟨_, List.mem_append_left _ m3, j3, n3⟩
    · rw [List.mem_singleton] at hs
      subst hs
      have := fname_unique hnod hP hini (j2.trans hiname.symm)
      subst this
      exact ⟨I, List.mem_append_right _ (List.mem_singleton.2 rfl), j3, hiargs⟩
  · have hseg : ∀ F ∈ fns ++ [I], ∃ s ∈ segs, F.pc = s.pc ∧ F.asm = s.asm := by
      intro F hF
      rcases List.mem_append.1 hF with hF | hF
      · obtain ⟨f, s, j1, j2, j3, j4, rfl⟩ := k1 F hF
        exact ⟨s, by rw [g4]; exact List.mem_append_left _ j2, rfl, rfl⟩
      · rw [List.mem_singleton] at hF
        subst hF
        exact ⟨i, hiseg, rfl, rfl⟩
    intro F hF F' hF' x h1 h2 h3 h4
    obtain ⟨s, j1, j2, j3⟩ := hseg F hF
    obtain ⟨s', m1, m2, m3⟩ := hseg F' hF'
    rw [j2, j3] at h2
    rw [m2, m3] at h4
    have := G.chain.unique s j1 s' m1 (x := x) (by omega) h2 (by omega) h4
    subst this
    exact ⟨j2.trans m2.symm, j3.trans m3.symm⟩
  · intro f hf
    obtain ⟨s, j1, j2, j3⟩ := k2 f hf
    obtain ⟨P, m1, m2, -, m4⟩ := entry f hf s (by rw [g4]; exact List.mem_append_left _ j1) j2
    obtain ⟨f', s', n1, n2, n3, n4, n5⟩ := k1 _ j3
    refine ⟨P, m1, m2.trans j2, _, List.mem_append_left _ j3, m4, ?_⟩
    obtain ⟨s2, o1, o2, -, o4⟩ := segsOf_mem g1 hf
    have := name_unique G.names (show s2 ∈ segs by rw [g4]; exact List.mem_append_left _ o1)
      (show s ∈ segs by rw [g4]; exact List.mem_append_left _ j1) (o2.trans j2.symm)
    subst this
    exact ⟨_, o4⟩
  · obtain ⟨s, j1, j2, j3, -⟩ := G.entry hini
    have := name_unique G.names j1 hiseg (j2.symm.trans hiname)
    subst this
    exact ⟨_, hini, by rw [hpl], I, List.mem_append_right _ (List.mem_singleton.2 rfl), j3, s.si, g2'⟩
  · intro F hF
    rcases List.mem_append.1 hF with hF | hF
    · obtain ⟨f, s, j1, j2, j3, j4, rfl⟩ := k1 F hF
      obtain ⟨P, m1, m2, m3, m4⟩ := entry f j1 s (by rw [g4]; exact List.mem_append_left _ j2) j3
      exact ⟨P, m1, m4, m3⟩
    · rw [List.mem_singleton] at hF
      subst hF
      obtain ⟨s, j1, j2, j3, -⟩ := G.entry hini
      have := name_unique G.names j1 hiseg (j2.symm.trans hiname)
      rw [this] at j3
      exact ⟨_, hini, j3, hiargs⟩

/-! ### The built-in functions -/

/-- The number of arguments in the form `builtins_register` passes it: -1 for a variable number
(lib_builtins/builtin.cpp:246-271). -/
def countOf : Option Nat → Int
  | none => -1
  | some k => k

/-- The functions of the command line driver with the registered numbers of arguments,
driver/driver.cpp:156-161, 176-181. -/
def driverOwn : List (Str × Int × HostFn) :=
  [(str "putc", 1, .putc), (str "getc", 0, .getc), (str "puts", 1, .puts), (str "gets", 0, .gets),
   (str "rand", 0, .rand), (str "print", 1, .puts)]

/-- The functions of the graphical driver with the registered numbers of arguments,
driver_sdl/driver.cpp:339-348, 358-367. -/
def sdlOwn : List (Str × Int × HostFn) :=
  [(str "cls", 0, .sdl .cls), (str "rand", 0, .sdl .rand), (str "video", 2, .sdl .video), (str "plot", 2, .sdl .plot),
   (str "flip", 0, .sdl .flip), (str "setrgb", 3, .sdl .setrgb), (str "circle", 3, .sdl .circle),
   (str "line", 4, .sdl .line), (str "sleep", 1, .sdl .sleep), (str "keydown", 1, .sdl .keydown)]

/-- The two drivers: what they bind, and their functions with the numbers of arguments. -/
inductive IsDriver : List (Str × HostFn) → List (Str × Int × HostFn) → Prop
  | cmd : IsDriver driverMap driverOwn
  | sdl : IsDriver sdlMap sdlOwn

/-- The host functions that the program declares are the built-in ones and those of the driver. -/
def Standard (own : List (Str × Int × HostFn)) (q : Prog Ref) : Prop := ∀ n a, Item.syscall n a ∈ q →
  (n, countOf a) ∈ builtinsRegister ++ own.map fun x => (x.1, x.2.1)

/-- A started thread. -/
theorem startThread_ok {K : Lay} (L : InPlace K e) (hs : e.prog.code.length < 2147483648) {F : Function}
    (hF : F ∈ e.prog.functions) {args : List Val} (ha : F.numArgs = args.length) {n : Nat}
    (hv : ValsOk K n args) : ThreadOk K n (Sem.startThread F.codeStart.toInt args) := by
  obtain ⟨G, hG, h1, h2⟩ := L.table F hF
  have := (L.ok G hG).code.le
  have hpc : F.codeStart.toInt = (G.pc : Nat) := by rw [h1, toInt_i32 (by omega)]
  refine .inr ⟨rfl, rfl, hv.reverse, ?_⟩
  simp only [Sem.startThread, List.length_reverse]
  have := enter_stk (K := K) L hG (len := args.length) (ret := F.codeStart.toInt)
    (callee := F.codeStart.toInt) (frs := []) (term := true) (by omega) (.inl rfl)
  rw [hpc] at this ⊢
  exact this

/-- What a built-in function gives back is in order. -/
def HostGood (K : Lay) (w : State) : Res Val → Prop
  | .ok v w' => StateOk K w' ∧ ValOk K w'.mem.length v ∧ w.mem.length ≤ w'.mem.length
  | .err x w' => StateOk K w' ∧ x.usual = true ∧ w.mem.length ≤ w'.mem.length
  | _ => True

section
variable {K : Lay} {w : State}

theorem HostGood.val {v : Val} (hw : StateOk K w) (hv : ValOk K w.mem.length v) : HostGood K w (.ok v w) :=
  ⟨hw, hv, Nat.le_refl _⟩

theorem HostGood.bad (hw : StateOk K w) : HostGood K w (.err .bad_argument w) :=
  ⟨hw, by decide, Nat.le_refl _⟩

theorem HostGood.look {v : Val} {f : View → Res Val} (h : ∀ x, HostGood K w (f x)) :
    HostGood K w (Sem.look v w f) := by
  unfold Sem.look
  split
  · exact h _
  · trivial

theorem HostGood.lookAll {f : List View → Res Val} (h : ∀ xs, HostGood K w (f xs)) :
    ∀ (vs : List Val) (acc : List View), HostGood K w (Sem.lookAll vs acc w f)
  | [], acc => h acc
  | _ :: vs, _ => .look fun _ => HostGood.lookAll h vs _

theorem HostGood.exact {z : Int} (hw : StateOk K w) : HostGood K w ((Sem.exact z).res w) := by
  unfold Sem.exact
  split
  · exact .val hw trivial
  · trivial

theorem HostGood.math {fl : FloatOps} {f : F32 → F32} {v : Val} (hw : StateOk K w) :
    HostGood K w (Sem.math fl f v w) := by
  refine .look fun x => ?_
  split
  · exact .val hw trivial
  · exact .bad hw

theorem HostGood.pick {fl : FloatOps} {f : F32 → F32 → Bool} {a b : Val} (hw : StateOk K w) :
    HostGood K w (Sem.pick fl f a b w) := by
  refine .look fun x => .look fun y => ?_
  split
  · exact .val hw trivial
  · exact .bad hw

/-- All built-in functions. -/
theorem builtin_good (L : InPlace K e) (hs : e.prog.code.length < 2147483648) {fl : FloatOps} {b : Builtin}
    {args : List Val} (hw : StateOk K w) (ha : ValsOk K w.mem.length args) :
    HostGood K w (Sem.builtin fl e.prog b args w) := by
  unfold Sem.builtin
  split
  · refine .look fun x => ?_
    split
    · split
      · exact .exact hw
      · exact .val hw trivial
    · exact .val hw trivial
    · exact .bad hw
  · exact .pick hw
  · exact .pick hw
  · refine .look fun x => .look fun y => ?_
    split
    · exact .val hw trivial
    · exact .bad hw
  · exact .math hw
  · exact .math hw
  · exact .math hw
  · refine .look fun x => ?_
    split
    · exact .val hw trivial
    · exact .val hw trivial
    · exact .bad hw
  · refine .look fun x => ?_
    split
    · exact .val hw trivial
    · exact .bad hw
  · exact .math hw
  · exact .math hw
  · exact .math hw
  · exact .math hw
  · exact .bad hw
  · rename_i f args
    refine .look fun x => ?_
    split
    · split
      · exact .bad hw
      · rename_i F hF
        have hF' : F ∈ e.prog.functions := by
          unfold Program.findByPc at hF
          exact List.mem_of_find?_eq_some hF
        split
        · exact .bad hw
        · rename_i hn
          split
          · trivial
          · refine ⟨⟨hw.mem, hw.globals, ?_, hw.after⟩, trivial, Nat.le_refl _⟩
            intro t ht
            rcases List.mem_cons.1 ht with rfl | ht
            · exact startThread_ok L hs hF' (by simpa using hn) ha.tail
            · exact hw.before t ht
    · exact .bad hw
  · refine .look fun x => ?_
    split
    · exact .bad hw
    · exact ⟨⟨hw.mem, hw.globals, hw.before, hw.after⟩, trivial, Nat.le_refl _⟩
    · rename_i a ha' hx
      unfold Sem.integer at hx
      split at hx
      · cases hx; exact absurd rfl (ha' _)
      · split at hx
        · cases hx; exact absurd rfl (ha' _)
        · cases hx; trivial
      · cases hx
  · refine .look fun x => ?_
    split
    · exact .bad hw
    · rename_i n _
      split
      · exact .bad hw
      · have hl : w.mem.length ≤ (w.mem ++ [List.replicate n.toInt.toNat Val.none]).length := by simp
        refine ⟨hw.store hl ?_, ?_, hl⟩
        · intro xs hx
          rcases List.mem_append.1 hx with hx | hx
          · exact (hw.mem xs hx).mono hl
          · rw [List.mem_singleton.1 hx]
            exact .replicate _
        · show w.mem.length < (w.mem ++ [_]).length
          simp
    · rename_i a ha' hx
      unfold Sem.integer at hx
      split at hx
      · cases hx; exact absurd rfl (ha' _)
      · split at hx
        · cases hx; exact absurd rfl (ha' _)
        · cases hx; trivial
      · cases hx
  · trivial

theorem look_ne {v : Val} {f : View → Res Val} (h : ∀ x, f x ≠ .undef) : Sem.look v w f ≠ .undef := by
  unfold Sem.look
  split
  · exact h _
  · simp

theorem res_ne {a : Sem.Ans} (h : a ≠ .undef) : a.res w ≠ .undef := by
  cases a <;> simp_all [Sem.Ans.res]

theorem look_fault {n : Nat} {v : Val} {w : State} (hw : w.mem.length = n) (hv : ValOk K n v)
    {f : View → Res Val} {x : Fault} (h : Sem.look v w f = .fault x) :
    ∃ y, v.view w.mem = .ok y ∧ f y = .fault x := by
  obtain ⟨y, hy⟩ := view_some (hw ▸ hv)
  unfold Sem.look at h
  rw [hy] at h
  exact ⟨y, hy, h⟩

theorem view_float {m : Store} {v : Val} {a : F32} (h : v.view m = .ok (.float a)) : v = .float a := by
  cases v <;> simp [Val.view] at h
  · rw [h]
  · split at h <;> cases h

theorem view_func {m : Store} {v : Val} {a : I32} (h : v.view m = .ok (.func a)) : v = .func a := by
  cases v <;> simp [Val.view] at h
  · split at h <;> cases h
  · rw [h]

theorem handOver_some {w : State} : ∀ {l : List Val} {f : Fault}, ValsOk K w.mem.length l →
    Sem.handOver w.mem l = some f → f = .assert ∧ ∃ i, .arr i ∈ l
  | [], f, _, h => by cases h
  | v :: l, f, hv, h => by
    obtain ⟨y, hy⟩ := view_some (hv v (List.mem_cons_self ..))
    unfold Sem.handOver at h
    rw [hy] at h
    split at h
    · rename_i hk; cases hk
    · rename_i k hk
      cases hk
      cases h
      refine ⟨rfl, ?_⟩
      cases v <;> simp [Val.view] at hy
      exact ⟨_, List.mem_cons_self ..⟩
    · obtain ⟨h1, i, h2⟩ := handOver_some (fun x hx => hv x (List.mem_cons_of_mem _ hx)) h
      exact ⟨h1, i, List.mem_cons_of_mem _ h2⟩

/-- The names of the built-in functions. -/
def builtinName : Builtin → Str
  | .abs => str "abs" | .min => str "min" | .max => str "max" | .bitand => str "bitand"
  | .sin => str "sin" | .cos => str "cos" | .tan => str "tan" | .len => str "len" | .chr => str "chr"
  | .round => str "round" | .ceil => str "ceil" | .floor => str "floor" | .sqrt => str "sqrt"
  | .new_thread => str "new_thread" | .wait => str "wait" | .new_array => str "new_array"

theorem lookup_mem {α β : Type} [BEq α] [LawfulBEq α] : ∀ {l : List (α × β)} {a : α} {b : β},
    l.lookup a = some b → (a, b) ∈ l
  | (x, y) :: l, a, b, h => by
    rw [List.lookup_cons] at h
    split at h
    · rename_i hx
      cases h
      rw [beq_iff_eq] at hx
      rw [hx]
      exact List.mem_cons_self ..
    · exact List.mem_cons_of_mem _ (lookup_mem h)

theorem lookup_name {n : Str} {b : Builtin} (h : builtinsMap.lookup n = some b) : n = builtinName b :=
  (show ∀ x ∈ builtinsMap, x.1 = builtinName x.2 by decide +kernel) (n, b) (lookup_mem h)

/-- The ways in which the built-in functions end abnormally. -/
theorem builtin_faults {fl : FloatOps} {P : Program} {n : Str} {b : Builtin} {w : State}
    (hb : builtinsMap.lookup n = some b) {args : List Val} (ha : ValsOk K w.mem.length args) {f : Fault}
    (h : Sem.builtin fl P b args w = .fault f) : HostFault fl w.io n args f := by
  have hmath : ∀ g v, ValOk K w.mem.length v → Sem.math fl g v w ≠ .fault f := by
    intro g v hv k
    obtain ⟨y, -, k⟩ := look_fault rfl hv k
    split at k <;> cases k
  have hpick : ∀ g u v, ValOk K w.mem.length u → ValOk K w.mem.length v → Sem.pick fl g u v w ≠ .fault f := by
    intro g u v hu hv k
    obtain ⟨y, -, k⟩ := look_fault rfl hv k
    obtain ⟨z, -, k⟩ := look_fault rfl hu k
    split at k <;> cases k
  have hint : ∀ {v : Val} {k : I32 → Res Val} {z : Res Val → Prop}, ValOk K w.mem.length v → (∀ a, k a ≠ .fault f) →
      (Sem.look v w fun x => match Sem.integer fl x with
        | none => .err .bad_argument w
        | some (.val (.int n)) => k n
        | some a => a.res w) = .fault f → f = .ub ∧ ∃ x, v = .float x ∧ fl.toInt x = none := by
    intro v k z hv hk h
    obtain ⟨y, h1, h2⟩ := look_fault rfl hv h
    cases y with
    | int a => exact absurd h2 (hk a)
    | float x =>
      dsimp only [Sem.integer] at h2
      cases hx : fl.toInt x with
      | some a => rw [hx] at h2; exact absurd h2 (hk a)
      | none => rw [hx] at h2; cases h2; exact ⟨rfl, x, view_float h1, hx⟩
    | _ => cases h2
  have hn := lookup_name hb
  subst hn
  match b, args, h with
  | .abs, [v], h =>
    obtain ⟨y, h1, h2⟩ := look_fault rfl (ha v (List.mem_singleton.2 rfl)) h
    cases y with
    | int a =>
      dsimp only at h2
      split at h2
      · unfold Sem.exact at h2
        split at h2
        · cases h2
        · cases h2
          rw [view_int h1]
          refine .abs ?_
          have := BitVec.le_toInt a
          omega
      · cases h2
    | _ => cases h2
  | .min, [u, v], h => exact absurd h (hpick _ _ _ (ha u (by simp)) (ha v (by simp)))
  | .max, [u, v], h => exact absurd h (hpick _ _ _ (ha u (by simp)) (ha v (by simp)))
  | .bitand, [u, v], h =>
    obtain ⟨y, -, h⟩ := look_fault rfl (ha v (by simp)) h
    obtain ⟨z, -, h⟩ := look_fault rfl (ha u (by simp)) h
    split at h <;> cases h
  | .sin, [v], h => exact absurd h (hmath _ _ (ha v (by simp)))
  | .cos, [v], h => exact absurd h (hmath _ _ (ha v (by simp)))
  | .tan, [v], h => exact absurd h (hmath _ _ (ha v (by simp)))
  | .round, [v], h => exact absurd h (hmath _ _ (ha v (by simp)))
  | .ceil, [v], h => exact absurd h (hmath _ _ (ha v (by simp)))
  | .floor, [v], h => exact absurd h (hmath _ _ (ha v (by simp)))
  | .sqrt, [v], h => exact absurd h (hmath _ _ (ha v (by simp)))
  | .len, [v], h =>
    obtain ⟨y, -, h⟩ := look_fault rfl (ha v (by simp)) h
    cases y <;> cases h
  | .chr, [v], h =>
    obtain ⟨y, -, h⟩ := look_fault rfl (ha v (by simp)) h
    cases y <;> cases h
  | .new_thread, [], h => cases h
  | .new_thread, v :: args, h =>
    obtain ⟨y, h1, h⟩ := look_fault rfl (ha v (by simp)) h
    cases y with
    | func a =>
      dsimp only at h
      split at h
      · cases h
      · split at h
        · cases h
        · split at h
          · rename_i x hx
            cases h
            obtain ⟨rfl, l, hl⟩ := handOver_some (fun x hx => ha x (List.mem_cons_of_mem _ hx)) hx
            rw [view_func h1]
            exact .new_thread hl
          · cases h
    | _ => cases h
  | .wait, [v], h =>
    obtain ⟨rfl, x, rfl, h2⟩ := hint (z := fun _ => True) (ha v (by simp)) (fun _ k => (by cases k)) h
    exact .wait h2
  | .new_array, [v], h =>
    obtain ⟨rfl, x, rfl, h2⟩ := hint (z := fun _ => True) (ha v (by simp))
      (fun a k => (by split at k <;> cases k)) h
    exact .new_array h2

/-- The built-in functions answer when they get the registered number of arguments. -/
theorem builtin_answers {fl : FloatOps} {P : Program} {n : Str} {b : Builtin} {a : Option Nat}
    (hr : (n, countOf a) ∈ builtinsRegister)
    (hb : builtinsMap.lookup n = some b) {args : List Val} (ha : a = none ∨ a = some args.length) :
    Sem.builtin fl P b args w ≠ .undef := by
  have one : ∀ {b : Builtin} {f : Val → Res Val}, (∀ v, Sem.builtin fl P b [v] w = f v) → (∀ v, f v ≠ .undef) →
      args.length = 1 → Sem.builtin fl P b args w ≠ .undef := by
    intro b f h1 h2 h3
    match args, h3 with
    | [v], _ => rw [h1]; exact h2 v
  have two : ∀ {b : Builtin} {f : Val → Val → Res Val}, (∀ x y, Sem.builtin fl P b [x, y] w = f x y) →
      (∀ x y, f x y ≠ .undef) → args.length = 2 → Sem.builtin fl P b args w ≠ .undef := by
    intro b f h1 h2 h3
    match args, h3 with
    | [x, y], _ => rw [h1]; exact h2 x y
  have hm : ∀ f v, Sem.math fl f v w ≠ .undef := by
    intro f v
    refine look_ne fun x => ?_
    split <;> simp
  have hpk : ∀ f x y, Sem.pick fl f x y w ≠ .undef := by
    intro f x y
    refine look_ne fun x => look_ne fun y => ?_
    split <;> simp
  have hint : ∀ {x : View} {o : Sem.Ans}, Sem.integer fl x = some o → o ≠ .undef := by
    intro x o h
    unfold Sem.integer at h
    split at h
    · cases h; simp
    · split at h <;> cases h <;> simp
    · cases h
  have arity : ∀ {k : Int}, countOf a = k → 0 ≤ k →
      (args.length : Int) = k := by
    intro k h1 h2
    rcases ha with rfl | rfl
    · simp [countOf] at h1; omega
    · exact h1
  simp only [builtinsRegister, List.mem_cons, List.not_mem_nil, or_false, Prod.mk.injEq] at hr
  rcases hr with ⟨rfl, hk⟩ | ⟨rfl, hk⟩ | ⟨rfl, hk⟩ | ⟨rfl, hk⟩ | ⟨rfl, hk⟩ | ⟨rfl, hk⟩ | ⟨rfl, hk⟩ |
    ⟨rfl, hk⟩ | ⟨rfl, hk⟩ | ⟨rfl, hk⟩ | ⟨rfl, hk⟩ | ⟨rfl, hk⟩ | ⟨rfl, hk⟩ | ⟨rfl, hk⟩ | ⟨rfl, hk⟩ | ⟨rfl, hk⟩
  · have : b = .abs := by
      have h : builtinsMap.lookup (str "abs") = some .abs := by decide +kernel
      exact Option.some.inj (hb.symm.trans h)
    subst this
    refine one (fun v => rfl) (fun v => look_ne fun x => ?_) (by have := arity hk (by decide); omega)
    split
    · split
      · refine res_ne ?_
        unfold Sem.exact
        split <;> simp
      · simp
    · simp
    · simp
  · have : b = .min := by
      have h : builtinsMap.lookup (str "min") = some .min := by decide +kernel
      exact Option.some.inj (hb.symm.trans h)
    subst this
    exact two (fun x y => rfl) (fun x y => hpk _ _ _) (by have := arity hk (by decide); omega)
  · have : b = .max := by
      have h : builtinsMap.lookup (str "max") = some .max := by decide +kernel
      exact Option.some.inj (hb.symm.trans h)
    subst this
    exact two (fun x y => rfl) (fun x y => hpk _ _ _) (by have := arity hk (by decide); omega)
  · have : b = .bitand := by
      have h : builtinsMap.lookup (str "bitand") = some .bitand := by decide +kernel
      exact Option.some.inj (hb.symm.trans h)
    subst this
    refine two (fun x y => rfl) (fun x y => look_ne fun _ => look_ne fun _ => ?_)
      (by have := arity hk (by decide); omega)
    split <;> simp
  · have : b = .sin := by
      have h : builtinsMap.lookup (str "sin") = some .sin := by decide +kernel
      exact Option.some.inj (hb.symm.trans h)
    subst this
    exact one (fun v => rfl) (fun v => hm _ _) (by have := arity hk (by decide); omega)
  · have : b = .cos := by
      have h : builtinsMap.lookup (str "cos") = some .cos := by decide +kernel
      exact Option.some.inj (hb.symm.trans h)
    subst this
    exact one (fun v => rfl) (fun v => hm _ _) (by have := arity hk (by decide); omega)
  · have : b = .tan := by
      have h : builtinsMap.lookup (str "tan") = some .tan := by decide +kernel
      exact Option.some.inj (hb.symm.trans h)
    subst this
    exact one (fun v => rfl) (fun v => hm _ _) (by have := arity hk (by decide); omega)
  · have : b = .len := by
      have h : builtinsMap.lookup (str "len") = some .len := by decide +kernel
      exact Option.some.inj (hb.symm.trans h)
    subst this
    refine one (fun v => rfl) (fun v => look_ne fun x => ?_) (by have := arity hk (by decide); omega)
    split <;> simp
  · have : b = .chr := by
      have h : builtinsMap.lookup (str "chr") = some .chr := by decide +kernel
      exact Option.some.inj (hb.symm.trans h)
    subst this
    refine one (fun v => rfl) (fun v => look_ne fun x => ?_) (by have := arity hk (by decide); omega)
    split <;> simp
  · have : b = .round := by
      have h : builtinsMap.lookup (str "round") = some .round := by decide +kernel
      exact Option.some.inj (hb.symm.trans h)
    subst this
    exact one (fun v => rfl) (fun v => hm _ _) (by have := arity hk (by decide); omega)
  · have : b = .ceil := by
      have h : builtinsMap.lookup (str "ceil") = some .ceil := by decide +kernel
      exact Option.some.inj (hb.symm.trans h)
    subst this
    exact one (fun v => rfl) (fun v => hm _ _) (by have := arity hk (by decide); omega)
  · have : b = .floor := by
      have h : builtinsMap.lookup (str "floor") = some .floor := by decide +kernel
      exact Option.some.inj (hb.symm.trans h)
    subst this
    exact one (fun v => rfl) (fun v => hm _ _) (by have := arity hk (by decide); omega)
  · have : b = .sqrt := by
      have h : builtinsMap.lookup (str "sqrt") = some .sqrt := by decide +kernel
      exact Option.some.inj (hb.symm.trans h)
    subst this
    exact one (fun v => rfl) (fun v => hm _ _) (by have := arity hk (by decide); omega)
  · have : b = .new_thread := by
      have h : builtinsMap.lookup (str "new_thread") = some .new_thread := by decide +kernel
      exact Option.some.inj (hb.symm.trans h)
    subst this
    cases args with
    | nil => simp [Sem.builtin]
    | cons f args =>
      refine look_ne (v := f) fun x => ?_
      split
      · split
        · simp
        · split
          · simp
          · split <;> simp
      · simp
  · have : b = .wait := by
      have h : builtinsMap.lookup (str "wait") = some .wait := by decide +kernel
      exact Option.some.inj (hb.symm.trans h)
    subst this
    refine one (fun v => rfl) (fun v => look_ne fun x => ?_) (by have := arity hk (by decide); omega)
    split
    · simp
    · simp
    · rename_i o _ ho
      exact res_ne (hint ho)
  · have : b = .new_array := by
      have h : builtinsMap.lookup (str "new_array") = some .new_array := by decide +kernel
      exact Option.some.inj (hb.symm.trans h)
    subst this
    refine one (fun v => rfl) (fun v => look_ne fun x => ?_) (by have := arity hk (by decide); omega)
    split
    · simp
    · split <;> simp
    · rename_i o _ ho
      exact res_ne (hint ho)

theorem ofPtr_ptr (b : Builtin) : Builtin.ofPtr b.ptr = some b := by cases b <;> decide
theorem ofPtr_host (b : HostFn) : Builtin.ofPtr b.ptr = none := by
  cases b with
  | sdl fn => cases fn <;> decide
  | _ => decide
theorem hostOfPtr_ptr (b : HostFn) : HostFn.ofPtr b.ptr = some b := by
  cases b with
  | sdl fn => cases fn <;> decide
  | _ => decide

/-- The functions of the driver. -/
theorem hostFn_good {fl : FloatOps} {b : HostFn} {args : List Val} (hw : StateOk K w) :
    HostGood K w (Sem.hostFn fl b args w) := by
  have io : ∀ x, StateOk K { w with io := x } := fun _ => ⟨hw.mem, hw.globals, hw.before, hw.after⟩
  unfold Sem.hostFn
  split
  · refine .look fun x => ?_
    split
    · trivial
    · exact ⟨io _, trivial, Nat.le_refl _⟩
    · exact .bad hw
  · refine .look fun x => ?_
    split
    · trivial
    · exact ⟨io _, trivial, Nat.le_refl _⟩
    · exact .bad hw
  · split
    · exact .val hw trivial
    · exact ⟨io _, trivial, Nat.le_refl _⟩
  · split
    · trivial
    · exact ⟨io _, trivial, Nat.le_refl _⟩
  · exact ⟨io _, trivial, Nat.le_refl _⟩
  · split
    · refine .lookAll (fun xs => ?_) _ _
      split
      · trivial
      · rename_i d r _
        exact ⟨io _, by cases r <;> trivial, Nat.le_refl _⟩
    · trivial
  · trivial

/-- Every registered host function is bound to a built-in or to a function of the driver. -/
theorem lookup_registered {names : List (Str × HostFn)} {own : List (Str × Int × HostFn)} (hd : IsDriver names own)
    {n : Str} {k : Int} (h : (n, k) ∈ builtinsRegister ++ own.map fun x => (x.1, x.2.1)) :
    ((n, k) ∈ builtinsRegister ∧ ∃ b, builtinsMap.lookup n = some b) ∨
    (builtinsMap.lookup n = none ∧ ∃ b, names.lookup n = some b ∧ (n, k, b) ∈ own) := by
  rcases List.mem_append.1 h with h | h
  · have : ∀ x ∈ builtinsRegister, (builtinsMap.lookup x.1).isSome = true := by decide +kernel
    exact .inl ⟨h, Option.isSome_iff_exists.1 (this (n, k) h)⟩
  · have h1 : ∀ x ∈ own, builtinsMap.lookup x.1 = none ∧ names.lookup x.1 = some x.2.2 := by
      cases hd <;> decide +kernel
    obtain ⟨⟨n', k', b⟩, hx, he⟩ := List.mem_map.1 h
    cases he
    obtain ⟨h3, h4⟩ := h1 _ hx
    exact .inr ⟨h3, b, h4, hx⟩

theorem lookAll_ne {f : List View → Res Val} (h : ∀ xs, f xs ≠ .undef) :
    ∀ (vs : List Val) (acc : List View), Sem.lookAll vs acc w f ≠ .undef
  | [], acc => h acc
  | _ :: vs, _ => look_ne fun _ => lookAll_ne h vs _

theorem sdlOwn_spec : ∀ x ∈ sdlOwn, ∃ fn : Sdl.Fn, x = (fn.name, (fn.arity : Int), HostFn.sdl fn) := by
  intro x hx
  simp only [sdlOwn, List.mem_cons, List.not_mem_nil, or_false] at hx
  rcases hx with rfl | rfl | rfl | rfl | rfl | rfl | rfl | rfl | rfl | rfl
  · exact ⟨.cls, rfl⟩
  · exact ⟨.rand, rfl⟩
  · exact ⟨.video, rfl⟩
  · exact ⟨.plot, rfl⟩
  · exact ⟨.flip, rfl⟩
  · exact ⟨.setrgb, rfl⟩
  · exact ⟨.circle, rfl⟩
  · exact ⟨.line, rfl⟩
  · exact ⟨.sleep, rfl⟩
  · exact ⟨.keydown, rfl⟩

theorem sdlFn_answers {fl : FloatOps} {n : Str} {b : HostFn} {a : Option Nat} (hr : (n, countOf a, b) ∈ sdlOwn)
    {args : List Val} (ha : a = none ∨ a = some args.length) : Sem.hostFn fl b args w ≠ .undef := by
  obtain ⟨fn, h⟩ := sdlOwn_spec _ hr
  simp only [Prod.mk.injEq] at h
  obtain ⟨-, h1, rfl⟩ := h
  have hl : args.length = fn.arity := by
    rcases ha with rfl | rfl
    · simp [countOf] at h1 <;> omega
    · simp only [countOf] at h1; omega
  show (if args.length = fn.arity then _ else _) ≠ _
  rw [if_pos hl]
  refine lookAll_ne (fun xs => ?_) _ _
  split <;> simp

theorem lookAll_fault {g : List View → Res Val} {f : Fault} : ∀ (vs : List Val) (acc : List View) (as : List Val),
    ValsOk K w.mem.length vs → LookLike as acc → Sem.lookAll vs acc w g = .fault f →
    ∃ xs, LookLike (vs.reverse ++ as) xs ∧ g xs = .fault f
  | [], acc, as, _, ha, h => ⟨acc, ha, h⟩
  | v :: vs, acc, as, hv, ha, h => by
    obtain ⟨y, h1, h2⟩ := look_fault rfl (hv v (by simp)) h
    obtain ⟨xs, h3, h4⟩ := lookAll_fault vs (y :: acc) (v :: as) (fun x hx => hv x (by simp [hx])) (.cons h1 ha) h2
    exact ⟨xs, by simpa using h3, h4⟩

theorem sdlFn_faults {fl : FloatOps} {n : Str} {k : Int} {b : HostFn} (hr : (n, k, b) ∈ sdlOwn)
    {args : List Val} (ha : ValsOk K w.mem.length args) {f : Fault}
    (h : Sem.hostFn fl b args w = .fault f) : HostFault fl w.io n args f := by
  obtain ⟨fn, hn⟩ := sdlOwn_spec _ hr
  simp only [Prod.mk.injEq] at hn
  obtain ⟨rfl, -, rfl⟩ := hn
  have h : (if args.length = fn.arity then _ else _) = _ := h
  by_cases hl : args.length = fn.arity
  · rw [if_pos hl] at h
    obtain ⟨xs, h1, h2⟩ := lookAll_fault _ _ [] ha.reverse .nil h
    rw [List.reverse_reverse, List.append_nil] at h1
    split at h2
    · rename_i h3
      cases h2
      exact .graphics h1 h3
    · cases h2
  · rw [if_neg hl] at h
    cases h

theorem cmdFn_answers {fl : FloatOps} {n : Str} {b : HostFn} {a : Option Nat} (hr : (n, countOf a, b) ∈ driverOwn)
    {args : List Val} (ha : a = none ∨ a = some args.length) : Sem.hostFn fl b args w ≠ .undef := by
  have arity : ∀ {k : Int}, countOf a = k → 0 ≤ k → (args.length : Int) = k := by
    intro k h1 h2
    rcases ha with rfl | rfl
    · simp [countOf] at h1; omega
    · exact h1
  have one : countOf a = 1 → ∃ v, args = [v] := by
    intro h
    have := arity h (by decide)
    match args, this with
    | [v], _ => exact ⟨v, rfl⟩
  have zero : countOf a = 0 → args = [] := by
    intro h
    have := arity h (by decide)
    exact List.eq_nil_of_length_eq_zero (by omega)
  simp only [driverOwn, List.mem_cons, List.not_mem_nil, or_false, Prod.mk.injEq] at hr
  rcases hr with ⟨-, hk, rfl⟩ | ⟨-, hk, rfl⟩ | ⟨-, hk, rfl⟩ | ⟨-, hk, rfl⟩ | ⟨-, hk, rfl⟩ | ⟨-, hk, rfl⟩
  · obtain ⟨v, rfl⟩ := one hk
    refine look_ne (v := v) fun x => ?_
    split <;> simp
  · rw [zero hk]
    simp only [Sem.hostFn]
    split <;> simp
  · obtain ⟨v, rfl⟩ := one hk
    refine look_ne (v := v) fun x => ?_
    split <;> simp
  · rw [zero hk]
    simp only [Sem.hostFn]
    split <;> simp
  · rw [zero hk]
    simp [Sem.hostFn]
  · obtain ⟨v, rfl⟩ := one hk
    refine look_ne (v := v) fun x => ?_
    split <;> simp

theorem view_none {m : Store} {v : Val} (h : v.view m = .ok .none) : v = .none := by
  cases v <;> simp [Val.view] at h
  · rfl
  · split at h <;> cases h

theorem cmdFn_faults {n : Str} {k : Int} {b : HostFn} (hr : (n, k, b) ∈ driverOwn) {fl : FloatOps}
    {args : List Val} (ha : ValsOk K w.mem.length args) {f : Fault}
    (h : Sem.hostFn fl b args w = .fault f) : HostFault fl w.io n args f := by
  have out : ∀ {v : Val} {g : View → Res Val}, ValOk K w.mem.length v → Sem.look v w g = .fault f →
      (∀ x, g x = .fault f → x = .none ∧ f = .assert) → v = .none ∧ f = .assert := by
    intro v g hv h hg
    obtain ⟨y, h1, h2⟩ := look_fault rfl hv h
    obtain ⟨rfl, h3⟩ := hg y h2
    exact ⟨view_none h1, h3⟩
  have one : ∀ v, args = [v] → ValOk K w.mem.length v := fun v h => ha v (by simp [h])
  have putc : b = .putc → args = [.none] ∧ f = .assert := by
    rintro rfl
    match args, h, one with
    | [v], h, one =>
      obtain ⟨rfl, h'⟩ := out (one v rfl) h fun x hx => by
        split at hx <;> cases hx
        exact ⟨rfl, rfl⟩
      exact ⟨rfl, h'⟩
    | [], h, _ => cases h
    | _ :: _ :: _, h, _ => cases h
  have puts : b = .puts → args = [.none] ∧ f = .assert := by
    rintro rfl
    match args, h, one with
    | [v], h, one =>
      obtain ⟨rfl, h'⟩ := out (one v rfl) h fun x hx => by
        split at hx <;> cases hx
        exact ⟨rfl, rfl⟩
      exact ⟨rfl, h'⟩
    | [], h, _ => cases h
    | _ :: _ :: _, h, _ => cases h
  simp only [driverOwn, List.mem_cons, List.not_mem_nil, or_false, Prod.mk.injEq] at hr
  rcases hr with ⟨rfl, -, rfl⟩ | ⟨rfl, -, rfl⟩ | ⟨rfl, -, rfl⟩ | ⟨rfl, -, rfl⟩ | ⟨rfl, -, rfl⟩ | ⟨rfl, -, rfl⟩
  · obtain ⟨rfl, rfl⟩ := putc rfl
    exact .putc
  · match args, h with
    | [], h =>
      simp only [Sem.hostFn] at h
      split at h <;> cases h
    | _ :: _, h => cases h
  · obtain ⟨rfl, rfl⟩ := puts rfl
    exact .puts
  · match args, h with
    | [], h =>
      simp only [Sem.hostFn] at h
      by_cases hi : w.io.input = []
      · simp only [hi, if_true] at h
        cases h
        exact .gets hi
      · simp only [hi, if_false] at h
        cases h
    | _ :: _, h => cases h
  · match args, h with
    | [], h => cases h
    | _ :: _, h => cases h
  · obtain ⟨rfl, rfl⟩ := puts rfl
    exact .print

theorem hostFn_answers {names : List (Str × HostFn)} {own : List (Str × Int × HostFn)} (hd : IsDriver names own)
    {fl : FloatOps} {n : Str} {b : HostFn} {a : Option Nat} (hr : (n, countOf a, b) ∈ own)
    {args : List Val} (ha : a = none ∨ a = some args.length) : Sem.hostFn fl b args w ≠ .undef := by
  cases hd with
  | cmd => exact cmdFn_answers hr ha
  | sdl => exact sdlFn_answers hr ha

theorem hostFn_faults {names : List (Str × HostFn)} {own : List (Str × Int × HostFn)} (hd : IsDriver names own)
    {fl : FloatOps} {n : Str} {k : Int} {b : HostFn} (hr : (n, k, b) ∈ own)
    {args : List Val} (ha : ValsOk K w.mem.length args) {f : Fault}
    (h : Sem.hostFn fl b args w = .fault f) : HostFault fl w.io n args f := by
  cases hd with
  | cmd => exact cmdFn_faults hr ha h
  | sdl => exact sdlFn_faults hr ha h

/-- The host functions are sound for a compiled program. -/
theorem std_sound {fl : FloatOps} {names : List (Str × HostFn)} {own : List (Str × Int × HostFn)}
    (hd : IsDriver names own) (L : InPlace K e) (hs : e.prog.code.length < 2147483648)
    (he : e.prog = resolveWith names prog) (hq : K.q = q) (hsys : K.sys = prog.syscalls)
    (hsm : prog.syscalls.length < 2147483648) (hr : Standard own q) :
    HostSound K (stdCtx q prog fl names) := by
  have good : ∀ fn args w, ValsOk K w.mem.length args → StateOk K w →
      HostGood K w ((stdCtx q prog fl names).host fn args w) := by
    intro fn args w ha hw
    simp only [stdCtx, Sem.builtins]
    split
    · rw [← he]
      exact builtin_good L hs hw ha
    · split
      · exact hostFn_good hw
      · trivial
  have entry : ∀ {n j}, sysIndex prog.syscalls n = some j → ∃ hj : j < prog.syscalls.length,
      prog.syscalls[j].name = n := by
    intro n j h2
    unfold sysIndex at h2
    obtain ⟨hj, hn, -⟩ := List.findIdx?_eq_some_iff_getElem.1 h2
    exact ⟨hj, by simpa using hn⟩
  have ent1 : ∀ {n j} {b : Builtin} (hj : j < prog.syscalls.length), prog.syscalls[j].name = n →
      builtinsMap.lookup n = some b →
      ∃ y, (stdCtx q prog fl names).table[j]? = some y ∧ y.name = n ∧ y.call = some b.ptr := by
    intro n j b hj hn hb
    simp only [stdCtx, resolveWith, builtinsResolve, List.getElem?_map, List.getElem?_eq_getElem hj,
      Option.map_some]
    cases names.lookup prog.syscalls[j].name <;> simp only [hn, hb] <;> exact ⟨_, rfl, rfl, rfl⟩
  have ent2 : ∀ {n j} {b : HostFn} (hj : j < prog.syscalls.length), prog.syscalls[j].name = n →
      builtinsMap.lookup n = none → names.lookup n = some b →
      ∃ y, (stdCtx q prog fl names).table[j]? = some y ∧ y.name = n ∧ y.call = some b.ptr := by
    intro n j b hj hn hb hm
    simp only [stdCtx, resolveWith, builtinsResolve, List.getElem?_map, List.getElem?_eq_getElem hj,
      Option.map_some, hn, hm, hb]
    exact ⟨_, rfl, rfl, rfl⟩
  refine ⟨?_, ?_, ?_, ?_⟩
  · intro fn args w v w' ha hw h
    have := good fn args w ha hw
    rw [h] at this
    exact this
  · intro fn args w v w' ha hw h
    have := good fn args w ha hw
    rw [h] at this
    exact this
  · intro n a j args w h1 h2 h3
    rw [hq] at h1
    rw [hsys] at h2
    obtain ⟨hj, hn⟩ := entry h2
    unfold hostCall
    rw [toInt_i32 (by omega), if_neg (by omega), Int.toNat_natCast]
    rcases lookup_registered hd (hr n a h1) with ⟨hreg, b, hb⟩ | ⟨hb, b, hm, hown⟩
    · obtain ⟨y, hy, -, hc⟩ := ent1 hj hn hb
      simp only [hy, hc]
      simp only [stdCtx, Sem.builtins, ofPtr_ptr]
      exact builtin_answers hreg hb h3
    · obtain ⟨y, hy, -, hc⟩ := ent2 hj hn hb hm
      simp only [hy, hc]
      simp only [stdCtx, Sem.builtins, ofPtr_host, hostOfPtr_ptr]
      exact hostFn_answers hd hown h3
  · intro n a j args w f h1 h2 h3 ha hf
    rw [hq] at h1
    rw [hsys] at h2
    obtain ⟨hj, hn⟩ := entry h2
    unfold hostCall at hf
    rw [toInt_i32 (by omega), if_neg (by omega), Int.toNat_natCast] at hf
    rcases lookup_registered hd (hr n a h1) with ⟨hreg, b, hb⟩ | ⟨hb, b, hm, hown⟩
    · obtain ⟨y, hy, hyn, hc⟩ := ent1 hj hn hb
      simp only [hy, hc] at hf
      simp only [stdCtx, Sem.builtins, ofPtr_ptr] at hf
      refine ⟨y, hy, ?_⟩
      rw [hyn]
      exact builtin_faults hb ha hf
    · obtain ⟨y, hy, hyn, hc⟩ := ent2 hj hn hb hm
      simp only [hy, hc] at hf
      simp only [stdCtx, Sem.builtins, ofPtr_host, hostOfPtr_ptr] at hf
      refine ⟨y, hy, ?_⟩
      rw [hyn]
      exact hostFn_faults hd hown ha hf

end

end
end Ccml
