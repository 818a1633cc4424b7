import Verif.ProgramLemmas
/-!
Properties of the program tables and the program file: C01, C02, and the table part of
C47 and C52.
-/
namespace Ccml.Props
open Ccml

/-! ### Specification -/

/-- A text the file format can carry: shorter than 256 bytes, no NUL byte. -/
def TextOk (s : Str) : Prop := s.length < 256 ∧ ∀ b ∈ s, b ≠ 0

/-- A count the file format can carry. -/
def CountOk (n : Nat) : Prop := n < 2147483648

/-- Programs the file format can carry. -/
structure Savable (p : Program) : Prop where
  syscallNames : ∀ s ∈ p.syscalls, TextOk s.name
  functionNames : ∀ f ∈ p.functions, TextOk f.name
  localNames : ∀ f ∈ p.functions, ∀ i ∈ f.locals, TextOk i.name
  argNames : ∀ f ∈ p.functions, ∀ i ∈ f.args, TextOk i.name
  texts : ∀ s ∈ p.strings, TextOk s
  nSyscalls : CountOk p.syscalls.length
  nFunctions : CountOk p.functions.length
  nLocals : ∀ f ∈ p.functions, CountOk f.locals.length
  nArgs : ∀ f ∈ p.functions, CountOk f.args.length
  nCode : CountOk p.code.length
  nLines : CountOk p.lines.length
  nStrings : CountOk p.strings.length
  /-- the representation invariant of `std::map` -/
  linesSorted : p.lines.Sorted

/-- What a reload must give back: the same program with unbound system calls and an empty
list of global names. -/
def reloaded (p : Program) : Program :=
  { p with globals := [], syscalls := p.syscalls.map fun s => { s with call := none } }

/-! ### Proofs -/

theorem codec_ident (i : Ident) (h : TextOk i.name) : Codec readIdent (saveIdent i) i := by
  refine Codec.bind (Codec.str _ h.1 h.2) ?_
  exact Codec.map (fun o => (⟨i.name, o⟩ : Ident)) (Codec.i32 i.offset)

theorem codec_function (f : Function) (h1 : TextOk f.name) (h2 : ∀ i ∈ f.locals, TextOk i.name)
    (h3 : ∀ i ∈ f.args, TextOk i.name) (h4 : CountOk f.locals.length)
    (h5 : CountOk f.args.length) : Codec readFunction (saveFunction f) f := by
  unfold readFunction saveFunction
  simp only [List.append_assoc]
  refine Codec.bind (Codec.str _ h1.1 h1.2) ?_
  refine Codec.bind (Codec.i32 _) ?_
  refine Codec.bind (Codec.i32 _) ?_
  refine Codec.bind (Codec.list _ h4 fun i hi => codec_ident i (h2 i hi)) ?_
  exact Codec.map (fun a => (⟨f.name, f.codeStart, f.codeEnd, f.locals, a⟩ : Function))
    (Codec.list _ h5 fun i hi => codec_ident i (h3 i hi))

theorem codec_line (e : I32 × Line) : Codec readLine (saveLine e) e := by
  obtain ⟨pc, f, l⟩ := e
  unfold readLine saveLine
  simp only [List.append_assoc]
  refine Codec.bind (Codec.i32 _) ?_
  refine Codec.bind (Codec.i32 _) ?_
  exact Codec.map (fun l => (pc, (⟨f, l⟩ : Line))) (Codec.i32 l)

theorem codec_lines (t : LineTable) (hs : t.Sorted) (h : CountOk t.length) :
    Codec readLines (saveList saveLine t) t := by
  have e := LineTable.fold_set t hs [] (by simp)
  have := Codec.map (fun es : List (I32 × Line) =>
    es.foldl (fun t e => LineTable.set t e.1 e.2) []) (Codec.list t h fun e _ => codec_line e)
  rw [e] at this
  exact this

/-- The system-call part, which ignores read errors, together with the count that follows. -/
theorem names_cut (names : List Str) (h : ∀ s ∈ names, TextOk s) :
    ∀ pre suf, names.flatMap saveStr = pre ++ suf → suf ≠ [] →
      ∃ l, readMany readName names.length pre = .ok (some (l, [])) := by
  have nilcase : ∀ n, ∃ l, readMany readName n [] = .ok (some (l, [])) := by
    intro n
    induction n with
    | zero => exact ⟨[], rfl⟩
    | succ n ih =>
      obtain ⟨l, hl⟩ := ih
      refine ⟨[] :: l, ?_⟩
      have : readName [] = .ok (some ([], [])) := rfl
      simp [readMany, Rd.bind, this, hl, Rd.pure]
  induction names with
  | nil =>
    intro pre suf e hs
    have := List.append_eq_nil_iff.mp e.symm
    exact absurd this.2 hs
  | cons a t ih =>
    intro pre suf e hs
    have ha := Codec.str a (h a (by simp)).1 (h a (by simp)).2
    rw [List.flatMap_cons] at e
    rcases prefix_split e hs with ⟨s, e1, hne⟩ | ⟨p, e1, e2⟩
    · obtain ⟨l, hl⟩ := nilcase t.length
      refine ⟨[] :: l, ?_⟩
      simp [readMany, Rd.bind, readName, ha.cut pre s e1 hne, hl, Rd.pure]
    · subst e1
      obtain ⟨l, hl⟩ := ih (fun s hs => h s (by simp [hs])) p suf e2 hs
      refine ⟨a :: l, ?_⟩
      simp [readMany, Rd.bind, readName, ha.reads, hl, Rd.pure]

theorem names_read (names : List Str) (h : ∀ s ∈ names, TextOk s) (rest : List Byte) :
    readMany readName names.length (names.flatMap saveStr ++ rest) = .ok (some (names, rest)) := by
  induction names generalizing rest with
  | nil => rfl
  | cons a t ih =>
    have ha := Codec.str a (h a (by simp)).1 (h a (by simp)).2
    have := ih (fun s hs => h s (by simp [hs])) rest
    simp [readMany, Rd.bind, readName, List.flatMap_cons, List.append_assoc, ha.reads, this, Rd.pure]

/-- Sequencing after the system-call names: the error that their reader hides surfaces in the
reader that follows, provided that one needs at least one byte. -/
theorem codec_names {β : Type} (names : List Str) (hl : CountOk names.length)
    (h : ∀ s ∈ names, TextOk s) (f : List Str → Rd β) (w : List Byte) (b : β)
    (hf : Codec (f names) w b) (hempty : ∀ l, f l [] = .ok none) :
    Codec (Rd.bind (readList readName) f) (saveList saveStr names ++ w) b := by
  have e : Rd.bind (readList readName) f =
      Rd.bind readI32 fun n => Rd.bind (readMany readName n.toInt.toNat) f := by
    funext r
    simp only [Rd.bind, readList]
    cases readI32 r with
    | error => rfl
    | ok o =>
      cases o with
      | none => rfl
      | some x => rfl
  rw [e, saveList, List.append_assoc]
  refine Codec.bind (Codec.i32 _) ?_
  rw [size32_toInt hl, Int.toNat_natCast]
  constructor
  · intro rest
    simp [Rd.bind, List.append_assoc, names_read names h, hf.reads]
  · intro pre suf e hs
    rcases prefix_split e hs with ⟨s, e1, hne⟩ | ⟨p, e1, e2⟩
    · obtain ⟨l, hl⟩ := names_cut names h pre s e1 hne
      simp [Rd.bind, hl, hempty]
    · subst e1
      simp [Rd.bind, names_read names h, hf.cut p suf e2 hs]

theorem codec_program (p : Program) (h : Savable p) :
    ∃ m : Rd Program, Codec m (serialSave p) (reloaded p) ∧
      ∀ file, serialLoad file = (match m file with
        | .error e => .error e
        | .ok none => .ok none
        | .ok (some (p, _)) => .ok (some p)) := by
  refine ⟨_, ?_, fun file => rfl⟩
  have hnames : saveList (fun s : Syscall => saveStr s.name) p.syscalls =
      saveList saveStr (p.syscalls.map (·.name)) := by
    simp [saveList, List.flatMap_map]
  have hlen : (p.syscalls.map (·.name)).length = p.syscalls.length := by simp
  unfold serialSave
  simp only [List.append_assoc]
  refine Codec.bind (Codec.i32 magic) ?_
  rw [if_neg (by simp), hnames]
  refine codec_names _ (by rw [hlen]; exact h.nSyscalls)
    (by intro s hs; obtain ⟨a, ha, rfl⟩ := List.mem_map.mp hs; exact h.syscallNames a ha) _ _ _ ?_ ?_
  · refine Codec.bind (Codec.list _ h.nFunctions fun f hf => codec_function f
      (h.functionNames f hf) (h.localNames f hf) (h.argNames f hf) (h.nLocals f hf) (h.nArgs f hf)) ?_
    refine Codec.bind (Codec.i32 _) ?_
    have en : (size32 p.code.length).toInt = p.code.length := size32_toInt h.nCode
    have en2 : (size32 p.code.length).toNat = p.code.length := size32_toNat h.nCode
    rw [if_neg (by omega), en2]
    refine Codec.bind (Codec.bytes p.code) ?_
    refine Codec.bind (codec_lines _ h.linesSorted h.nLines) ?_
    have := Codec.map (fun strings => (⟨[], (p.syscalls.map (·.name)).map fun s => ⟨s, none⟩,
      p.functions, p.code, p.lines, strings⟩ : Program))
      (Codec.list p.strings h.nStrings fun s hs => Codec.str s (h.texts s hs).1 (h.texts s hs).2)
    simpa [reloaded, List.map_map, Function.comp_def] using this
  · intro l; rfl

/-- C01: a saved program loads back unchanged (up to unbound system calls and the list of
global names); bytes after the end of the saved data do not matter. -/
theorem C01_load_save (p : Program) (h : Savable p) (extra : List Byte) :
    serialLoad (serialSave p ++ extra) = .ok (some (reloaded p)) := by
  obtain ⟨m, hc, hm⟩ := codec_program p h
  rw [hm, hc.reads]

/-- C01: two programs with the same file have the same code and tables. -/
theorem C01_save_injective (p q : Program) (hp : Savable p) (hq : Savable q)
    (h : serialSave p = serialSave q) : reloaded p = reloaded q := by
  have h1 := C01_load_save p hp []
  have h2 := C01_load_save q hq []
  rw [h, h2] at h1
  simpa using h1.symm

/-- C02: no strict prefix of a saved file is accepted, and reading it is clean (no assertion,
no exception, no undefined behaviour). -/
theorem C02_truncated_refused (p : Program) (h : Savable p) (pre suf : List Byte)
    (hfile : serialSave p = pre ++ suf) (hcut : suf ≠ []) : serialLoad pre = .ok none := by
  obtain ⟨m, hc, hm⟩ := codec_program p h
  rw [hm, hc.cut pre suf hfile hcut]

/-- A non-trivial program used to show that the hypotheses can be met. -/
def sampleProgram : Program where
  globals := [⟨str "g", 0⟩]
  syscalls := [⟨str "wait", some 3⟩]
  functions := [⟨str "main", 0, 11, [⟨str "x", 0⟩], [⟨str "a", -1⟩, ⟨str "b", -2⟩]⟩]
  code := [29, 1, 0, 0, 0, 25, 18, 3, 0, 0, 0]
  lines := [(0, ⟨0, 1⟩), (5, ⟨0, 2⟩)]
  strings := [str "hello", []]

theorem sampleSavable : Savable sampleProgram := by
  constructor <;> simp [sampleProgram, TextOk, CountOk, LineTable.Sorted] <;> decide

example : serialLoad (serialSave sampleProgram) = .ok (some (reloaded sampleProgram)) := by
  simpa using C01_load_save sampleProgram sampleSavable []

/-- C01, limits of the format: a text of 256 bytes or more can be saved but not loaded. -/
theorem C01_long_text_not_loadable :
    ∃ p : Program, (∀ s ∈ p.strings, ∀ b ∈ s, b ≠ 0) ∧
      serialLoad (serialSave p) = .error .assert := by
  refine ⟨{ Program.empty with strings := [List.replicate 256 65] }, ?_, by decide +kernel⟩
  intro s hs b hb
  have hs : s = List.replicate 256 65 := List.mem_singleton.mp hs
  subst hs
  rw [List.mem_replicate] at hb
  rw [hb.2]; decide

/-- C01, limits of the format: a text with a NUL byte comes back shortened. -/
theorem C01_nul_text_shortened :
    ∃ p : Program, ∃ q, serialLoad (serialSave p) = .ok (some q) ∧ q.strings ≠ p.strings :=
  ⟨{ Program.empty with strings := [[65, 0, 66]] }, { Program.empty with strings := [[65]] },
    by decide +kernel, by decide⟩

/-! ### C47, C52: tables -/

/-- C47: resolving binds every entry of that name, no other entry, and keeps names, order and
everything else; the result tells whether the name occurs. -/
theorem C47_resolve (p : Program) (name : Str) (fn : FnPtr) :
    (p.resolve name fn).1.syscalls.map (·.name) = p.syscalls.map (·.name) ∧
    (∀ (i : Nat) (s : Syscall), p.syscalls[i]? = some s →
      (p.resolve name fn).1.syscalls[i]? =
        some { name := s.name, call := if s.name = name then some fn else s.call }) ∧
    ((p.resolve name fn).2 = true ↔ name ∈ p.syscalls.map (·.name)) ∧
    (p.resolve name fn).1 = { p with syscalls := (p.resolve name fn).1.syscalls } := by
  refine ⟨?_, ?_, ?_, rfl⟩
  · simp only [Program.resolve, List.map_map]
    apply List.map_congr_left
    intro s _
    simp only [Function.comp]
    split <;> rfl
  · intro i s hs
    simp only [Program.resolve, List.getElem?_map, hs, Option.map_some]
    by_cases e : s.name = name <;> simp [e]
  · simp [Program.resolve, List.any_eq_true]

example : (sampleProgram.resolve (str "wait") 9).1.syscalls = [⟨str "wait", some 9⟩] := by decide

/-- C52: look-up by name gives the first function of that name. -/
theorem C52_find_by_name (p : Program) (name : Str) (f : Function) :
    p.findByName name = some f ↔
      ∃ before after, p.functions = before ++ f :: after ∧ f.name = name ∧
        ∀ g ∈ before, g.name ≠ name := by
  unfold Program.findByName
  rw [List.find?_eq_some_iff_append]
  constructor
  · rintro ⟨h1, before, after, h2, h3⟩
    exact ⟨before, after, h2, by simpa using h1, by simpa using h3⟩
  · rintro ⟨before, after, h2, h1, h3⟩
    exact ⟨by simpa using h1, before, after, h2, by simpa using h3⟩

/-- C52: look-up by address gives the first function whose half-open code range contains it. -/
theorem C52_find_by_pc (p : Program) (pc : I32) (f : Function) :
    p.findByPc pc = some f ↔
      ∃ before after, p.functions = before ++ f :: after ∧
        (f.codeStart.toInt ≤ pc.toInt ∧ pc.toInt < f.codeEnd.toInt) ∧
        ∀ g ∈ before, ¬ (g.codeStart.toInt ≤ pc.toInt ∧ pc.toInt < g.codeEnd.toInt) := by
  unfold Program.findByPc
  rw [List.find?_eq_some_iff_append]
  constructor
  · rintro ⟨h1, before, after, h2, h3⟩
    exact ⟨before, after, h2, by simpa using h1, fun g hg => by have := h3 g hg; simp at this ⊢; omega⟩
  · rintro ⟨before, after, h2, h1, h3⟩
    exact ⟨by simpa using h1, before, after, h2, fun g hg => by have := h3 g hg; simp at this ⊢; omega⟩

example : sampleProgram.findByPc 10 = sampleProgram.findByName (str "main") ∧
    sampleProgram.findByPc 11 = none := by decide

end Ccml.Props
