import Verif.Blame
import Verif.BlamePass
import Verif.Complaint
import Verif.Props.Files
import Verif.Props.Lines
/-!
C84: the place a message of the compiler names.
-/
namespace Ccml.Props

/-- `l` is a line of a text: line 1 or the line behind an end of line.  A NUL in the text ends the line, too, if it
stands in a comment. -/
def LineOf (text : Str) (l : Nat) : Prop :=
  1 ≤ l ∧ l ≤ 1 + text.countP (fun c => c == ch '\n' || c == 0) ∧ (0 ∉ text → l ≤ 1 + text.count (ch '\n'))

/-- File number `i` of a build has this text: it is one of those given or a file that was read later. -/
def TextAt (fs : Str → Option Str) (given : List Source) (i : Nat) (text : Str) : Prop :=
  (∃ src, given[i]? = some src ∧ src.data = some text) ∨ given.length ≤ i ∧ ∃ path, fs path = some text

/-- A place in one of the texts of a build. -/
def PlaceOf (fs : Str → Option Str) (given : List Source) (l : SrcLine) : Prop :=
  ∃ text, TextAt fs given l.file text ∧ LineOf text l.line

theorem line_of {text : Str} {l : Nat} (h1 : 1 ≤ l) (h2 : l ≤ 1 + text.countP Blame.brk) : LineOf text l := by
  refine ⟨h1, h2, fun h0 => ?_⟩
  have : text.countP Blame.brk = text.count (ch '\n') := by
    rw [List.count]
    refine List.countP_congr fun c hc => ?_
    have : c ≠ 0 := fun e => h0 (e ▸ hc)
    have h2 : (c == 0) = false := by simpa using this
    rw [Blame.brk, h2, Bool.or_false]
  omega

/-- The sources known to a build. -/
def FromFiles (fs : Str → Option Str) (given srcs : List Source) : Prop :=
  given.length ≤ srcs.length ∧ ∀ (i : Nat) src text, srcs[i]? = some src → src.data = some text → TextAt fs given i text

theorem grown_files {fs : Str → Option Str} {given ss ss' : List Source} (h : Made.Grown fs ss ss')
    (hs : FromFiles fs given ss) : FromFiles fs given ss' := by
  induction h with
  | refl => exact hs
  | @step ss ss1 ss2 path hl _ ih =>
    refine ih ?_
    unfold loadSource at hl
    split at hl
    · cases hl
      exact hs
    · simp only [Prod.mk.injEq] at hl
      obtain ⟨-, rfl⟩ := hl
      refine ⟨by have := hs.1; rw [List.length_append]; omega, fun i src text hi hd => ?_⟩
      rw [List.getElem?_append] at hi
      split at hi
      · exact hs.2 i src text hi hd
      · rename_i hlt
        refine .inr ⟨by have := hs.1; omega, path, ?_⟩
        have : (Source.fromFile fs path).2 = src := by
          have := List.mem_of_getElem? hi
          exact (List.mem_singleton.1 this).symm
        rw [← this] at hd
        unfold Source.fromFile at hd
        cases hf : fs path with
        | none => rw [hf] at hd; cases hd
        | some t =>
          rw [hf] at hd
          dsimp only at hd
          split at hd
          · cases hd
          · exact hd

theorem item_whole {T : Token → Prop} {x : Item Unit} (h : Made.I T x) :
    Toks.I T T x ∧ ∀ f, x = .func f → ∀ t ∈ f.args, T t := by
  obtain ⟨h1, h2⟩ := made_words h
  cases x with
  | var t c init =>
    have := wordsO_toks (T := T) h1 fun k hk => h2 k (by simp [words, hk])
    exact ⟨⟨h.1, this, fun _ => this⟩, nofun⟩
  | func f =>
    refine ⟨⟨h.1, wordsB_toks (T := T) h1 fun k hk => h2 k (by simp [words, hk]), h.2.2.2.2⟩, fun g hg => ?_⟩
    cases hg
    exact fun t ht => (h.2.2.1 t ht).1
  | syscall n a => cases h

/-- A token the lexer makes of one of the texts of a build. -/
def Written (fs : Str → Option Str) (fl : FloatOps) (given : List Source) (t : Token) : Prop :=
  ∃ text toks, TextAt fs given t.line.file text ∧ lex fl t.line.file text = .ok toks ∧ t ∈ toks

/-- Such a token is in a line of its text. -/
theorem written_place {fs : Str → Option Str} {fl : FloatOps} {given : List Source} {t : Token}
    (h : Written fs fl given t) : PlaceOf fs given t.line := by
  obtain ⟨text, toks, h1, h2, h3⟩ := h
  have := Blame.reads_line (lexLoop_reads fl _ h2) t h3
  exact ⟨text, h1, line_of this.2.1 this.2.2⟩

/-- A message of the lexer about one of the texts, or one of a later pass about a word in it. -/
def Blamed (fs : Str → Option Str) (fl : FloatOps) (given : List Source) (e : CErr) : Prop :=
  (∃ text, TextAt fs given e.line.file text ∧ lex fl e.line.file text = .error (.err e)) ∨
  Blame.Said (Written fs fl given) e

theorem sources_blame {fs : Str → Option Str} {fl : FloatOps} {given : List Source} : ∀ {n i : Nat}
    {srcs : List Source} {left : List PExpr} {acc : Prog Unit}, FromFiles fs given srcs →
    Made.Es (Written fs fl given) left → Blame.Whole (Written fs fl given) acc →
    (∀ e, buildSources fs fl n i srcs left acc = .error (.err e) → Blamed fs fl given e) ∧
    ∀ p ss, buildSources fs fl n i srcs left acc = .ok (p, ss) → Blame.Whole (Written fs fl given) p
  | 0, _, _, _, _, _, _, _ => ⟨nofun, nofun⟩
  | n + 1, i, srcs, left, acc, hs, hl, ha => by
    rw [buildSources]
    split
    · exact ⟨nofun, fun p ss h => by cases h; exact ha⟩
    · rename_i src hi
      split
      · exact ⟨nofun, nofun⟩
      · rename_i text hd
        have hx := hs.2 i src text hi hd
        split
        · rename_i e he
          refine ⟨fun x hx => ?_, nofun⟩
          cases e with
          | err e =>
            cases hx
            have := (Blame.lexLoop_err he).1
            exact .inl ⟨text, by rwa [this], by rwa [this]⟩
          | _ => cases hx
        · rename_i toks ht
          have htk : ∀ t ∈ toks, Written fs fl given t := fun t hm => by
            have := (Blame.reads_line (lexLoop_reads fl i ht) t hm).1
            exact ⟨text, toks, by rwa [this], by rwa [this], hm⟩
          split
          · rename_i he
            refine ⟨fun x hx => ?_, nofun⟩
            cases hx
            exact .inr (Blame.parse_err htk he)
          · rename_i items s hp
            obtain ⟨k1, k2, k3⟩ := Made.parse_made (T := Written fs fl given) (fun t hm _ => htk t hm) hl hp
            refine sources_blame (grown_files k1 hs) k3 fun x hx => ?_
            rcases List.mem_append.1 hx with hx | hx
            · exact ha x hx
            · exact item_whole (k2 x hx)

theorem build_blamed {fs : Str → Option Str} {fl : FloatOps} {L : Layout} {opt : Bool} {sys : List (Str × Option Nat)}
    {n : Nat} {given : List Source} {e : CErr} (h : build fs fl L opt sys n given = .error (.err e)) :
    Blamed fs fl given e := by
  unfold build at h
  split at h
  · cases h
  · rename_i s ss
    obtain ⟨h1, h2⟩ := sources_blame (fs := fs) (fl := fl) (given := s :: ss) (n := n) (i := 0) (srcs := s :: ss)
      (left := []) (acc := registered sys)
      ⟨Nat.le_refl _, fun i src text hi hd => .inl ⟨src, hi, hd⟩⟩ trivial (fun x hx => by
        obtain ⟨y, -, rfl⟩ := List.mem_map.1 hx
        exact ⟨trivial, nofun⟩)
    split at h
    · rename_i hb
      cases h
      exact h1 _ hb
    · rename_i hb
      have h3 := Blame.compile_fine (L := L) (opt := opt) (h2 _ _ hb)
      split at h
      · rename_i hc
        cases h
        exact .inr (h3 _ hc)
      · cases h

/-- The messages that do not quote a word, lib_compiler/errors.h:88-91, 149-151. -/
def fixedMessages : List Str :=
  [str "equals expected after operator for compound assignment", str "constant divide by zero"]

/-- Every message of a build is one the lexer ends with on the text of the file the message names, or it is for the
line in which the lexer found a certain word of that file, and, unless it is one of two fixed messages, it quotes this
word, as far as 1023 characters reach. -/
theorem C84_word {fs : Str → Option Str} {fl : FloatOps} {L : Layout} {opt : Bool} {sys : List (Str × Option Nat)}
    {n : Nat} {given : List Source} {e : CErr} (h : build fs fl L opt sys n given = .error (.err e)) :
    ∃ text, ((∃ src, given[e.line.file]? = some src ∧ src.data = some text) ∨
        given.length ≤ e.line.file ∧ ∃ path, Needed fs fl given path ∧ fs path = some text) ∧
      (lex fl e.line.file text = .error (.err e) ∨
       ∃ toks t full, lex fl e.line.file text = .ok toks ∧ t ∈ toks ∧ t.line = e.line ∧ e.msg = full.take 1023 ∧
        (full ∈ fixedMessages ∨ ∃ w, t.string = .ok w ∧ ch '\'' :: w ++ [ch '\''] <:+: full)) := by
  classical
  let fs' : Str → Option Str := fun p => if Needed fs fl given p then fs p else none
  rw [C83_build fs fs' fl L opt sys n given fun p hp => (if_pos hp).symm] at h
  have hn {text : Str} (ht : TextAt fs' given e.line.file text) :
      (∃ src, given[e.line.file]? = some src ∧ src.data = some text) ∨
        given.length ≤ e.line.file ∧ ∃ path, Needed fs fl given path ∧ fs path = some text := by
    refine ht.imp_right fun ⟨hi, p, hp⟩ => ⟨hi, p, ?_⟩
    by_cases hn : Needed fs fl given p
    · exact ⟨hn, (if_pos hn).symm.trans hp⟩
    · rw [show fs' p = none from if_neg hn] at hp
      cases hp
  rcases build_blamed h with ⟨text, ht, hl⟩ | ⟨t, full, ⟨text, toks, ht, hl, hm⟩, he, hf, hw⟩
  · exact ⟨text, hn ht, .inl hl⟩
  · rw [← he] at ht hl
    exact ⟨text, hn ht, .inr ⟨toks, t, full, hl, hm, he.symm, hf, hw⟩⟩

/-- Every message of a build, of whichever pass, is for a line of one of its texts: that of a source it was given, or
that of a file that can be reached by imports. -/
theorem C84_build {fs : Str → Option Str} {fl : FloatOps} {L : Layout} {opt : Bool} {sys : List (Str × Option Nat)}
    {n : Nat} {given : List Source} {e : CErr} (h : build fs fl L opt sys n given = .error (.err e)) :
    ∃ text, ((∃ src, given[e.line.file]? = some src ∧ src.data = some text) ∨
        given.length ≤ e.line.file ∧ ∃ path, Needed fs fl given path ∧ fs path = some text) ∧
      LineOf text e.line.line := by
  obtain ⟨text, ht, hl | ⟨toks, t, full, hl, hm, he, -⟩⟩ := C84_word h
  · have := Blame.lexLoop_err hl
    exact ⟨text, ht, line_of this.2.1 this.2.2⟩
  · have := Blame.reads_line (lexLoop_reads fl _ hl) t hm
    rw [he] at this
    exact ⟨text, ht, line_of this.2.1 this.2.2⟩

/-- What a driver writes when the compiler reports an error: it is a message of the lexer about a file that was named on
the command line or can be reached from there by imports, or it is for the line of a word of such a file and quotes it,
as far as 1023 characters and the first NUL reach. -/
theorem C84_complaint_word {fs : Str → Option Str} {fl : FloatOps} {L : Layout} {n : Nat}
    {sys : List (Str × Option Nat)} {paths : List Str} {w : Str} (h : driverComplaint fs fl L n sys paths = some w) :
    ∃ (e : CErr) (path text : Str), w = str "file " ++ decimal (BitVec.ofNat 32 e.line.file) ++ str ", line:" ++
        decimal (BitVec.ofNat 32 e.line.line) ++ str " - " ++ cstr e.msg ++ str "\n" ∧
      NeededBy fs fl paths path ∧ fs path = some text ∧
      (lex fl e.line.file text = .error (.err e) ∨
       ∃ toks t full, lex fl e.line.file text = .ok toks ∧ t ∈ toks ∧ t.line = e.line ∧ e.msg = full.take 1023 ∧
        (full ∈ fixedMessages ∨ ∃ w, t.string = .ok w ∧ ch '\'' :: w ++ [ch '\''] <:+: full)) := by
  unfold driverComplaint at h
  split at h
  · cases h
  · rename_i srcs hl
    split at h
    · rename_i e hb
      cases h
      obtain ⟨-, h2⟩ := loadFiles_needed (fs := fs) (fs' := fs) paths paths [] (fun _ h => h) (fun _ _ => rfl)
        (fun _ h => by cases h)
      have h3 := h2 srcs hl
      obtain ⟨text, ht, hx⟩ := C84_word hb
      rcases ht with ⟨src, hs, hd⟩ | ⟨-, p, hp, hf⟩
      · obtain ⟨k1, k2⟩ := h3 src (List.mem_of_getElem? hs) text hd
        exact ⟨e, src.path, text, rfl, .named k1, k2, hx⟩
      · exact ⟨e, p, text, rfl, needed_by h3 hp, hf, hx⟩
    · cases h

/-- In both cases it names a line of that file. -/
theorem C84_complaint {fs : Str → Option Str} {fl : FloatOps} {L : Layout} {n : Nat} {sys : List (Str × Option Nat)}
    {paths : List Str} {w : Str} (h : driverComplaint fs fl L n sys paths = some w) :
    ∃ (file line : Nat) (msg path text : Str), w = str "file " ++ decimal (BitVec.ofNat 32 file) ++ str ", line:" ++
        decimal (BitVec.ofNat 32 line) ++ str " - " ++ msg ++ str "\n" ∧
      NeededBy fs fl paths path ∧ fs path = some text ∧ LineOf text line := by
  obtain ⟨e, path, text, hw, hp, hf, hl | ⟨toks, t, full, hl, hm, he, -⟩⟩ := C84_complaint_word h
  · have := Blame.lexLoop_err hl
    exact ⟨e.line.file, e.line.line, cstr e.msg, path, text, hw, hp, hf, line_of this.2.1 this.2.2⟩
  · have := Blame.reads_line (lexLoop_reads fl _ hl) t hm
    rw [he] at this
    exact ⟨e.line.file, e.line.line, cstr e.msg, path, text, hw, hp, hf, line_of this.2.1 this.2.2⟩

/-- In that case `main` ends with status 1; nothing is run, printed or saved. -/
theorem C84_status {P M : Type} (mem : MemOps P M) (m0 : M) {fs : Str → Option Str} {fl : FloatOps} {L : Layout}
    {n fuel : Nat} {paths : List Str} {input : Str} {w : Str}
    (h : driverComplaint fs fl L n driverSys paths = some w) :
    driverMain mem m0 fs fl L n fuel paths input = .ok ⟨1, [], none⟩ := by
  unfold driverComplaint at h
  unfold driverMain
  cases hl : loadFiles fs [] paths with
  | none => rw [hl] at h; cases h
  | some srcs =>
    rw [hl] at h
    dsimp only at h
    cases srcs with
    | nil => cases h
    | cons s ss =>
      dsimp only
      generalize build fs fl L true driverSys n (s :: ss) = r at h ⊢
      match r with
      | .error (.err e) => rfl
      | .error (.fault _) => cases h
      | .ok _ => cases h

/-- The same for the graphical driver. -/
theorem C84_status_sdl {P M : Type} (mem : MemOps P M) (m0 : M) {fs : Str → Option Str} {fl : FloatOps} {L : Layout}
    {n : Nat} {outside : Nat → Sdl.Outside} {rounds : List SdlRound} {paths : List Str} {w : Str}
    (h : driverComplaint fs fl L n sdlSys paths = some w) :
    sdlMain mem m0 fs fl L n true outside rounds paths = .ok (some ⟨1, [], none⟩) := by
  unfold driverComplaint at h
  unfold sdlMain
  rw [if_pos rfl]
  cases hl : loadFiles fs [] paths with
  | none => rw [hl] at h; cases h
  | some srcs =>
    rw [hl] at h
    dsimp only at h
    cases srcs with
    | nil => cases h
    | cons s ss =>
      dsimp only
      generalize build fs fl L true sdlSys n (s :: ss) = r at h ⊢
      match r with
      | .error (.err e) => rfl
      | .error (.fault _) => cases h
      | .ok _ => cases h

/-! ### Examples -/

/-- The line of the message a build ends with. -/
def messageLine {α : Type} : Comp α → Option SrcLine
  | .error (.err e) => some e.line
  | _ => none

theorem messageLine_eq {α : Type} {x : Comp α} {l : SrcLine} (h : messageLine x = some l) :
    ∃ e, x = .error (.err e) ∧ e.line = l := by
  match x, h with
  | .error (.err e), h => exact ⟨e, rfl, Option.some.inj h⟩

/-- A source that is one file. -/
def blameSrc (t : String) : Source := ⟨str "a", some (str t), []⟩

/-- A message of the lexer, of the parser, of the checks (about an argument, in line 1) and of the optimizer. -/
theorem blame_lexer : messageLine (build (fun _ => none) toyFl sampleLayout true [] 2
    [blameSrc "var x\n\nvar y = ?\n"]) = some ⟨0, 3⟩ := by decide +kernel

theorem blame_parser : messageLine (build (fun _ => none) toyFl sampleLayout true [] 2
    [blameSrc "var x = 1\n/ 0\n"]) = some ⟨0, 2⟩ := by decide +kernel

theorem blame_checks : messageLine (build (fun _ => none) toyFl sampleLayout true [] 2
    [blameSrc "function f(x, x)\n return 1\nend\n"]) = some ⟨0, 1⟩ := by decide +kernel

theorem blame_optimizer : messageLine (build (fun _ => none) toyFl sampleLayout true [] 2
    [blameSrc "function f()\n return 1/0\nend\n"]) = some ⟨0, 2⟩ := by decide +kernel

example : LineOf (str "function f()\n return 1/0\nend\n") 2 := by
  obtain ⟨e, h, he⟩ := messageLine_eq blame_optimizer
  obtain ⟨text, ht, hl⟩ := C84_build h
  rw [he] at ht hl
  rcases ht with ⟨src, hs, hd⟩ | ⟨hi, -⟩
  · cases hs
    cases hd
    exact hl
  · exact absurd hi (by decide)

/-- The message about the argument is about a word of line 1. -/
example : ∃ e toks t full, build (fun _ => none) toyFl sampleLayout true [] 2
      [blameSrc "function f(x, x)\n return 1\nend\n"] = .error (.err e) ∧
    lex toyFl 0 (str "function f(x, x)\n return 1\nend\n") = .ok toks ∧ t ∈ toks ∧ t.line = ⟨0, 1⟩ ∧
    e.msg = full.take 1023 ∧
    (full ∈ fixedMessages ∨ ∃ w, t.string = .ok w ∧ ch '\'' :: w ++ [ch '\''] <:+: full) := by
  obtain ⟨e, h, he⟩ := messageLine_eq blame_checks
  obtain ⟨text, ht, hl⟩ := C84_word h
  rw [he] at ht hl
  rcases ht with ⟨src, hs, hd⟩ | ⟨hi, -⟩
  · cases hs
    cases hd
    rcases hl with hl | ⟨toks, t, full, h1, h2, h3, h4, h5⟩
    · have : (lex toyFl 0 (str "function f(x, x)\n return 1\nend\n")).isOk = true := by decide +kernel
      rw [hl] at this
      cases this
    · exact ⟨e, toks, t, full, h, h1, h2, h3, h4, h5⟩
  · exact absurd hi (by decide)

/-- A source that imports a file with an undeclared name in its second line. -/
def blameFs : Str → Option Str := fun p =>
  if p = str "s/b" then some (str "function f(x)\n return y\nend\n") else none

theorem blame_import : messageLine (build blameFs toyFl sampleLayout true [] 3
    [⟨str "s/a", some (str "import \"b\"\n"), []⟩]) = some ⟨1, 2⟩ := by decide +kernel

example : ∃ path text, Needed blameFs toyFl [⟨str "s/a", some (str "import \"b\"\n"), []⟩] path ∧
    blameFs path = some text ∧ LineOf text 2 := by
  obtain ⟨e, h, he⟩ := messageLine_eq blame_import
  obtain ⟨text, ht, hl⟩ := C84_build h
  rw [he] at ht hl
  rcases ht with ⟨src, hs, -⟩ | ⟨-, path, h1, h2⟩
  · cases hs
  · exact ⟨path, text, h1, h2, hl⟩

/-- What the command line driver writes. -/
example : driverComplaint (fun p => if p = str "a" then some (str "\nvar y = ?") else none) toyFl sampleLayout 2 []
    [str "a"] = some (str "file 0, line:2 - unexpected character '?' in source\n") := by decide +kernel

/-- A NUL in a comment ends the line for the compiler, so that this text without any end of line has a message for
line 2. -/
theorem C84_nul : ∃ text : Str, ch '\n' ∉ text ∧
    messageLine (build (fun _ => none) toyFl sampleLayout true [] 2 [⟨str "a", some text, []⟩]) = some ⟨0, 2⟩ :=
  ⟨str "#x" ++ [0] ++ str "?", by decide +kernel, by decide +kernel⟩

end Ccml.Props
