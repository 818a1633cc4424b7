import Verif.BareParser
import Verif.Props.Lexer
import Verif.Props.Build
/-!
# C81: spacing, comments and the case of keywords
-/
namespace Ccml.Props

/-- A token without its line. -/
def word (t : Token) : Tok × Str × BitVec 32 := (t.type, t.str, t.val)

/-- Texts of the same words: their tokens differ in nothing but lines, or the lexer refuses both with the same
message; an empty text (which is no source) is only like itself. -/
def SameWords (fl : FloatOps) (a b : Str) : Prop :=
  (a = [] ↔ b = []) ∧ ∀ i, match lex fl i a, lex fl i b with
    | .ok ts, .ok us => ts.map word = us.map word
    | .error (.err e), .error (.err e') => e.msg = e'.msg
    | .error e, .error e' => e = e'
    | _, _ => False

/-- Both absent, or both there with the same words. -/
def SameFile (fl : FloatOps) : Option Str → Option Str → Prop
  | some a, some b => SameWords fl a b
  | none, none => True
  | _, _ => False

/-- The sources given: pairwise the same path and the same words. -/
def SameGiven (fl : FloatOps) (as bs : List Source) : Prop :=
  as.length = bs.length ∧ ∀ (i : Nat) (a b : Source), as[i]? = some a → bs[i]? = some b → a.path = b.path ∧ SameFile fl a.data b.data

theorem words_tok {ts us : List Token} (h : ts.map word = us.map word) : ts.map Bare.tok = us.map Bare.tok := by
  induction ts generalizing us with
  | nil =>
    cases us with
    | nil => rfl
    | cons => cases h
  | cons t ts ih =>
    cases us with
    | nil => cases h
    | cons u us =>
      simp only [List.map_cons, List.cons.injEq] at h ⊢
      refine ⟨?_, ih h.2⟩
      have := h.1
      unfold word at this
      simp only [Prod.mk.injEq] at this
      cases t; cases u
      simp only [Bare.tok] at this ⊢
      rw [this.1, this.2.1, this.2.2]

theorem sameText {fl : FloatOps} {a b : Str} (h : SameWords fl a b) : Bare.SameText fl a b := by
  refine ⟨h.1, fun i => ?_⟩
  have := h.2 i
  generalize lex fl i a = x at this ⊢
  generalize lex fl i b = y at this ⊢
  cases x with
  | ok ts =>
    cases y with
    | ok us => exact words_tok this
    | error => exact False.elim this
  | error e =>
    cases y with
    | ok us => cases e <;> exact False.elim this
    | error e' =>
      cases e <;> cases e' <;> first | exact this | (cases this; done) | exact Bare.SameStop.refl _

theorem sameFiles {fl : FloatOps} {fs fs' : Str → Option Str} (h : ∀ p, SameFile fl (fs p) (fs' p)) :
    Bare.SameFiles fl fs fs' := by
  intro p
  have := h p
  generalize fs p = x at this ⊢
  generalize fs' p = y at this ⊢
  cases x <;> cases y <;> first | exact sameText this | exact this

theorem sameSource {fl : FloatOps} {a b : Source} (h : a.path = b.path ∧ SameFile fl a.data b.data) :
    Bare.SameSource fl a b := by
  refine ⟨h.1, ?_⟩
  have := h.2
  generalize a.data = x at this ⊢
  generalize b.data = y at this ⊢
  cases x <;> cases y <;> first | exact sameText this | exact this

theorem sameSources {fl : FloatOps} : ∀ {as bs : List Source}, SameGiven fl as bs → Bare.SameSources fl as bs
  | [], [], _ => .nil
  | [], _ :: _, h => by cases h.1
  | _ :: _, [], h => by cases h.1
  | a :: as, b :: bs, h => .cons (sameSource (h.2 0 a b rfl rfl))
      (sameSources ⟨by simpa using h.1, fun i x y hx hy => h.2 (i + 1) x y (by simpa using hx) (by simpa using hy)⟩)

/-- No program, or programs that are the same up to the line table. -/
def SameProgram (a b : Option Program) : Prop :=
  (a = none ∧ b = none) ∨ ∃ p l, a = some p ∧ b = some { p with lines := l }

theorem build_both (fl : FloatOps) (L : Layout) (opt : Bool) (sys : List (Str × Option Nat)) (fuel : Nat)
    {fs fs' : Str → Option Str} (hf : Bare.SameFiles fl fs fs') {srcs srcs' : List Source}
    (hs : Bare.SameSources fl srcs srcs') :
    Bare.Both SameProgram (build fs fl L opt sys fuel srcs) (build fs' fl L opt sys fuel srcs') := by
  unfold build
  cases hs with
  | nil => exact .inl ⟨rfl, rfl⟩
  | cons h1 h2 =>
    dsimp only
    have hb := Bare.buildSources_same hf fuel 0 (.cons h1 h2) (left := []) (left' := []) rfl
      (acc := registered sys) (acc' := registered sys) rfl
    rcases Bare.Both.elim hb with ⟨x, y, hx, hy, e⟩ | ⟨⟨p, ss⟩, ⟨q, ss'⟩, hx, hy, h3, _⟩
    · rw [hx, hy]
      exact e
    · rw [hx, hy]
      dsimp only at h3 ⊢
      have hp := Bare.compile_bare L opt p
      have hq := Bare.compile_bare L opt q
      rw [← h3] at hq
      rcases Bare.Both.elim hp with ⟨x, z, ex, ez, h⟩ | ⟨a, c, ea, ec, l, hl⟩
      · rcases Bare.Both.elim hq with ⟨y, z', ey, ez', h'⟩ | ⟨b, c', eb, ec', _⟩
        · rw [ez] at ez'
          cases ez'
          rw [ex, ey]
          cases x <;> cases y <;> cases z <;> first | exact h.trans h'.symm | exact False.elim h | exact False.elim h'
        · rw [ez] at ec'
          cases ec'
      · rcases Bare.Both.elim hq with ⟨y, z', ey, ez', h'⟩ | ⟨b, c', eb, ec', l', hl'⟩
        · rw [ec] at ez'
          cases ez'
        · rw [ec] at ec'
          cases ec'
          rw [ea, eb]
          subst hl
          refine .inr ⟨a, b.lines, rfl, ?_⟩
          have := hl'
          cases a; cases b
          simp only [Program.mk.injEq] at this
          obtain ⟨t1, t2, t3, t4, _, t6⟩ := this
          rw [t1, t2, t3, t4, t6]

/-- Builds of texts of the same words end alike: with no program for no sources, with programs that are the same
in everything but the line table, with the same message, or with the same failure. -/
theorem C81_spacing (fl : FloatOps) (L : Layout) (opt : Bool) (sys : List (Str × Option Nat)) (fuel : Nat)
    (fs fs' : Str → Option Str) (hf : ∀ p, SameFile fl (fs p) (fs' p)) (srcs srcs' : List Source)
    (hs : SameGiven fl srcs srcs') :
    match build fs fl L opt sys fuel srcs, build fs' fl L opt sys fuel srcs' with
    | .ok none, .ok none => True
    | .ok (some p), .ok (some q) => p.code = q.code ∧ p.strings = q.strings ∧ p.globals = q.globals ∧
        p.functions = q.functions ∧ p.syscalls = q.syscalls
    | .error (.err e), .error (.err e') => e.msg = e'.msg
    | .error (.fault f), .error (.fault g) => f = g
    | _, _ => False := by
  rcases Bare.Both.elim (build_both fl L opt sys fuel (sameFiles hf) (sameSources hs)) with
    ⟨x, y, hx, hy, e⟩ | ⟨a, b, hx, hy, ⟨rfl, rfl⟩ | ⟨p, l, rfl, rfl⟩⟩
  · rw [hx, hy]
    cases x <;> cases y <;> exact e
  · rw [hx, hy]
    trivial
  · rw [hx, hy]
    exact ⟨rfl, rfl, rfl, rfl, rfl⟩

/-! ### Ways of writing the same words -/

/-- `Wording xs s`: the text `s` writes the lexemes `xs`, with blanks anywhere between them as long as no two run
together, keywords in any case, and a comment wherever a line ends. -/
inductive Wording : List Lexeme → Str → Prop
  | nil : Wording [] []
  | blank {c xs s} : Blank c → Wording xs s → Wording xs (c :: s)
  | comment {q xs s} : (∀ c ∈ q, c ≠ 0 ∧ c ≠ ch '\n') → Wording xs s →
      Wording (.newline :: xs) (ch '#' :: q ++ ch '\n' :: s)
  | lexeme {x xs s} : x.Legal → (∀ d ∈ s.head?, x.CanPrecede d) → Wording xs s → Wording (x :: xs) (x.spell ++ s)
  | keyword {k t w xs s} : (k, t) ∈ keywordTable → w.map caseFold = k → (∀ d ∈ s.head?, ¬ NameChar d) →
      Wording xs s → Wording (.fixed k t :: xs) (w ++ s)

theorem canPrecede_nul (x : Lexeme) : x.CanPrecede 0 := by
  cases x with
  | fixed w t =>
    simp only [Lexeme.CanPrecede]
    split
    · decide
    · split
      · decide
      · trivial
  | name => show ¬ _; decide
  | string => trivial
  | int => exact ⟨by decide, by decide⟩
  | float => show ¬ _; decide
  | newline => trivial

theorem next_char {P : Byte → Prop} {s : Str} (h : ∀ d ∈ s.head?, P d) (h0 : P 0) :
    ∃ d r, P d ∧ s ++ [0] = d :: r := by
  cases s with
  | nil => exact ⟨0, [], h0, rfl⟩
  | cons d r => exact ⟨d, r ++ [0], h d (by simp), rfl⟩

theorem lexLoop_wording (fl : FloatOps) (file : Nat) {xs : List Lexeme} {s : Str} (h : Wording xs s) :
    ∀ {n line : Nat}, s.length + 1 < n →
      lexLoop fl file n (s ++ [0]) line = .ok (expectedTokens fl file line xs) := by
  induction h with
  | nil =>
    intro n line hn
    cases n with
    | zero => omega
    | succ n => rfl
  | @blank c xs s hb _ ih =>
    intro n line hn
    have := lexLoop_gap fl file [c] s (by simpa using hb) (n := n) (m := n) (line := line) (by simpa using hn)
      (by simp at hn; omega)
    exact this.trans (ih (by simp at hn; omega))
  | @comment q xs s hq _ ih =>
    intro n line hn
    have hstep : lexStep fl file (((ch '#' :: q ++ [ch '\n']) ++ s) ++ [0]) line =
        .ok (.next [.plain .EOL ⟨file, line + 1⟩] (line + 1) (s ++ [0])) := by
      have hs := scanWhile_append (p := fun c : Byte => c != 0 && c != ch '\n') (w := ch '#' :: q) (d := ch '\n')
        (r := s ++ [0]) (by
          intro x hx
          rcases List.mem_cons.1 hx with rfl | hx
          · decide
          · have := hq x hx
            rw [Bool.and_eq_true, bne_iff_ne, bne_iff_ne]
            exact this) (by decide)
      have e : ((ch '#' :: q ++ [ch '\n']) ++ s) ++ [0] = ch '#' :: (q ++ ch '\n' :: (s ++ [0])) := by simp
      rw [e]
      dsimp only [lexStep]
      rw [if_neg (by decide), if_neg (by decide), if_neg (by decide), if_pos rfl]
      rw [show ch '#' :: (q ++ ch '\n' :: (s ++ [0])) = ch '#' :: q ++ ch '\n' :: (s ++ [0]) by simp, hs]
    have e : ch '#' :: q ++ ch '\n' :: s = (ch '#' :: q ++ [ch '\n']) ++ s := by simp
    rw [e] at hn ⊢
    rw [lexLoop_chunk fl file (by simp) hstep hn (m := n) (by simp at hn; omega), ih (by simp at hn; omega)]
    rfl
  | @lexeme x xs s hl hp _ ih =>
    intro n line hn
    obtain ⟨d, r, hd, er⟩ := next_char hp (canPrecede_nul x)
    obtain ⟨t, n', hstep, hexp⟩ := lexStep_lexeme fl file line x d r hl hd
    rw [← er, ← List.append_assoc] at hstep
    have hpos := List.length_pos_iff.2 (spell_ne_nil x hl)
    rw [List.length_append] at hn
    rw [lexLoop_chunk fl file (spell_ne_nil x hl) hstep (by rw [List.length_append]; omega) (m := n) (by omega),
      ih (by omega), hexp]
    rfl
  | @keyword k t w xs s hk hw hp _ ih =>
    intro n line hn
    obtain ⟨d, r, hd, er⟩ := next_char hp (by decide)
    have hkw : keywordOf w = some t := by
      have : ∀ k ∈ keywordTable, (keywordTable.find? (fun j => j.1 = k.1)).map (·.2) = some k.2 := by decide +kernel
      unfold keywordOf
      rw [hw]
      exact this _ hk
    obtain ⟨c, v, rfl, hc, hv⟩ := keyword_nameStart hkw
    have hstep := lexStep_word fl file (r := r) line hc hv hd
    rw [hkw, ← er, ← List.append_assoc] at hstep
    rw [List.length_append, List.length_cons] at hn
    rw [lexLoop_chunk fl file (by simp) hstep (by rw [List.length_append, List.length_cons]; omega) (m := n)
      (by omega), ih (by omega)]
    rfl

/-- Two ways of writing the same lexemes are texts of the same words. -/
theorem C81_wordings (fl : FloatOps) {xs : List Lexeme} {a b : Str} (ha : Wording xs a) (hb : Wording xs b)
    (hne : a ≠ []) (hne' : b ≠ []) : SameWords fl a b := by
  refine ⟨⟨fun h => absurd h hne, fun h => absurd h hne'⟩, fun i => ?_⟩
  unfold lex
  rw [lexLoop_wording fl i ha (by omega), lexLoop_wording fl i hb (by omega)]

theorem Wording.of {xs : List Lexeme} {s s' : Str} (h : Wording xs s) (e : s = s') : Wording xs s' := e ▸ h

/-- With other blanks, a comment and a keyword in upper case the same words. -/
example (fl : FloatOps) : SameWords fl (str "var x = 1\n") (str "  VAR\tx= 1 # one\n") := by
  have h1 : Lexeme.Legal (.name (str "x")) := ⟨⟨_, _, rfl, by decide, by decide⟩, by decide +kernel⟩
  have h2 : Lexeme.Legal (.fixed (str "=") .ASSIGN) := by show _ ∈ _; decide +kernel
  have h3 : Lexeme.Legal (.int 1) := by show _ < _; decide
  have h4 : ∀ d ∈ ([] : Str).head?, Lexeme.newline.CanPrecede d := fun _ _ => trivial
  have hk : (str "var", Tok.VAR) ∈ keywordTable := by decide +kernel
  have b : Blank (ch ' ') := by decide
  have heq : ∀ {s : Str}, (∀ d ∈ s.head?, d = ch ' ') → ∀ d ∈ s.head?, Lexeme.CanPrecede (.fixed (str "=") .ASSIGN) d := by
    intro s hs d hd
    rw [hs d hd]
    simp only [Lexeme.CanPrecede]
    rw [if_neg (by decide +kernel), if_pos (by decide +kernel)]
    decide
  have ha : Wording [.fixed (str "var") .VAR, .name (str "x"), .fixed (str "=") .ASSIGN, .int 1, .newline]
      (str "var x = 1\n") := by
    refine Wording.of (.keyword hk (w := str "var") (by decide +kernel) ?_ (.blank b (.lexeme h1 ?_ (.blank b
      (.lexeme h2 (heq ?_) (.blank b (.lexeme h3 ?_ (.lexeme trivial h4 .nil)))))))) ?_
    · intro d hd; cases hd; decide
    · intro d hd; cases hd; show ¬ _; decide
    · intro d hd; cases hd; rfl
    · intro d hd; cases hd; exact ⟨by decide, by decide⟩
    · decide +kernel
  have hb : Wording [.fixed (str "var") .VAR, .name (str "x"), .fixed (str "=") .ASSIGN, .int 1, .newline]
      (str "  VAR\tx= 1 # one\n") := by
    refine Wording.of (.blank b (.blank b (.keyword hk (w := str "VAR") (by decide +kernel) ?_ (.blank (c := ch '\t')
      (by decide) (.lexeme h1 ?_ (.lexeme h2 (heq ?_) (.blank b (.lexeme h3 ?_ (.blank b
      (.comment (q := str " one") (by decide) .nil)))))))))) ?_
    · intro d hd; cases hd; decide
    · intro d hd; cases hd; show ¬ _; decide
    · intro d hd; cases hd; rfl
    · intro d hd; cases hd; exact ⟨by decide, by decide⟩
    · decide +kernel
  exact C81_wordings fl ha hb (by decide +kernel) (by decide +kernel)

end Ccml.Props
