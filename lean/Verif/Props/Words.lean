import Verif.WordsSound
import Verif.WordsComplete
import Verif.Props.Accepts
/-!
C74: exactly which sources the parser accepts, with unary operators.

The language is the grammar of words in `Verif/Words.lean`, which says nothing about trees.  The second part
specifies nesting without a grammar: `Nested` keeps a list of the words that must still close.
-/
namespace Ccml.Props
open Ccml

/-- C74: the parser accepts a source, and its imports turn the sources `srcs` into `srcs'`, if and only if it is a
file of the grammar of words.  What earlier parses left behind does not matter. -/
theorem C74_language (fs : Str → Option Str) (cur : Source) (srcs srcs' : List Source) (left : List (Expr Unit))
    (us : List Token) (e : Token) (he : e.type = .EOF) (hu : ∀ t ∈ us, t.type ≠ .EOF) :
    (∃ p s, parse fs cur srcs left (us ++ [e]) = .ok (p, s) ∧ s.srcs = srcs') ↔ Lang.File fs cur srcs srcs' us := by
  constructor
  · rintro ⟨p, s, h, rfl⟩
    obtain ⟨vs, e', k3, k4, k5⟩ := Lang.items_sound _ _ _ _ h
    dsimp only at k3 k5
    have : us = vs := by
      rcases List.eq_nil_or_concat s.toks with hs | ⟨xs, x, hs⟩
      · rw [hs] at k3
        exact (List.append_inj' k3 rfl).1
      · rw [hs, List.concat_eq_append, ← List.cons_append, ← List.append_assoc] at k3
        have := (List.append_inj' k3 rfl).1
        exact absurd k4 (hu e' (by rw [this]; simp))
    rw [this]
    exact k5
  · intro h
    refine Lang.items_complete (parseFuel (us ++ [e])) ⟨us ++ [e], ⟨0, 0⟩, [], left, srcs⟩ us e srcs' ⟨?_, fun _ _ _ => trivial⟩
      ?_ rfl he h
    · show Safe.GoodToks (us ++ [e])
      clear h
      induction us with
      | nil => exact he
      | cons u us ih =>
        have h1 := hu u (List.mem_cons_self ..)
        have h2 := ih (fun t ht => hu t (List.mem_cons_of_mem _ ht))
        cases us with
        | nil => exact ⟨h1, h2⟩
        | cons v vs => exact ⟨h1, h2⟩
    · show 8 * (us ++ [e]).length + 1 ≤ 8 * (us ++ [e]).length + 8
      omega

/-- C74: a source without imports that is no file of the grammar is rejected with an error message. -/
theorem C74_rejects (fs : Str → Option Str) (cur : Source) (srcs : List Source) (left : List (Expr Unit))
    (us : List Token) (e : Token) (he : e.type = .EOF) (hu : ∀ t ∈ us, t.type ≠ .EOF)
    (hi : ∀ t ∈ us, t.type ≠ .IMPORT) (hp : ∀ srcs', ¬ Lang.File fs cur srcs srcs' us) :
    ∃ err, parse fs cur srcs left (us ++ [e]) = .error (.err err) := by
  rcases C15_program_or_error fs cur srcs left us e he hu hi with ⟨p, s, h⟩ | h
  · exact absurd ((C74_language fs cur srcs s.srcs left us e he hu).1 ⟨p, s, h, rfl⟩) (hp s.srcs)
  · exact h

/-- C74: from the characters: a text that lexes is accepted exactly if its tokens before the end of the file are a
file of the grammar. -/
theorem C74_text (fl : FloatOps) (file : Nat) (text : Str) (ts : List Token) (hl : lex fl file text = .ok ts)
    (fs : Str → Option Str) (cur : Source) (srcs srcs' : List Source) (left : List (Expr Unit)) :
    (∃ p s, parse fs cur srcs left ts = .ok (p, s) ∧ s.srcs = srcs') ↔ Lang.File fs cur srcs srcs' ts.dropLast := by
  obtain ⟨us, e, rfl, he, hu⟩ := C07_one_eof fl file text ts hl
  rw [List.dropLast_concat]
  exact C74_language fs cur srcs srcs' left us e he hu

/-! ### Sources one after the other -/

theorem file_append {fs : Str → Option Str} {cur : Source} {ss ss1 ss2 : List Source} {us vs : List Token}
    (h : Lang.File fs cur ss ss1 us) (h' : Lang.File fs cur ss1 ss2 vs) : Lang.File fs cur ss ss2 (us ++ vs) := by
  induction h with
  | nil => exact h'
  | eol ht _ ih => exact .eol ht (ih h')
  | decl hv hn _ ih => exact .decl hv hn (ih h')
  | init hv hn ha he _ ih =>
    simp only [List.cons_append, List.append_assoc]
    exact .init hv hn ha he (ih h')
  | func ht hf _ ih =>
    simp only [List.cons_append, List.append_assoc]
    exact .func ht hf (ih h')
  | imp ht hn hl _ ih => exact .imp ht hn hl (ih h')

/-- C74: two accepted sources, one after the other, are an accepted source: no declaration can swallow the
beginning of the next one. -/
theorem C74_joins (fs : Str → Option Str) (cur : Source) (srcs : List Source) (left : List (Expr Unit))
    (us vs : List Token) (e : Token) (he : e.type = .EOF) (hu : ∀ t ∈ us, t.type ≠ .EOF)
    (hv : ∀ t ∈ vs, t.type ≠ .EOF) (p1 p2 : Prog Unit) (s1 s2 : PState)
    (h1 : parse fs cur srcs left (us ++ [e]) = .ok (p1, s1))
    (h2 : parse fs cur s1.srcs left (vs ++ [e]) = .ok (p2, s2)) :
    ∃ p s, parse fs cur srcs left (us ++ vs ++ [e]) = .ok (p, s) ∧ s.srcs = s2.srcs := by
  refine (C74_language fs cur srcs s2.srcs left (us ++ vs) e he ?_).2 (file_append
    ((C74_language fs cur srcs s1.srcs left us e he hu).1 ⟨p1, s1, h1, rfl⟩)
    ((C74_language fs cur s1.srcs s2.srcs left vs e he hv).1 ⟨p2, s2, h2, rfl⟩))
  intro t ht
  rcases List.mem_append.1 ht with h | h
  · exact hu t h
  · exact hv t h

/-! ### Nesting -/

/-- The token that must close what a token opens. -/
def closerOf : Tok → Option Tok
  | .LPAREN => some .RPAREN
  | .LBRACKET => some .RBRACKET
  | .FUNC | .IF | .WHILE | .FOR => some .END
  | _ => none

/-- A closing token. -/
def closing : Tok → Bool
  | .RPAREN | .RBRACKET | .END => true
  | _ => false

/-- Every opening token is closed by the right closing token, in the right order; `open_` lists the closing tokens
that are still missing, the next one first. -/
def Nested : List Tok → List Token → Prop
  | open_, [] => open_ = []
  | open_, t :: ts =>
    match closerOf t.type with
    | some c => Nested (c :: open_) ts
    | none => if closing t.type then ∃ rest, open_ = t.type :: rest ∧ Nested rest ts else Nested open_ ts

theorem nested_plain {t : Token} {o : List Tok} {ts : List Token} (h1 : closerOf t.type = none)
    (h2 : closing t.type = false) : Nested o (t :: ts) ↔ Nested o ts := by
  simp only [Nested, h1, h2]
  rfl

theorem nested_open {t : Token} {c : Tok} {o : List Tok} {ts : List Token} (h1 : closerOf t.type = some c) :
    Nested o (t :: ts) ↔ Nested (c :: o) ts := by
  simp only [Nested, h1]

theorem nested_close {t : Token} {c : Tok} {o : List Tok} {ts : List Token} (ht : t.type = c)
    (h2 : closing c = true) : Nested (c :: o) (t :: ts) ↔ Nested o ts := by
  subst ht
  have h1 : closerOf t.type = none := by
    revert h2
    generalize t.type = k
    cases k <;> intro h <;> first | rfl | cases h
  simp only [Nested, h1, h2, if_true]
  constructor
  · rintro ⟨r, h, hr⟩
    cases h
    exact hr
  · intro h
    exact ⟨o, rfl, h⟩

theorem nested_blank {before : List Token} (h : Lang.Blank before) (o : List Tok) (l : List Token) :
    Nested o (before ++ l) ↔ Nested o l := by
  induction before with
  | nil => exact Iff.rfl
  | cons t ts ih =>
    have ht := h t (List.mem_cons_self ..)
    rw [List.cons_append, nested_plain (by rw [ht]; rfl) (by rw [ht]; rfl)]
    exact ih (fun u hu => h u (List.mem_cons_of_mem _ hu))

theorem nested_kind {t : Token} {k : Tok} (h : t.type = k) (h1 : closerOf k = none) (h2 : closing k = false)
    {o : List Tok} {ts : List Token} : Nested o (t :: ts) ↔ Nested o ts :=
  nested_plain (by rw [h]; exact h1) (by rw [h]; exact h2)

theorem spells_nested {k : Lang.Part} {ts : List Token} (h : Lang.Spells k ts) :
    ∀ (o : List Tok) (l : List Token), Nested o (ts ++ l) ↔ Nested o l := by
  have lp {t : Token} (h : t.type = .LPAREN) {o ts} : Nested o (t :: ts) ↔ Nested (.RPAREN :: o) ts :=
    nested_open (by rw [h]; rfl)
  have lb {t : Token} (h : t.type = .LBRACKET) {o ts} : Nested o (t :: ts) ↔ Nested (.RBRACKET :: o) ts :=
    nested_open (by rw [h]; rfl)
  have rp {t : Token} (h : t.type = .RPAREN) {o ts} : Nested (.RPAREN :: o) (t :: ts) ↔ Nested o ts :=
    nested_close h rfl
  have rb {t : Token} (h : t.type = .RBRACKET) {o ts} : Nested (.RBRACKET :: o) (t :: ts) ↔ Nested o ts :=
    nested_close h rfl
  have en {t : Token} (h : t.type = .END) {o ts} : Nested (.END :: o) (t :: ts) ↔ Nested o ts :=
    nested_close h rfl
  induction h with
  | literal h => intro o l; rcases h with h | h | h | h <;> exact nested_kind h rfl rfl
  | ident h => intro o l; exact nested_kind h rfl rfl
  | member h1 h2 h3 =>
    intro o l
    exact (nested_kind h1 rfl rfl).trans ((nested_kind h2 rfl rfl).trans (nested_kind h3 rfl rfl))
  | arr h1 _ h2 ih =>
    intro o l
    simp only [List.cons_append, List.append_assoc, List.nil_append]
    rw [lb h1, ih, rb h2]
  | paren h1 _ h2 ih =>
    intro o l
    simp only [List.cons_append, List.append_assoc, List.nil_append]
    rw [lp h1, ih, rp h2]
  | bare => intro o l; exact Iff.rfl
  | index h1 _ h2 _ ih1 ih2 =>
    intro o l
    simp only [List.cons_append, List.append_assoc, List.nil_append]
    rw [lb h1, ih1, rb h2, ih2]
  | call h1 _ h2 _ ih1 ih2 =>
    intro o l
    simp only [List.cons_append, List.append_assoc, List.nil_append]
    rw [lp h1, ih1, rp h2, ih2]
  | unary ht _ ih =>
    intro o l
    rw [List.cons_append]
    rcases ht with h | h <;> rw [nested_kind h rfl rfl, ih]
  | operand _ _ ih1 ih2 => intro o l; rw [List.append_assoc, ih1, ih2]
  | binary _ _ ho _ ih1 ih2 ih3 =>
    intro o l
    simp only [List.cons_append, List.append_assoc]
    rw [ih1, ih2]
    rcases ho with h | h | h | h | h | h | h | h | h | h | h | h | h <;> rw [nested_kind h rfl rfl, ih3]
  | one _ ih => exact ih
  | more _ hc _ ih1 ih2 =>
    intro o l
    simp only [List.cons_append, List.append_assoc]
    rw [ih1, nested_kind hc rfl rfl, ih2]
  | noArgs => intro o l; exact Iff.rfl
  | someArgs _ ih => exact ih
  | var h1 h2 => intro o l; exact (nested_kind h1 rfl rfl).trans (nested_kind h2 rfl rfl)
  | varInit h1 h2 h3 _ ih =>
    intro o l
    simp only [List.cons_append]
    rw [nested_kind h1 rfl rfl, nested_kind h2 rfl rfl, nested_kind h3 rfl rfl, ih]
  | assign h1 h2 _ ih =>
    intro o l
    simp only [List.cons_append]
    rw [nested_kind h1 rfl rfl, nested_kind h2 rfl rfl, ih]
  | compound h1 h2 h3 _ ih =>
    intro o l
    simp only [List.cons_append]
    rcases h2 with h2 | h2 | h2 | h2 <;>
      rw [nested_kind h1 rfl rfl, nested_kind h2 rfl rfl, nested_kind h3 rfl rfl, ih]
  | assignMem h1 h2 h3 h4 _ ih =>
    intro o l
    simp only [List.cons_append]
    rw [nested_kind h1 rfl rfl, nested_kind h2 rfl rfl, nested_kind h3 rfl rfl, nested_kind h4 rfl rfl, ih]
  | assignArr h1 h2 _ h3 h4 _ ih1 ih2 =>
    intro o l
    simp only [List.cons_append, List.append_assoc]
    rw [nested_kind h1 rfl rfl, lb h2, ih1, rb h3, nested_kind h4 rfl rfl, ih2]
  | callS h1 h2 _ h3 ih =>
    intro o l
    simp only [List.cons_append, List.append_assoc, List.nil_append]
    rw [nested_kind h1 rfl rfl, lp h2, ih, rp h3]
  | ret h => intro o l; exact nested_kind h rfl rfl
  | retVal h _ ih => intro o l; rw [List.cons_append, nested_kind h rfl rfl, ih]
  | ifS h1 h2 _ h3 h4 _ h5 ih1 ih2 =>
    intro o l
    simp only [List.cons_append, List.append_assoc, List.nil_append]
    rw [nested_open (c := .END) (by rw [h1]; rfl), lp h2, ih1, rp h3, nested_kind h4 rfl rfl, ih2, en h5]
  | ifElse h1 h2 _ h3 h4 _ h5 h6 _ h7 ih1 ih2 ih3 =>
    intro o l
    simp only [List.cons_append, List.append_assoc, List.nil_append]
    rw [nested_open (c := .END) (by rw [h1]; rfl), lp h2, ih1, rp h3, nested_kind h4 rfl rfl, ih2,
      nested_kind h5 rfl rfl, nested_kind h6 rfl rfl, ih3, en h7]
  | whileS h1 h2 _ h3 h4 _ h5 ih1 ih2 =>
    intro o l
    simp only [List.cons_append, List.append_assoc, List.nil_append]
    rw [nested_open (c := .END) (by rw [h1]; rfl), lp h2, ih1, rp h3, nested_kind h4 rfl rfl, ih2, en h5]
  | forS h1 h2 h3 h4 _ h5 _ h6 h7 _ h8 ih1 ih2 ih3 =>
    intro o l
    simp only [List.cons_append, List.append_assoc, List.nil_append]
    rw [nested_open (c := .END) (by rw [h1]; rfl), lp h2, nested_kind h3 rfl rfl, nested_kind h4 rfl rfl, ih1,
      nested_kind h5 rfl rfl, ih2, rp h6, nested_kind h7 rfl rfl, ih3, en h8]
  | nil => intro o l; exact Iff.rfl
  | cons hb _ hn ha _ ih1 ih2 =>
    intro o l
    simp only [List.cons_append, List.append_assoc]
    rw [nested_blank hb, ih1, nested_kind hn rfl rfl, nested_blank ha, ih2]

theorem names_nested {ns : List Token} (h : Lang.Names ns) (o : List Tok) (l : List Token) :
    Nested o (ns ++ l) ↔ Nested o l := by
  induction h with
  | one h => exact nested_kind h rfl rfl
  | more h hc _ ih =>
    simp only [List.cons_append]
    rw [nested_kind h rfl rfl, nested_kind hc rfl rfl, ih]

theorem function_nested {ts : List Token} (h : Lang.Function ts) (o : List Tok) (l : List Token) :
    Nested (.END :: o) (ts ++ l) ↔ Nested o l := by
  cases h with
  | noArgs h1 h2 h3 h4 hb h5 =>
    simp only [List.cons_append, List.append_assoc, List.nil_append]
    rw [nested_kind h1 rfl rfl, nested_open (c := .RPAREN) (by rw [h2]; rfl), nested_close h3 rfl,
      nested_kind h4 rfl rfl, spells_nested hb, nested_close h5 rfl]
  | args h1 h2 hn h3 h4 hb h5 =>
    simp only [List.cons_append, List.append_assoc, List.nil_append]
    rw [nested_kind h1 rfl rfl, nested_open (c := .RPAREN) (by rw [h2]; rfl), names_nested hn, nested_close h3 rfl,
      nested_kind h4 rfl rfl, spells_nested hb, nested_close h5 rfl]

/-- C74: in every accepted source the parentheses, brackets and blocks close in the right order. -/
theorem C74_nested (fs : Str → Option Str) (cur : Source) (srcs : List Source) (left : List (Expr Unit))
    (us : List Token) (e : Token) (he : e.type = .EOF) (hu : ∀ t ∈ us, t.type ≠ .EOF) (p : Prog Unit) (s : PState)
    (h : parse fs cur srcs left (us ++ [e]) = .ok (p, s)) : Nested [] us := by
  have hf := (C74_language fs cur srcs s.srcs left us e he hu).1 ⟨p, s, h, rfl⟩
  clear h hu
  generalize s.srcs = ss at hf
  induction hf with
  | nil => exact rfl
  | eol ht _ ih => exact (nested_kind ht rfl rfl).2 ih
  | decl hv hn _ ih => rcases hv with h | h <;> exact (nested_kind h rfl rfl).2 ((nested_kind hn rfl rfl).2 ih)
  | init hv hn ha hx _ ih =>
    rcases hv with h | h <;> exact (nested_kind h rfl rfl).2 ((nested_kind hn rfl rfl).2 ((nested_kind ha rfl rfl).2
      ((spells_nested hx _ _).2 ih)))
  | func ht hf _ ih => exact (nested_open (c := .END) (by rw [ht]; rfl)).2 ((function_nested hf _ _).2 ih)
  | imp ht hn _ _ ih => exact (nested_kind ht rfl rfl).2 ((nested_kind hn rfl rfl).2 ih)

/-! ### Examples -/

/-- `var k = a not b`, which C61 shows to be accepted, is in the language; -/
example : Lang.File egFs egFile [] [] badNot :=
  .init (.inl rfl) rfl rfl (.binary (.ident rfl) .bare (.inr (.inr (.inr (.inr (.inr (.inr (.inr (.inl rfl))))))))
    (.operand (.ident rfl) .bare)) (.eol rfl .nil)

/-- so it is accepted, whatever is left from before; -/
example (left : List (Expr Unit)) : ∃ p s, parse egFs egFile [] left (badNot ++ [Eg.p .EOF]) = .ok (p, s) ∧ s.srcs = [] :=
  (C74_language egFs egFile [] [] left badNot _ rfl (by decide +kernel)).2
    (.init (.inl rfl) rfl rfl (.binary (.ident rfl) .bare (.inr (.inr (.inr (.inr (.inr (.inr (.inr (.inl rfl))))))))
      (.operand (.ident rfl) .bare)) (.eol rfl .nil))

/-- and `var k = (a` is rejected with a message, as it is not nested. -/
example : ∃ err, parse egFs egFile [] [] ([Eg.p .VAR, Eg.x "k", Eg.p .ASSIGN, Eg.p .LPAREN, Eg.x "a"] ++ [Eg.p .EOF]) =
    .error (.err err) := by
  rcases C15_program_or_error egFs egFile [] [] [Eg.p .VAR, Eg.x "k", Eg.p .ASSIGN, Eg.p .LPAREN, Eg.x "a"]
    (Eg.p .EOF) rfl (by decide +kernel) (by decide +kernel) with ⟨p, s, h⟩ | h
  · have := C74_nested _ _ _ _ _ _ rfl (by decide +kernel) p s h
    change [Tok.RPAREN] = [] at this
    cases this
  · exact h

/-- Two sources with unary operators that can be joined: `var k = not a` and `var m = - - b`, without an end of line
between them. -/
example : ∃ p s, parse egFs egFile [] [] ([Eg.p .VAR, Eg.x "k", Eg.p .ASSIGN, Eg.p .NOT, Eg.x "a"] ++
    [Eg.p .VAR, Eg.x "m", Eg.p .ASSIGN, Eg.p .SUB, Eg.p .SUB, Eg.x "b"] ++ [Eg.p .EOF]) = .ok (p, s) ∧ s.srcs = [] := by
  obtain ⟨p1, s1, h1, k1⟩ := (C74_language egFs egFile [] [] [] [Eg.p .VAR, Eg.x "k", Eg.p .ASSIGN, Eg.p .NOT, Eg.x "a"]
    (Eg.p .EOF) rfl (by decide +kernel)).2 (.init (ts := [Eg.p .NOT, Eg.x "a"]) (us := []) (.inl rfl) rfl rfl
      (.unary (.inl rfl) (.operand (.ident rfl) .bare)) .nil)
  obtain ⟨p2, s2, h2, k2⟩ := (C74_language egFs egFile [] [] []
    [Eg.p .VAR, Eg.x "m", Eg.p .ASSIGN, Eg.p .SUB, Eg.p .SUB, Eg.x "b"]
    (Eg.p .EOF) rfl (by decide +kernel)).2 (.init (ts := [Eg.p .SUB, Eg.p .SUB, Eg.x "b"]) (us := []) (.inl rfl) rfl rfl
      (.unary (.inr rfl) (.unary (.inr rfl) (.operand (.ident rfl) .bare))) .nil)
  obtain ⟨p, s, h, k⟩ := C74_joins egFs egFile [] [] [Eg.p .VAR, Eg.x "k", Eg.p .ASSIGN, Eg.p .NOT, Eg.x "a"]
    [Eg.p .VAR, Eg.x "m", Eg.p .ASSIGN, Eg.p .SUB, Eg.p .SUB, Eg.x "b"] (Eg.p .EOF) rfl (by decide +kernel) (by decide +kernel) p1 p2 s1 s2 h1
    (by rw [k1]; exact h2)
  exact ⟨p, s, h, k.trans k2⟩

end Ccml.Props
