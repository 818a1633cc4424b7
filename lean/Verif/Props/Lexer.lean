import Verif.LexRun
import Verif.Samples
/-!
Properties of the lexer: C06 to C10.
-/
namespace Ccml.Props
open Ccml

/-! ### C06: reading stays inside the buffer -/

/-- A text that does not end inside a comment is read without leaving the buffer `text ++ [NUL]`:
the lexer returns tokens, reports an error, or meets a number that does not fit in 32 bits.
Partial: texts ending in a comment do leave the buffer, see `C06_comment_overruns`, and numbers
out of range overflow `int32_t`. -/
theorem C06_lexing_stays_inside_partial (fl : FloatOps) (file : Nat) (text : Str)
    (h : endsInComment .normal text = false) :
    (∃ ts, lex fl file text = .ok ts) ∨ (∃ e, lex fl file text = .error (.err e)) ∨
      lex fl file text = .error .overflow :=
  lexLoop_clean fl file h (by omega)

example : endsInComment .normal (str "a = \"#\" # note\nb") = false := by decide +kernel

/-- C06 fails: every text consisting of a comment without a line end makes the lexer read past
the terminating NUL. -/
theorem C06_comment_overruns (fl : FloatOps) (file : Nat) (q : Str)
    (hq : ∀ c ∈ q, c ≠ 0 ∧ c ≠ ch '\n') :
    lex fl file (ch '#' :: q) = .error .oob :=
  lex_hash_overruns fl file _ 1 hq

example : ∀ c ∈ str " note", c ≠ 0 ∧ c ≠ ch '\n' := by decide

/-! ### C07: one end-of-file token -/

theorem reads_eof {fl : FloatOps} {file n : Nat} {s : Str} {ts : List Token}
    (h : Reads fl file n s ts) :
    ∃ us e, ts = us ++ [e] ∧ e.type = .EOF ∧ ∀ t ∈ us, t.type ≠ .EOF := by
  induction h with
  | eof => exact ⟨[], _, rfl, rfl, by simp⟩
  | nul => exact ⟨[], _, rfl, rfl, by simp⟩
  | blank _ _ ih => exact ih
  | eol _ ih =>
    obtain ⟨us, e, rfl, he, hu⟩ := ih
    refine ⟨_ :: us, e, rfl, he, fun t ht => ?_⟩
    rcases List.mem_cons.1 ht with rfl | ht
    · simp [Token.plain]
    · exact hu t ht
  | comment _ _ _ ih =>
    obtain ⟨us, e, rfl, he, hu⟩ := ih
    refine ⟨_ :: us, e, rfl, he, fun t ht => ?_⟩
    rcases List.mem_cons.1 ht with rfl | ht
    · simp [Token.plain]
    · exact hu t ht
  | token hs _ ih =>
    obtain ⟨us, e, rfl, he, hu⟩ := ih
    refine ⟨_ :: us, e, rfl, he, fun t ht => ?_⟩
    rcases List.mem_cons.1 ht with rfl | ht
    · exact hs.type.1
    · exact hu t ht

/-- The tokens of every text the lexer accepts end with the end-of-file token, which occurs
nowhere else. -/
theorem C07_one_eof (fl : FloatOps) (file : Nat) (text : Str) (ts : List Token)
    (h : lex fl file text = .ok ts) :
    ∃ us e, ts = us ++ [e] ∧ e.type = .EOF ∧ ∀ t ∈ us, t.type ≠ .EOF :=
  reads_eof (lexLoop_reads fl file h)

/-! ### C08: lines of tokens -/

theorem reads_lines {fl : FloatOps} {file n : Nat} {s : Str} {ts : List Token}
    (h : Reads fl file n s ts) (pre : Str) (hn : 0 ∉ pre ++ s) (hp : n = 1 + pre.count (ch '\n')) :
    ∃ offs : List Nat, offs.length = ts.length ∧ offs.Pairwise (· < ·) ∧ (∀ o ∈ offs, pre.length ≤ o) ∧
      ∀ (i : Nat) t o, ts[i]? = some t → offs[i]? = some o →
        o ≤ (pre ++ s).length ∧ t.line.file = file ∧
        t.line.line = (if t.type = .EOL then 2 else 1) + ((pre ++ s).take o).count (ch '\n') ∧
        (t.type = .EOF → o = (pre ++ s).length) ∧
        (t.type = .EOL → ∃ c ∈ ((pre ++ s).drop o).head?, c = ch '\n' ∨ c = ch '#') ∧
        (t.type ≠ .EOF → t.type ≠ .EOL → ∃ w, w <+: (pre ++ s).drop o ∧ Spells fl w t.line t) := by
  have push : ∀ {pre w s : Str} {m : Nat} {t : Token} {ts : List Token} {offs : List Nat}
      (_ : m = w.length) (_ : 0 < m)
      (_ : offs.length = ts.length) (_ : offs.Pairwise (· < ·))
      (_ : ∀ o ∈ offs, (pre ++ w).length ≤ o) {P : Token → Nat → Prop}
      (_ : ∀ (i : Nat) t o, ts[i]? = some t → offs[i]? = some o → P t o) (_ : P t pre.length),
      ((pre.length :: offs).length = (t :: ts).length) ∧ (pre.length :: offs).Pairwise (· < ·) ∧
        (∀ o ∈ pre.length :: offs, pre.length ≤ o) ∧
        ∀ (i : Nat) u o, (t :: ts)[i]? = some u → (pre.length :: offs)[i]? = some o → P u o := by
    intro pre w s m t ts offs hm hpos hlen hpw hle P hall ht
    refine ⟨by simp [hlen], List.pairwise_cons.2 ⟨fun o ho => ?_, hpw⟩, ?_, ?_⟩
    · have := hle o ho; simp at this; omega
    · intro o ho
      rcases List.mem_cons.1 ho with rfl | ho
      · exact Nat.le_refl _
      · have := hle o ho; simp at this; omega
    · intro i u o hu ho
      cases i with
      | zero =>
        simp only [List.getElem?_cons_zero, Option.some.injEq] at hu ho
        subst hu; subst ho; exact ht
      | succ i => exact hall i u o (by simpa using hu) (by simpa using ho)
  induction h generalizing pre with
  | eof =>
    refine ⟨[pre.length], rfl, by simp, by simp, ?_⟩
    intro i t o hi ho
    cases i with
    | zero =>
      simp only [List.getElem?_cons_zero, Option.some.injEq] at hi ho
      subst hi; subst ho
      simp [Token.plain, hp]
    | succ i => simp at hi
  | nul => exact absurd (by simp) hn
  | blank hb _ ih =>
    rename_i c s ts _
    have e : pre ++ c :: s = (pre ++ [c]) ++ s := by simp
    rw [e] at hn ⊢
    have hc : c ≠ ch '\n' := (blank_facts c hb).2.2.2
    obtain ⟨offs, h1, h2, h3, h4⟩ := ih (pre ++ [c]) hn (by rw [hp]; simp [hc])
    refine ⟨offs, h1, h2, fun o ho => ?_, h4⟩
    have := h3 o ho; simp at this; omega
  | eol _ ih =>
    rename_i s ts _
    have e : pre ++ ch '\n' :: s = (pre ++ [ch '\n']) ++ s := by simp
    obtain ⟨offs, h1, h2, h3, h4⟩ := ih (pre ++ [ch '\n']) (by rw [← e]; exact hn) (by rw [hp]; simp; omega)
    rw [← e] at h4
    refine ⟨pre.length :: offs, push (w := [ch '\n']) (s := s) rfl (by simp) h1 h2 h3 h4 ?_⟩
    simp [Token.plain, hp]; omega
  | comment hq hd _ ih =>
    rename_i m q d s ts _
    have hd' : d = ch '\n' := by
      rcases hd with h | h
      · exact h
      · subst h; exact absurd (by simp) hn
    subst hd'
    have e : pre ++ (ch '#' :: q ++ ch '\n' :: s) = (pre ++ (ch '#' :: q ++ [ch '\n'])) ++ s := by simp
    have hcq : q.count (ch '\n') = 0 := List.count_eq_zero.2 fun h => (hq _ h).2 rfl
    obtain ⟨offs, h1, h2, h3, h4⟩ := ih (pre ++ (ch '#' :: q ++ [ch '\n'])) (by rw [← e]; exact hn) (by
      rw [hp]; simp [List.count_cons, hcq, show ch '#' ≠ ch '\n' from by decide]; omega)
    rw [← e] at h4
    refine ⟨pre.length :: offs, push (w := ch '#' :: q ++ [ch '\n']) (s := s) rfl (by simp) h1 h2 h3 h4 ?_⟩
    simp [Token.plain, hp]; omega
  | token hs _ ih =>
    rename_i m w s t ts _
    have e : pre ++ (w ++ s) = (pre ++ w) ++ s := by simp
    have hcw : w.count (ch '\n') = 0 := List.count_eq_zero.2 hs.noNewline
    obtain ⟨offs, h1, h2, h3, h4⟩ := ih (pre ++ w) (by rw [← e]; exact hn) (by rw [hp]; simp [hcw])
    rw [← e] at h4
    obtain ⟨t1, t2, t3⟩ := hs.type
    refine ⟨pre.length :: offs, push (w := w) (s := s) rfl (List.length_pos_iff.2 hs.ne_nil) h1 h2 h3 h4 ?_⟩
    refine ⟨by simp, by rw [t3], by rw [t3, if_neg t2, hp]; simp, fun h => absurd h t1,
      fun h => absurd h t2, fun _ _ => ⟨w, by simp, by rw [t3]; exact hs⟩⟩

/-- Every token of an accepted text without NUL bytes has a place in it, the places are in order,
and the line of the token is one plus the number of line ends before its place; the token written
for a line end or a comment carries the number of the line that follows.  At its place the text
spells the token, for line ends there is a line end or a comment, and the end-of-file token
stands at the end. -/
theorem C08_token_lines (fl : FloatOps) (file : Nat) (text : Str) (ts : List Token)
    (hnul : 0 ∉ text) (h : lex fl file text = .ok ts) :
    ∃ offs : List Nat, offs.length = ts.length ∧ offs.Pairwise (· < ·) ∧
      ∀ (i : Nat) t o, ts[i]? = some t → offs[i]? = some o →
        o ≤ text.length ∧ t.line.file = file ∧
        t.line.line = (if t.type = .EOL then 2 else 1) + (text.take o).count (ch '\n') ∧
        (t.type = .EOF → o = text.length) ∧
        (t.type = .EOL → ∃ c ∈ (text.drop o).head?, c = ch '\n' ∨ c = ch '#') ∧
        (t.type ≠ .EOF → t.type ≠ .EOL → ∃ w, w <+: text.drop o ∧ Spells fl w t.line t) := by
  obtain ⟨offs, h1, h2, -, h4⟩ := reads_lines (lexLoop_reads fl file h) [] (by simpa using hnul) rfl
  exact ⟨offs, h1, h2, h4⟩

example : (lex toyFl 3 (str "a # x\n\nIF b<=2")).map (·.map fun t => (t.type, t.line.line)) =
    .ok [(.IDENT, 1), (.EOL, 2), (.EOL, 3), (.IF, 3), (.IDENT, 3), (.LEQ, 3), (.INT, 3), (.EOF, 3)] := by
  decide +kernel

/-- The text between the tokens: a text the lexer accepts is nothing but the spellings of its
tokens in order, blanks, line ends and comments. -/
theorem C08_nothing_skipped (fl : FloatOps) (file : Nat) (text : Str) (ts : List Token)
    (h : lex fl file text = .ok ts) : Reads fl file 1 text ts :=
  lexLoop_reads fl file h

/-! ### C09: reading back what was written -/

theorem printNat_digits (n : Nat) :
    printNat n ≠ [] ∧ (∀ c ∈ printNat n, Digit c) ∧ digitsValue (printNat n) = n := by
  have hdig : ∀ d, d < 10 → (BitVec.ofNat 8 (48 + d)).toNat = 48 + d := by
    intro d hd; simp; omega
  induction n using Nat.strongRecOn with
  | ind n ih =>
    rw [printNat]
    by_cases h : n < 10
    · rw [if_pos h]
      refine ⟨by simp, ?_, ?_⟩
      · intro c hc
        rw [List.mem_singleton] at hc
        subst hc
        simp only [Digit, hdig n h]; omega
      · simp only [digitsValue, List.foldl_cons, List.foldl_nil, hdig n h]; omega
    · rw [if_neg h]
      obtain ⟨-, h2, h3⟩ := ih (n / 10) (by omega)
      refine ⟨by simp, ?_, ?_⟩
      · intro c hc
        rcases List.mem_append.1 hc with hc | hc
        · exact h2 c hc
        · rw [List.mem_singleton] at hc
          subst hc
          simp only [Digit, hdig (n % 10) (by omega)]; omega
      · rw [digitsValue, List.foldl_append]
        rw [digitsValue] at h3
        rw [h3]
        simp only [List.foldl_cons, List.foldl_nil, hdig (n % 10) (by omega)]; omega

theorem digitsValue_concat (a b : Str) :
    digitsValue (a ++ b) = digitsValue a * 10 ^ b.length + digitsValue b := by
  have key : ∀ (b : Str) (v : Nat), b.foldl (fun v c => 10 * v + (c.toNat - 48)) v =
      v * 10 ^ b.length + b.foldl (fun v c => 10 * v + (c.toNat - 48)) 0 := by
    intro b
    induction b with
    | nil => intro v; simp
    | cons c b ih =>
      intro v
      rw [List.foldl_cons, List.foldl_cons, ih, ih (10 * 0 + (c.toNat - 48))]
      rw [List.length_cons, Nat.pow_succ, Nat.add_mul, Nat.add_mul, Nat.mul_comm 10 v,
        Nat.mul_assoc v 10, Nat.mul_comm 10 (10 ^ b.length)]
      simp only [Nat.mul_zero, Nat.zero_mul, Nat.zero_add]
      omega
  rw [digitsValue, List.foldl_append]
  exact key b _

theorem printNat_ne_nil (n : Nat) : printNat n ≠ [] := (printNat_digits n).1

/-- One iteration of the lexer on a written lexeme. -/
theorem lexStep_lexeme (fl : FloatOps) (file n : Nat) (x : Lexeme) (d : Byte) (r : Str) (h : x.Legal)
    (hd : x.CanPrecede d) :
    ∃ t n', lexStep fl file (x.spell ++ d :: r) n = .ok (.next [t] n' (d :: r)) ∧
      ∀ xs, expectedTokens fl file n (x :: xs) = t :: expectedTokens fl file n' xs := by
  cases x with
  | newline => exact ⟨.plain .EOL ⟨file, n + 1⟩, n + 1, rfl, fun _ => rfl⟩
  | fixed w t =>
    refine ⟨.plain t ⟨file, n⟩, n, ?_, fun _ => rfl⟩
    rcases List.mem_append.1 h with hk | hs
    · have hkw : keywordOf w = some t := by
        have : ∀ k ∈ keywordTable, keywordOf k.1 = some k.2 := by decide +kernel
        exact this _ hk
      obtain ⟨c, v, rfl, hc, hv⟩ := keyword_nameStart hkw
      have hmem : c :: v ∈ keywordTable.map (·.1) := List.mem_map.2 ⟨_, hk, rfl⟩
      simp only [Lexeme.CanPrecede, if_pos hmem] at hd
      simp only [Lexeme.spell]
      rw [lexStep_word fl file n hc hv hd, hkw]
    · refine lexStep_symbol fl file hs fun hw => ?_
      have hn : w ∉ keywordTable.map (·.1) := by
        have : ∀ k ∈ symbolTable, k.1 ∉ keywordTable.map (·.1) := by decide +kernel
        exact this _ hs
      simp only [Lexeme.CanPrecede] at hd
      rw [if_neg hn, if_pos (show w ∈ _ from hw)] at hd
      exact hd
  | name w =>
    obtain ⟨⟨c, v, rfl, hc, hv⟩, hk⟩ := h
    refine ⟨.text .IDENT (c :: v) ⟨file, n⟩, n, ?_, fun _ => rfl⟩
    simp only [Lexeme.spell]
    rw [lexStep_word fl file n hc hv hd, hk]
  | string w => exact ⟨.text .STRING w ⟨file, n⟩, n, lexStep_string fl file h, fun _ => rfl⟩
  | int v =>
    obtain ⟨h1, h2, h3⟩ := printNat_digits v
    have := lexStep_int fl file (r := r) (line := n) h1 h2 (by rw [h3]; exact h) hd.1 hd.2
    rw [h3] at this
    exact ⟨_, n, this, fun _ => rfl⟩
  | float a b =>
    obtain ⟨h1, h2, h3⟩ := printNat_digits a
    obtain ⟨hb, hv, hl⟩ := h
    have := lexStep_float fl file (r := r) (line := n) h1 h2 hb
      (by rw [digitsValue_concat, h3]; exact hv) hl hd
    rw [digitsValue_concat, h3] at this
    exact ⟨_, n, this, fun _ => rfl⟩

theorem spell_ne_nil (x : Lexeme) (h : x.Legal) : x.spell ≠ [] := by
  cases x with
  | newline => simp [Lexeme.spell]
  | fixed w t =>
    have : ∀ k ∈ keywordTable ++ symbolTable, k.1 ≠ [] := by decide +kernel
    exact this _ h
  | name w => obtain ⟨⟨c, v, rfl, -, -⟩, -⟩ := h; simp [Lexeme.spell]
  | string w => simp [Lexeme.spell]
  | int v => exact printNat_ne_nil v
  | float a b => simp [Lexeme.spell]

theorem lexLoop_gap (fl : FloatOps) (file : Nat) (gap rest : Str) (hg : ∀ c ∈ gap, Blank c)
    {n m line : Nat} (hn : (gap ++ rest).length + 1 < n) (hm : rest.length + 1 < m) :
    lexLoop fl file n ((gap ++ rest) ++ [0]) line = lexLoop fl file m (rest ++ [0]) line := by
  induction gap generalizing n with
  | nil => exact lexLoop_fuel fl file (.inl ⟨rest, rfl⟩) (by simp at hn ⊢; omega) (by simp; omega)
  | cons c gap ih =>
    have hb := hg c (by simp)
    have hf := blank_facts c hb
    have hstep : lexStep fl file (([c] ++ (gap ++ rest)) ++ [0]) line =
        .ok (.next [] line ((gap ++ rest) ++ [0])) := by
      simp only [List.cons_append, List.nil_append, lexStep]
      rw [if_neg hf.1, if_pos (by simpa [Blank, or_assoc] using hb)]
    have e : c :: gap ++ rest = [c] ++ (gap ++ rest) := rfl
    rw [e] at hn ⊢
    rw [lexLoop_chunk fl file (by simp) hstep hn (m := n) (by simp at hn ⊢; omega),
      ih (fun x hx => hg x (by simp [hx])) (by simp at hn ⊢; omega)]
    cases lexLoop fl file m (rest ++ [0]) line <;> rfl

theorem lexLoop_written (fl : FloatOps) (file : Nat) (xs : List (Lexeme × Str)) (h : Readable xs)
    {n line : Nat} (hn : (written xs).length + 1 < n) :
    lexLoop fl file n (written xs ++ [0]) line =
      .ok (expectedTokens fl file line (xs.map (·.1))) := by
  induction xs generalizing n line with
  | nil =>
    cases n with
    | zero => omega
    | succ n => rfl
  | cons x xs ih =>
    obtain ⟨x, gap⟩ := x
    obtain ⟨hleg, hgap, hfol, hrest⟩ := h
    have e : written ((x, gap) :: xs) = x.spell ++ (gap ++ written xs) := by
      simp [written, List.flatMap_cons]
    rw [e] at hn ⊢
    obtain ⟨d, r, hd, er⟩ : ∃ d r, x.CanPrecede d ∧ (gap ++ written xs) ++ [0] = d :: r := by
      cases hh : gap ++ written xs with
      | nil =>
        refine ⟨0, [], ?_, rfl⟩
        cases x with
        | fixed w t =>
          simp only [Lexeme.CanPrecede]
          split
          · decide
          · split
            · decide
            · trivial
        | name => show ¬ _; decide
        | string => trivial
        | int => exact ⟨by decide, by decide⟩
        | float => show ¬ _; decide
        | newline => trivial
      | cons d r => exact ⟨d, r ++ [0], hfol d (by simp [hh]), rfl⟩
    obtain ⟨t, n', hstep, hexp⟩ := lexStep_lexeme fl file line x d r hleg hd
    rw [← er, ← List.append_assoc] at hstep
    have hpos := List.length_pos_iff.2 (spell_ne_nil x hleg)
    rw [lexLoop_chunk fl file (spell_ne_nil x hleg) hstep hn (m := n)
      (by rw [List.length_append] at hn; omega),
      lexLoop_gap fl file gap (written xs) hgap (m := n) (by rw [List.length_append] at hn; omega)
        (by simp only [List.length_append] at hn; omega),
      ih hrest (by simp only [List.length_append] at hn; omega)]
    simp only [List.map_cons, hexp]
    rfl

/-- Writing any sequence of keywords, symbols, names, strings, numbers and line ends, with blanks
in between at will as long as no two of them run together, and lexing the result gives back
exactly these tokens, with the right lines. -/
theorem C09_lex_written (fl : FloatOps) (file : Nat) (xs : List (Lexeme × Str)) (h : Readable xs) :
    lex fl file (written xs) = .ok (expectedTokens fl file 1 (xs.map (·.1))) :=
  lexLoop_written fl file xs h (by omega)

/-- In particular with one blank behind every token any sequence can be written. -/
theorem C09_lex_print (fl : FloatOps) (file : Nat) (xs : List Lexeme) (h : ∀ x ∈ xs, x.Legal) :
    lex fl file (xs.flatMap fun x => x.spell ++ [ch ' ']) = .ok (expectedTokens fl file 1 xs) := by
  have hr : Readable (xs.map fun x => (x, [ch ' '])) := by
    induction xs with
    | nil => trivial
    | cons x xs ih =>
      refine ⟨h x (by simp), by simp [Blank], ?_, ih fun y hy => h y (by simp [hy])⟩
      intro d hd
      simp only [List.cons_append, List.head?_cons, Option.mem_some_iff] at hd
      subst hd
      cases x with
      | fixed w t =>
        simp only [Lexeme.CanPrecede]
        split
        · decide
        · split
          · decide
          · trivial
      | name => show ¬ _; decide
      | string => trivial
      | int => exact ⟨by decide, by decide⟩
      | float => show ¬ _; decide
      | newline => trivial
  have := C09_lex_written fl file _ hr
  rw [List.map_map] at this
  simpa [written, List.flatMap_map, Function.comp_def] using this

example : Readable [(.fixed (str "if") .IF, str " "), (.fixed (str "(") .LPAREN, []), (.name (str "iffy"), []),
    (.fixed (str "<=") .LEQ, []), (.int 2147483647, []), (.newline, []), (.string (str "a b"), [])] := by
  have b : ∀ c ∈ str " ", Blank c := by decide
  have n : ∀ c ∈ ([] : Str), Blank c := by simp
  refine ⟨?_, b, ?_, ?_, n, ?_, ⟨⟨_, _, rfl, by decide, by decide⟩, by decide +kernel⟩, n, ?_, ?_, n, ?_,
    ?_, n, ?_, trivial, n, ?_, ?_, n, ?_, trivial⟩
  · show _ ∈ _; decide +kernel
  · intro d hd; cases hd; simp only [Lexeme.CanPrecede]; rw [if_pos (by decide +kernel)]; decide
  · show _ ∈ _; decide +kernel
  · intro d hd; simp only [Lexeme.CanPrecede]; rw [if_neg (by decide +kernel), if_neg (by decide +kernel)]; trivial
  · intro d hd; cases hd; show ¬ _; decide
  · show _ ∈ _; decide +kernel
  · intro d hd; simp only [Lexeme.CanPrecede]; rw [if_neg (by decide +kernel), if_neg (by decide +kernel)]; trivial
  · show _ < _; decide
  · intro d hd
    have : d = ch '\n' := by
      have h : (([] : Str) ++ written [(.newline, []), (.string (str "a b"), [])]).head? = some (ch '\n') := rfl
      rw [h] at hd; cases hd; rfl
    subst this
    exact ⟨by decide, by decide⟩
  · intro d hd; trivial
  · show ∀ c ∈ _, _; decide
  · intro d hd; trivial

/-! ### C10: keywords -/

/-- A word - a maximal sequence of name characters that begins like a name - is one token: the
keyword it stands for when the whole word equals a keyword up to case, otherwise an identifier
with exactly the word as text.  Lexing goes on after the word as if the text began there. -/
theorem C10_words (fl : FloatOps) (file : Nat) (c : Byte) (w rest : Str)
    (hc : NameStart c) (hw : ∀ x ∈ w, NameChar x) (hr : ∀ d ∈ rest.head?, ¬ NameChar d) :
    lex fl file (c :: w ++ rest) = (lex fl file rest).map (fun ts =>
      (match keywordTable.find? (fun k => k.1 = (c :: w).map caseFold) with
        | some k => ⟨k.2, [], ⟨file, 1⟩, 0⟩
        | none => ⟨.IDENT, c :: w, ⟨file, 1⟩, 0⟩) :: ts) := by
  obtain ⟨d, r, hd, e⟩ : ∃ d r, ¬ NameChar d ∧ rest ++ [0] = d :: r := by
    cases rest with
    | nil => exact ⟨0, [], by decide, rfl⟩
    | cons d r => exact ⟨d, r ++ [0], hr d (by simp), rfl⟩
  have hstep := lexStep_word fl file (r := r) 1 hc hw hd
  rw [← e] at hstep
  unfold lex
  rw [lexLoop_chunk fl file (w := c :: w) (m := rest.length + 2) (by simp)
    (by rw [List.append_assoc]; exact hstep) (by omega) (by omega)]
  congr 1
  funext ts
  unfold keywordOf
  cases keywordTable.find? (fun k => decide (k.1 = (c :: w).map caseFold)) <;> rfl

example : (lex toyFl 0 (str "While whilex")).map (·.map fun t => (t.type, t.str)) =
    .ok [(.WHILE, []), (.IDENT, str "whilex"), (.EOF, [])] := by
  decide +kernel

end Ccml.Props
