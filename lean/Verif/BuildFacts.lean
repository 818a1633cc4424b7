import Verif.Build
import Verif.LexRun
import Verif.ParserTree
import Verif.Props.Source
import Verif.Props.Parser
/-!
Facts about the loop over the sources.
-/
namespace Ccml
open Props

/-! ### Lexing ends -/

theorem lexLoop_ends (fl : FloatOps) (file : Nat) : ∀ {n : Nat} {s : List Byte} {line : Nat},
    (Term s ∨ s = []) → s.length < n → lexLoop fl file n s line ≠ .error .diverge
  | 0, s, line, _, h => by omega
  | n + 1, s, line, hs, hn => by
    rw [lexLoop]
    rcases hs with hs | rfl
    · cases h : lexStep fl file s line with
      | error e =>
        have hk := lexStep_kind fl file hs line
        rw [h] at hk
        intro e2
        dsimp only at e2
        cases e2
        generalize ho : (Except.error LexStop.diverge : Lex LexStep) = o at hk
        cases hk <;> cases ho
      | ok st =>
        cases st with
        | done => nofun
        | next ts line' r =>
          obtain ⟨h1, h2⟩ := lexStep_shorter fl file hs h
          dsimp only
          have := lexLoop_ends fl file (n := n) (line := line') h2 (by omega)
          split
          · rename_i e he
            intro e2
            cases e2
            exact this he
          · nofun
    · nofun

theorem lex_ends (fl : FloatOps) (file : Nat) (text : Str) : lex fl file text ≠ .error .diverge :=
  lexLoop_ends fl file (.inl ⟨text, rfl⟩) (by simp)

/-- What is known of the tokens of a text: names begin like names, and no word holds a NUL. -/
def LexTok (t : Token) : Prop :=
  (t.type = .IDENT → ∃ c w, t.str = c :: w ∧ NameStart c) ∧ ∀ b ∈ t.str, b ≠ 0

theorem keyword_not_ident {w : Str} {t : Tok} (h : keywordOf w = some t) : t ≠ .IDENT := by
  unfold keywordOf at h
  obtain ⟨k, h1, rfl⟩ := Option.map_eq_some_iff.1 h
  have := List.mem_of_find?_eq_some h1
  clear h h1
  revert k
  decide

theorem symbol_not_ident : ∀ k ∈ symbolTable, k.2 ≠ .IDENT := by decide

theorem nameChar_zero {c : Byte} (h : NameChar c) : c ≠ 0 := by
  intro e
  subst e
  revert h
  decide

theorem Spells.lexTok {fl : FloatOps} {w : Str} {l : SrcLine} {t : Token} (h : Spells fl w l t) : LexTok t := by
  cases h with
  | keyword h => exact ⟨fun e => absurd e (keyword_not_ident h), by simp [Token.plain]⟩
  | symbol h => exact ⟨fun e => absurd e (symbol_not_ident _ h), by simp [Token.plain]⟩
  | name h1 h2 h3 =>
    refine ⟨fun _ => ⟨_, _, rfl, h1⟩, fun b hb => ?_⟩
    rcases List.mem_cons.1 hb with rfl | hb
    · exact nameChar_zero (.inl h1)
    · exact nameChar_zero (h2 b hb)
  | string h => exact ⟨nofun, fun b hb => (h b hb).2.2⟩
  | int h => exact ⟨nofun, by simp [Token.number]⟩
  | float h => exact ⟨nofun, by simp [Token.number]⟩

theorem plain_lexTok {ty : Tok} {l : SrcLine} (h : ty ≠ .IDENT) : LexTok (.plain ty l) :=
  ⟨fun e => absurd e h, by simp [Token.plain]⟩

theorem Reads.lexTok {fl : FloatOps} {file n : Nat} {s : Str} {ts : List Token} (h : Reads fl file n s ts) :
    ∀ t ∈ ts, LexTok t := by
  induction h with
  | eof | nul => intro t ht; cases List.mem_singleton.1 ht; exact plain_lexTok (by decide)
  | blank _ _ ih => exact ih
  | eol _ ih | comment _ _ _ ih =>
    intro t ht
    rcases List.mem_cons.1 ht with rfl | ht
    · exact plain_lexTok (by decide)
    · exact ih t ht
  | token hs _ ih =>
    intro t ht
    rcases List.mem_cons.1 ht with rfl | ht
    · exact hs.lexTok
    · exact ih t ht

theorem lex_lexTok {fl : FloatOps} {file : Nat} {text : Str} {ts : List Token} (h : lex fl file text = .ok ts) :
    ∀ t ∈ ts, LexTok t := (lexLoop_reads fl file h).lexTok

/-! ### Deciding whether words can be read back -/

instance : (x : Lexeme) → Decidable x.Legal
  | .fixed w t => inferInstanceAs (Decidable ((w, t) ∈ keywordTable ++ symbolTable))
  | .name [] => isFalse fun h => by obtain ⟨⟨c, v, h, _⟩, _⟩ := h; cases h
  | .name (c :: v) =>
    decidable_of_iff ((NameStart c ∧ ∀ d ∈ v, NameChar d) ∧ keywordOf (c :: v) = none)
      ⟨fun h => ⟨⟨c, v, rfl, h.1⟩, h.2⟩, fun h => by
        obtain ⟨⟨c', v', e, h⟩, h2⟩ := h; cases e; exact ⟨h, h2⟩⟩
  | .string w => inferInstanceAs (Decidable (∀ c ∈ w, c ≠ ch '"' ∧ c ≠ ch '\n' ∧ c ≠ 0))
  | .int n => inferInstanceAs (Decidable (n < 2 ^ 31))
  | .float a b => inferInstanceAs (Decidable ((∀ c ∈ b, Digit c) ∧ a * 10 ^ b.length + digitsValue b < 2 ^ 31 ∧
      10 ^ b.length < 2 ^ 31))
  | .newline => isTrue trivial

instance : (x : Lexeme) → (d : Byte) → Decidable (x.CanPrecede d)
  | .fixed w t, d => inferInstanceAs (Decidable (if w ∈ keywordTable.map (·.1) then ¬ NameChar d
    else if w ∈ [str "=", str "<", str ">"] then d ≠ ch '=' else True))
  | .name _, d => inferInstanceAs (Decidable (¬ NameChar d))
  | .string _, _ => isTrue trivial
  | .int _, d => inferInstanceAs (Decidable (¬ Digit d ∧ d ≠ ch '.'))
  | .float _ _, d => inferInstanceAs (Decidable (¬ Digit d))
  | .newline, _ => isTrue trivial

/-- The character behind a word, if there is one. -/
def headOk (x : Lexeme) : Option Byte → Bool
  | none => true
  | some d => decide (x.CanPrecede d)

/-- A check for `Readable`. -/
def readableB : List (Lexeme × Str) → Bool
  | [] => true
  | (x, gap) :: xs =>
    decide x.Legal && gap.all (fun c => decide (Blank c)) && headOk x (gap ++ written xs).head? && readableB xs

theorem readable_of : ∀ {xs : List (Lexeme × Str)}, readableB xs = true → Readable xs
  | [], _ => trivial
  | (x, gap) :: xs, h => by
    simp only [readableB, Bool.and_eq_true, decide_eq_true_eq, List.all_eq_true] at h
    obtain ⟨⟨⟨h1, h2⟩, h3⟩, h4⟩ := h
    refine ⟨h1, h2, fun d hd => ?_, readable_of h4⟩
    rw [Option.mem_def.1 hd] at h3
    exact of_decide_eq_true h3

/-! ### The sources that come in -/

theorem load_true {fs : Str → Option Str} {ss ss1 : List Source} {path : Str}
    (h : loadSource fs ss path = (true, ss1)) :
    ss1 = ss ∨ ∃ s, ss1 = ss ++ [s] ∧ s.path = path ∧ (fs path).isSome ∧ ∀ x ∈ ss, x.path ≠ path := by
  unfold loadSource at h
  split at h
  · cases h; exact .inl rfl
  · rename_i hany
    rw [Prod.mk.injEq] at h
    obtain ⟨h1, rfl⟩ := h
    refine .inr ⟨_, rfl, ?_⟩
    unfold Source.fromFile at h1 ⊢
    cases hf : fs path with
    | none => rw [hf] at h1; cases h1
    | some t =>
      rw [hf] at h1
      dsimp only at h1 ⊢
      split at h1
      · cases h1
      · rename_i ht
        rw [if_neg ht]
        refine ⟨rfl, rfl, fun x hx e => ?_⟩
        apply hany
        refine List.any_eq_true.2 ⟨x, hx, (pathCmp_iff _ _).2 ?_⟩
        rw [e, List.take_length]
        exact ⟨Nat.le_refl _, .refl _⟩

/-- The new sources come from files, each under its own path. -/
theorem Made.Grown.news {fs : Str → Option Str} {ss ss' : List Source} (h : Made.Grown fs ss ss') :
    ∃ new : List Source, ss' = ss ++ new ∧ (new.map (·.path)).Nodup ∧
      ∀ s ∈ new, (fs s.path).isSome ∧ ∀ x ∈ ss, x.path ≠ s.path := by
  induction h with
  | refl => exact ⟨[], by simp, by simp, by simp⟩
  | step h _ ih =>
    obtain ⟨new, rfl, h2, h3⟩ := ih
    rcases load_true h with rfl | ⟨s, rfl, rfl, h4, h5⟩
    · exact ⟨new, rfl, h2, h3⟩
    · refine ⟨s :: new, by simp, ?_, ?_⟩
      · rw [List.map_cons, List.nodup_cons]
        refine ⟨?_, h2⟩
        rw [List.mem_map]
        rintro ⟨x, hx, e⟩
        exact (h3 x hx).2 s (by simp) e.symm
      · intro x hx
        rcases List.mem_cons.1 hx with rfl | hx
        · exact ⟨h4, h5⟩
        · exact ⟨(h3 x hx).1, fun y hy => (h3 x hx).2 y (by simp [hy])⟩

theorem nodup_le {α : Type} [DecidableEq α] : ∀ {l k : List α}, l.Nodup → (∀ x ∈ l, x ∈ k) → l.length ≤ k.length
  | [], k, _, _ => by simp
  | x :: l, k, hl, h => by
    rw [List.nodup_cons] at hl
    have hx := h x (by simp)
    have := nodup_le (k := k.erase x) hl.2 fun y hy =>
      (List.mem_erase_of_ne (by rintro rfl; exact hl.1 hy)).2 (h y (by simp [hy]))
    rw [List.length_erase_of_mem hx] at this
    have := List.length_pos_of_mem hx
    simp only [List.length_cons]
    omega

theorem Made.Grown.few {fs : Str → Option Str} {ss ss' : List Source} (h : Made.Grown fs ss ss') {known : List Str}
    (hk : ∀ p, (fs p).isSome → p ∈ known) : ss'.length ≤ ss.length + known.length := by
  obtain ⟨new, rfl, h2, h3⟩ := h.news
  have := nodup_le h2 (k := known) (by
    intro p hp
    obtain ⟨s, hs, rfl⟩ := List.mem_map.1 hp
    exact hk _ (h3 s hs).1)
  simpa using this

/-! ### The loop over the sources -/

/-- One round of the loop: the source at `i` is lexed and parsed. -/
def Round (fs : Str → Option Str) (fl : FloatOps) (i : Nat) (ss : List Source) (left : List PExpr)
    (part : Prog Unit) (ss' : List Source) (left' : List PExpr) : Prop :=
  ∃ src text toks s, ss[i]? = some src ∧ src.data = some text ∧ lex fl i text = .ok toks ∧
    parse fs src ss left toks = .ok (part, s) ∧ ss' = s.srcs ∧ left' = s.exps

/-- The rounds of the loop. -/
inductive Rounds (fs : Str → Option Str) (fl : FloatOps) :
    Nat → List Source → List PExpr → List (Prog Unit) → List Source → Prop
  | done {i ss left} : ss[i]? = none → Rounds fs fl i ss left [] ss
  | next {i ss left part ss1 left1 parts ss2} : Round fs fl i ss left part ss1 left1 →
      Rounds fs fl (i + 1) ss1 left1 parts ss2 → Rounds fs fl i ss left (part :: parts) ss2

theorem build_rounds {fs : Str → Option Str} {fl : FloatOps} : ∀ {n i : Nat} {ss : List Source}
    {left : List PExpr} {acc p : Prog Unit} {ss' : List Source},
    buildSources fs fl n i ss left acc = .ok (p, ss') → ∃ parts, p = acc ++ parts.flatten ∧
      Rounds fs fl i ss left parts ss'
  | 0, i, ss, left, acc, p, ss', h => by rw [buildSources] at h; cases h
  | n + 1, i, ss, left, acc, p, ss', h => by
    rw [buildSources] at h
    split at h
    · rename_i hn
      cases h
      exact ⟨[], by simp, .done hn⟩
    · rename_i src hsrc
      split at h
      · cases h
      · rename_i text htext
        split at h
        · cases h
        · rename_i toks hl
          split at h
          · cases h
          · rename_i part s hp
            obtain ⟨parts, h1, h2⟩ := build_rounds h
            exact ⟨part :: parts, by simp [h1], .next ⟨src, text, toks, s, hsrc, htext, hl, hp, rfl, rfl⟩ h2⟩

theorem Round.made {fs : Str → Option Str} {fl : FloatOps} {i : Nat} {ss ss' : List Source}
    {left left' : List PExpr} {part : Prog Unit} (h : Round fs fl i ss left part ss' left')
    (hl : Made.Es LexTok left) :
    Made.Grown fs ss ss' ∧ (∀ x ∈ part, Made.I LexTok x) ∧ Made.Es LexTok left' := by
  obtain ⟨src, text, toks, s, _, _, h3, h4, rfl, rfl⟩ := h
  exact Made.parse_made (fun t ht _ => lex_lexTok h3 t ht) hl h4

theorem Rounds.made {fs : Str → Option Str} {fl : FloatOps} {i : Nat} {ss ss' : List Source}
    {left : List PExpr} {parts : List (Prog Unit)} (h : Rounds fs fl i ss left parts ss')
    (hl : Made.Es LexTok left) :
    Made.Grown fs ss ss' ∧ ∀ part ∈ parts, ∀ x ∈ part, Made.I LexTok x := by
  induction h with
  | done => exact ⟨.refl, by simp⟩
  | next h1 _ ih =>
    obtain ⟨k1, k2, k3⟩ := h1.made hl
    obtain ⟨m1, m2⟩ := ih k3
    refine ⟨k1.trans m1, fun part hp => ?_⟩
    rcases List.mem_cons.1 hp with rfl | hp
    · exact k2
    · exact m2 part hp

theorem Rounds.count {fs : Str → Option Str} {fl : FloatOps} {i : Nat} {ss ss' : List Source}
    {left : List PExpr} {parts : List (Prog Unit)} (h : Rounds fs fl i ss left parts ss') (hi : i ≤ ss.length)
    (hl : Made.Es LexTok left) : i + parts.length = ss'.length := by
  induction h with
  | done h => rw [List.getElem?_eq_none_iff] at h; simp; omega
  | next h1 _ ih =>
    obtain ⟨k1, k2, k3⟩ := h1.made hl
    obtain ⟨src, _, _, _, hs, _⟩ := h1
    have := (List.getElem?_eq_some_iff.1 hs).1
    obtain ⟨new, rfl, _⟩ := k1.news
    have := ih (by rw [List.length_append]; omega) k3
    rw [List.length_cons]
    omega

/-- The sources bound the rounds, and with them the fuel. -/
theorem build_fuel {fs : Str → Option Str} {fl : FloatOps}
    (N : Nat) : ∀ {n m i : Nat} {ss : List Source} {left : List PExpr}
    {acc : Prog Unit}, Made.Es LexTok left → i ≤ ss.length →
    (∀ ss', Made.Grown fs ss ss' → ss'.length ≤ N) → N < n + i → N < m + i →
    buildSources fs fl n i ss left acc = buildSources fs fl m i ss left acc ∧
      buildSources fs fl n i ss left acc ≠ .error (.fault .diverge)
  | 0, m, i, ss, left, acc, hl, hi, hN, hn, hm => by
    have := hN ss .refl
    omega
  | n + 1, m, i, ss, left, acc, hl, hi, hN, hn, hm => by
    cases m with
    | zero =>
      have := hN ss .refl
      omega
    | succ m =>
      rw [buildSources, buildSources]
      cases hs : ss[i]? with
      | none => exact ⟨rfl, nofun⟩
      | some src =>
        dsimp only
        cases hd : src.data with
        | none => exact ⟨rfl, nofun⟩
        | some text =>
          dsimp only
          cases hx : lex fl i text with
          | error e =>
            refine ⟨rfl, ?_⟩
            have := lex_ends fl i text
            rw [hx] at this
            cases e with
            | diverge => exact absurd rfl this
            | _ => nofun
          | ok toks =>
            dsimp only
            cases hp : parse fs src ss left toks with
            | error e =>
              refine ⟨rfl, ?_⟩
              rcases C15_source_text fl i text toks hx fs src ss left with ⟨_, _, h⟩ | ⟨_, h⟩ | ⟨h, _⟩ <;>
                (rw [hp] at h; cases h)
              · nofun
              · nofun
            | ok r =>
              obtain ⟨part, s⟩ := r
              dsimp only
              obtain ⟨k1, _, k3⟩ := Made.parse_made (fun t ht _ => lex_lexTok hx t ht) hl hp
              have hlt := (List.getElem?_eq_some_iff.1 hs).1
              have : ss.length ≤ s.srcs.length := by
                obtain ⟨new, e, _⟩ := k1.news
                rw [e, List.length_append]
                omega
              exact build_fuel N k3 (by omega) (fun ss' h => hN ss' (k1.trans h)) (by omega) (by omega)

end Ccml
