import Verif.LexStep
/-!
Facts about whole runs of the lexer, used by the properties in `Props/Lexer.lean`.
-/
namespace Ccml

/-! ### Staying inside the buffer -/

theorem ends_plain {w r : Str} (hw : ∀ c ∈ w, c ≠ 0 ∧ c ≠ ch '"' ∧ c ≠ ch '#') :
    endsInComment .normal (w ++ r) = endsInComment .normal r := by
  induction w with
  | nil => rfl
  | cons c w ih =>
    obtain ⟨h0, hq, hh⟩ := hw c (by simp)
    rw [List.cons_append, endsInComment, if_neg h0, if_neg hq, if_neg hh]
    exact ih fun x hx => hw x (by simp [hx])

theorem ends_string {q r : Str} (hq : ∀ c ∈ q, c ≠ ch '"' ∧ c ≠ ch '\n' ∧ c ≠ 0) :
    endsInComment .string (q ++ ch '"' :: r) = endsInComment .normal r := by
  induction q with
  | nil => rw [List.nil_append, endsInComment, if_pos rfl]
  | cons c q ih =>
    obtain ⟨h1, h2, h3⟩ := hq c (by simp)
    rw [List.cons_append, endsInComment, if_neg h1, if_neg (by simp only [h2, false_or]; exact h3)]
    exact ih fun x hx => hq x (by simp [hx])

theorem ends_comment {q r : Str} {d : Byte} (hq : ∀ c ∈ q, c ≠ 0 ∧ c ≠ ch '\n')
    (hd : d = ch '\n' ∨ d = 0) :
    endsInComment .comment (q ++ d :: r) = endsInComment .normal r := by
  induction q with
  | nil => rw [List.nil_append, endsInComment, if_pos hd]
  | cons c q ih =>
    obtain ⟨h1, h2⟩ := hq c (by simp)
    rw [List.cons_append, endsInComment, if_neg (by simp only [h2, false_or]; exact h1)]
    exact ih fun x hx => hq x (by simp [hx])

theorem ends_comment_end {q : Str} (hq : ∀ c ∈ q, c ≠ 0 ∧ c ≠ ch '\n') :
    endsInComment .comment q = true := by
  induction q with
  | nil => rfl
  | cons c q ih =>
    obtain ⟨h1, h2⟩ := hq c (by simp)
    rw [endsInComment, if_neg (by simp only [h2, false_or]; exact h1)]
    exact ih fun x hx => hq x (by simp [hx])

theorem ends_hash (s : Str) : endsInComment .normal (ch '#' :: s) = endsInComment .comment s := by
  rw [endsInComment, if_neg (by decide), if_neg (by decide), if_pos rfl]

theorem ends_quote (s : Str) : endsInComment .normal (ch '"' :: s) = endsInComment .string s := by
  rw [endsInComment, if_neg (by decide), if_pos rfl]

theorem blank_facts : ∀ c : Byte, Blank c → c ≠ 0 ∧ c ≠ ch '"' ∧ c ≠ ch '#' ∧ c ≠ ch '\n' := by
  decide +kernel

/-- The outcomes of a run that stays inside the buffer. -/
def LexStop.Clean (fl : FloatOps) (r : Lex (List Token)) : Prop :=
  (∃ ts, r = .ok ts) ∨ (∃ e, r = .error (.err e)) ∨ r = .error .overflow

theorem lexLoop_clean (fl : FloatOps) (file : Nat) {n : Nat} {text : Str} {line : Nat}
    (h : endsInComment .normal text = false) (hn : text.length + 1 < n) :
    LexStop.Clean fl (lexLoop fl file n (text ++ [0]) line) := by
  have lift : ∀ {n r line ts}, LexStop.Clean fl (lexLoop fl file n r line) →
      LexStop.Clean fl (match lexLoop fl file n r line with
        | .error e => .error e | .ok us => .ok (ts ++ us)) := by
    intro n r line ts hc
    rcases hc with ⟨us, e⟩ | ⟨x, e⟩ | e
    · rw [e]; exact .inl ⟨_, rfl⟩
    · rw [e]; exact .inr (.inl ⟨_, rfl⟩)
    · rw [e]; exact .inr (.inr rfl)
  induction n generalizing text line with
  | zero => omega
  | succ n ih =>
    have hk := lexStep_kind fl file (s := text ++ [0]) ⟨text, rfl⟩ line
    simp only [lexLoop]
    generalize hst : lexStep fl file (text ++ [0]) line = o at hk
    generalize hbuf : text ++ [0] = s at hk
    cases hk with
    | done => exact .inl ⟨_, rfl⟩
    | err => exact .inr (.inl ⟨_, rfl⟩)
    | overflow => exact .inr (.inr rfl)
    | blank hb ht =>
      obtain ⟨t', rfl, rfl⟩ := cons_term ht hbuf.symm
      have hf := blank_facts _ hb
      rw [endsInComment, if_neg hf.1, if_neg hf.2.1, if_neg hf.2.2.1] at h
      exact lift (ih h (by simp at hn ⊢; omega))
    | eol ht =>
      obtain ⟨t', rfl, rfl⟩ := cons_term ht hbuf.symm
      rw [endsInComment, if_neg (by decide), if_neg (by decide), if_neg (by decide)] at h
      exact lift (ih h (by simp at hn ⊢; omega))
    | comment hq hd ht =>
      rename_i q d r
      by_cases hr : r = []
      · subst hr
        have e : (ch '#' :: q) ++ [d] = text ++ [0] := by rw [hbuf]
        have e' := (List.append_inj' e rfl).1
        rw [← e', ends_hash, ends_comment_end hq] at h
        cases h
      · have htr : Term r := by
          rcases ht with ⟨p, hp⟩
          cases p with
          | nil => simp at hp; exact absurd hp.2 hr
          | cons a p => simp at hp; exact ⟨p, hp.2⟩
        have e : (ch '#' :: q ++ [d]) ++ r = text ++ [0] := by rw [hbuf]; simp
        obtain ⟨t', rfl, rfl⟩ := append_term htr e
        have h2 : ch '#' :: q ++ [d] ++ t' = ch '#' :: (q ++ d :: t') := by simp
        rw [h2, ends_hash, ends_comment hq hd] at h
        exact lift (ih h (by simp at hn ⊢; omega))
    | token hsp hne hform ht =>
      obtain ⟨t', rfl, rfl⟩ := append_term ht hbuf.symm
      have hlen := List.length_pos_iff.2 hne
      refine lift (ih ?_ (by simp at hn ⊢; omega))
      rcases hform with hw | ⟨q, rfl, hq⟩
      · rwa [ends_plain hw] at h
      · have h2 : ch '"' :: q ++ [ch '"'] ++ t' = ch '"' :: (q ++ ch '"' :: t') := by simp
        rwa [h2, ends_quote, ends_string hq] at h

theorem lex_hash_overruns (fl : FloatOps) (file n line : Nat) {q : Str}
    (hq : ∀ c ∈ q, c ≠ 0 ∧ c ≠ ch '\n') :
    lexLoop fl file (n + 2) (ch '#' :: q ++ [0]) line = .error .oob := by
  have hs : scanWhile (fun c => c != 0 && c != ch '\n') (ch '#' :: q ++ [0]) = .ok (ch '#' :: q, [0]) := by
    refine scanWhile_append (fun c hc => ?_) (by decide)
    rcases List.mem_cons.1 hc with rfl | hc
    · decide
    · have := hq c hc; simp only [Bool.and_eq_true, bne_iff_ne]; exact this
  have h1 : lexStep fl file (ch '#' :: q ++ [0]) line
      = .ok (.next [.plain .EOL ⟨file, line + 1⟩] (line + 1) []) := by
    rw [List.cons_append] at hs ⊢
    unfold lexStep
    dsimp only
    rw [if_neg (by decide), if_neg (by decide), if_neg (by decide), if_pos rfl, hs]
  rw [lexLoop, h1]
  rfl

/-! ### Spellings contain no line ends and no token spells the end of file -/

theorem Spells.noNewline {fl : FloatOps} {w : Str} {l : SrcLine} {t : Token} (h : Spells fl w l t) :
    ch '\n' ∉ w := by
  intro hm
  have hnl : ¬ NameChar (ch '\n') := by decide
  cases h with
  | keyword hk =>
    obtain ⟨c, v, rfl, hc, hv⟩ := keyword_nameStart hk
    rcases List.mem_cons.1 hm with e | hm
    · rw [← e] at hc; exact hnl (.inl hc)
    · exact hnl (hv _ hm)
  | symbol hs =>
    have : ∀ k ∈ symbolTable, ch '\n' ∉ k.1 := by decide +kernel
    exact this _ hs hm
  | name hc hw _ =>
    rcases List.mem_cons.1 hm with e | hm
    · rw [← e] at hc; exact hnl (.inl hc)
    · exact hnl (hw _ hm)
  | string hq =>
    rename_i q
    have : ch '\n' ∈ q := by
      simpa [show ch '\n' ≠ ch '"' from by decide] using hm
    exact (hq _ this).2.1 rfl
  | int _ hw _ => exact hnl (.inr (hw _ hm))
  | float _ ha hb _ _ =>
    rcases List.mem_append.1 hm with hm | hm
    · exact hnl (.inr (ha _ hm))
    · rcases List.mem_cons.1 hm with e | hm
      · revert e; decide
      · exact hnl (.inr (hb _ hm))

theorem Spells.type {fl : FloatOps} {w : Str} {l : SrcLine} {t : Token} (h : Spells fl w l t) :
    t.type ≠ .EOF ∧ t.type ≠ .EOL ∧ t.line = l := by
  cases h with
  | keyword hk =>
    unfold keywordOf at hk
    cases hf : keywordTable.find? (fun k => decide (k.1 = w.map caseFold)) with
    | none => simp [hf] at hk
    | some k =>
      have hm := List.mem_of_find?_eq_some hf
      rw [hf] at hk
      simp only [Option.map_some, Option.some.injEq] at hk
      subst hk
      have : ∀ k ∈ keywordTable, k.2 ≠ .EOF ∧ k.2 ≠ .EOL := by decide +kernel
      exact ⟨(this _ hm).1, (this _ hm).2, rfl⟩
  | symbol hs =>
    have : ∀ k ∈ symbolTable, k.2 ≠ .EOF ∧ k.2 ≠ .EOL := by decide +kernel
    exact ⟨(this _ hs).1, (this _ hs).2, rfl⟩
  | name => exact ⟨by simp [Token.text], by simp [Token.text], rfl⟩
  | string => exact ⟨by simp [Token.text], by simp [Token.text], rfl⟩
  | int => exact ⟨by simp [Token.number], by simp [Token.number], rfl⟩
  | float => exact ⟨by simp [Token.number], by simp [Token.number], rfl⟩

theorem Spells.ne_nil {fl : FloatOps} {w : Str} {l : SrcLine} {t : Token} (h : Spells fl w l t) :
    w ≠ [] := by
  cases h with
  | keyword hk => obtain ⟨c, v, rfl, -, -⟩ := keyword_nameStart hk; simp
  | symbol hs =>
    have : ∀ k ∈ symbolTable, k.1 ≠ [] := by decide +kernel
    exact this _ hs
  | name => simp
  | string => simp
  | int h => exact h
  | float h => simp

/-! ### Running over one spelled token -/

theorem lexLoop_step (fl : FloatOps) (file : Nat) {n line line' : Nat} {s r : List Byte}
    {ts : List Token} (h : lexStep fl file s line = .ok (.next ts line' r)) :
    lexLoop fl file (n + 1) s line = (lexLoop fl file n r line').map (ts ++ ·) := by
  rw [lexLoop, h]
  dsimp only
  cases lexLoop fl file n r line' <;> rfl

theorem lexLoop_chunk (fl : FloatOps) (file : Nat) {line line' : Nat} {w text : Str} {ts : List Token}
    (hw : w ≠ []) (h : lexStep fl file ((w ++ text) ++ [0]) line = .ok (.next ts line' (text ++ [0])))
    {n m : Nat} (hn : (w ++ text).length + 1 < n) (hm : text.length + 1 < m) :
    lexLoop fl file n ((w ++ text) ++ [0]) line
      = (lexLoop fl file m (text ++ [0]) line').map (ts ++ ·) := by
  have hl := List.length_pos_iff.2 hw
  cases n with
  | zero => omega
  | succ n =>
    rw [lexLoop_step fl file h, lexLoop_fuel fl file (n := n) (m := m) (.inl ⟨text, rfl⟩)
      (by simp at hn ⊢; omega) (by simp; omega)]

end Ccml
