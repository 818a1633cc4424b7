import Verif.LexLemmas
/-!
What one iteration of the lexer does, and what it does on a spelled token.
-/
namespace Ccml

/-- The possible outcomes of one iteration. -/
inductive StepKind (fl : FloatOps) (file : Nat) (line : Nat) : List Byte → Lex LexStep → Prop
  | done {s} : StepKind fl file line (0 :: s) (.ok .done)
  | err {s e} : StepKind fl file line s (.error (.err e))
  | overflow {s} : StepKind fl file line s (.error .overflow)
  | blank {c t} : Blank c → Term t → StepKind fl file line (c :: t) (.ok (.next [] line t))
  | eol {t} : Term t →
      StepKind fl file line (ch '\n' :: t) (.ok (.next [.plain .EOL ⟨file, line + 1⟩] (line + 1) t))
  | comment {q d r} : (∀ c ∈ q, c ≠ 0 ∧ c ≠ ch '\n') → d = ch '\n' ∨ d = 0 → Term (d :: r) →
      StepKind fl file line (ch '#' :: q ++ d :: r)
        (.ok (.next [.plain .EOL ⟨file, line + 1⟩] (line + 1) r))
  | token {w r t} : Spells fl w ⟨file, line⟩ t → w ≠ [] →
      ((∀ c ∈ w, c ≠ 0 ∧ c ≠ ch '"' ∧ c ≠ ch '#') ∨
        ∃ q, w = ch '"' :: q ++ [ch '"'] ∧ ∀ c ∈ q, c ≠ ch '"' ∧ c ≠ ch '\n' ∧ c ≠ 0) → Term r →
      StepKind fl file line (w ++ r) (.ok (.next [t] line r))

theorem punct_sound : ∀ c : Byte, ∀ k, punct c = some k → ([c], k) ∈ symbolTable := by
  have : ∀ c : Byte, ∀ k ∈ punct c, ([c], k) ∈ symbolTable := by decide +kernel
  exact fun c k h => this c k (by simp [h])

theorem punctEq_sound : ∀ c : Byte, ∀ k2 k1, punctEq c = some (k2, k1) →
    ([c, ch '='], k2) ∈ symbolTable ∧ ([c], k1) ∈ symbolTable := by
  have : ∀ c : Byte, ∀ k ∈ punctEq c,
    ([c, ch '='], k.1) ∈ symbolTable ∧ ([c], k.2) ∈ symbolTable := by decide +kernel
  exact fun c k2 k1 h => this c (k2, k1) (by simp [h])

theorem nameChar_of_caseFold : ∀ c : Byte, NameChar (caseFold c) → NameChar c := by decide +kernel

theorem lexStep_kind (fl : FloatOps) (file : Nat) {s : List Byte} (hs : Term s) (line : Nat) :
    StepKind fl file line s (lexStep fl file s line) := by
  cases s with
  | nil => exact absurd rfl hs.ne_nil
  | cons c t =>
    simp only [lexStep]
    by_cases h0 : c = 0
    · subst h0; rw [if_pos rfl]; exact .done
    rw [if_neg h0]
    have ht : Term t := hs.tail h0
    by_cases hb : Blank c
    · rw [if_pos (by simpa [Blank, or_assoc] using hb)]; exact .blank hb ht
    rw [if_neg (by simpa [Blank, or_assoc] using hb)]
    by_cases hq : c = ch '"'
    · subst hq; rw [if_pos rfl]
      rcases scanString_ok ht with e | ⟨q, r, e, hsp, hqs, hr⟩
      · rw [e]; exact .err
      · rw [e, hsp]
        have := StepKind.token (file := file) (r := r) (Spells.string (fl := fl) (l := ⟨file, line⟩) hqs)
          (by simp) (.inr ⟨q, rfl, hqs⟩) hr
        simpa using this
    rw [if_neg hq]
    by_cases hh : c = ch '#'
    · subst hh; rw [if_pos rfl]
      obtain ⟨w, d, r, e, hsp, hw, hd, hr⟩ :=
        scanWhile_ok (p := fun c => c != 0 && c != ch '\n') (by decide) hs
      rw [e]
      cases w with
      | nil =>
        simp only [List.nil_append, List.cons.injEq] at hsp
        rw [← hsp.1] at hd
        exact absurd hd (by decide)
      | cons a w =>
        simp only [List.cons_append, List.cons.injEq] at hsp
        rw [hsp.2]
        refine .comment (q := w) (fun x hx => ?_) ?_ hr
        · have := hw x (by simp [hx])
          simpa using this
        · have : ¬(d ≠ 0 ∧ d ≠ ch '\n') := by simpa using hd
          by_cases hd0 : d = 0
          · exact .inr hd0
          · exact .inl (Classical.byContradiction fun h => this ⟨hd0, h⟩)
    rw [if_neg hh]
    rcases munchAny_ok hs (keyword_chars (lower c)) with e | ⟨k, w, d, r, e, hsp, hm, hd, hr⟩
    · rw [e]
      dsimp only
      cases hp : punct c with
      | some k =>
        refine StepKind.token (w := [c]) (.symbol (punct_sound c k hp)) (by simp) ?_ ht
        left; simp [hq, hh]; exact h0
      | none =>
        dsimp only
        by_cases hn : c = ch '\n'
        · subst hn; rw [if_pos rfl]; exact .eol ht
        rw [if_neg hn]
        cases hpe : punctEq c with
        | some kk =>
          rcases kk with ⟨k2, k1⟩
          obtain ⟨s2, s1⟩ := punctEq_sound c k2 k1 hpe
          cases t with
          | nil => exact absurd rfl ht.ne_nil
          | cons d r =>
            dsimp only
            by_cases hd : d = ch '='
            · subst hd; rw [if_pos rfl]
              refine StepKind.token (w := [c, ch '=']) (.symbol s2) (by simp) ?_
                (ht.tail (by decide))
              left
              simp only [List.mem_cons, List.not_mem_nil, or_false]
              rintro y (rfl | rfl)
              · exact ⟨h0, hq, hh⟩
              · decide
            · rw [if_neg hd]
              refine StepKind.token (w := [c]) (.symbol s1) (by simp) ?_ ht
              left; simp [hq, hh]; exact h0
        | none =>
          dsimp only
          by_cases hnum : isNumeric c = true
          · rw [if_pos hnum]
            have key : ∀ w : Str, (∀ x ∈ w, isNumeric x = true) → (∀ x ∈ w, Digit x) :=
              fun w h x hx => (isNumeric_iff x).1 (h x hx)
            obtain ⟨w, d, r, e, hsp, hw, hd, hr⟩ := scanWhile_ok (p := isNumeric) (by decide) hs
            have hwne : w ≠ [] := by
              rintro rfl
              simp only [List.nil_append, List.cons.injEq] at hsp
              rw [hsp.1] at hnum
              exact Bool.false_ne_true (hd.symm.trans hnum)
            simp only [scanNumber, e]
            by_cases hdot : d = ch '.'
            · subst hdot
              simp only [if_true]
              obtain ⟨w', d', r', e', hsp', hw', hd', hr'⟩ :=
                scanWhile_ok (p := isNumeric) (by decide) (hr.tail (by decide))
              rw [e']
              dsimp only
              rw [numToken_float fl (key w hw) (key w' hw')]
              by_cases hv : digitsValue (w ++ w') < 2 ^ 31 ∧ 10 ^ w'.length < 2 ^ 31
              · rw [if_pos hv, hsp, hsp']
                have := StepKind.token (file := file) (r := d' :: r')
                  (Spells.float (fl := fl) (l := ⟨file, line⟩) hwne (key w hw) (key w' hw') hv.1 hv.2)
                  (by simp) (by
                    left; intro y hy
                    simp only [List.mem_append, List.mem_cons] at hy
                    rcases hy with hy | rfl | hy
                    · have := nameChar_facts y (.inr (key w hw y hy)); exact ⟨this.1, this.2.2.2.2.1, this.2.2.2.2.2.1⟩
                    · decide
                    · have := nameChar_facts y (.inr (key w' hw' y hy)); exact ⟨this.1, this.2.2.2.2.1, this.2.2.2.2.2.1⟩)
                  hr'
                simpa using this
              · rw [if_neg hv]; exact .overflow
            · rw [if_neg hdot]
              dsimp only
              rw [numToken_int fl (key w hw)]
              by_cases hv : digitsValue w < 2 ^ 31
              · rw [if_pos hv, hsp]
                refine StepKind.token (.int hwne (key w hw) hv) hwne ?_ hr
                left; intro y hy
                have := nameChar_facts y (.inr (key w hw y hy)); exact ⟨this.1, this.2.2.2.2.1, this.2.2.2.2.2.1⟩
              · rw [if_neg hv]; exact .overflow
          · rw [if_neg hnum]
            by_cases hal : isAlpha c = true
            · rw [if_pos hal]
              obtain ⟨w, d, r, e', hsp, hw, hd, hr⟩ := scanWhile_ok (p := isAlphaNum) (by decide) hs
              rw [e']
              dsimp only
              have hw' : ∀ x ∈ w, NameChar x := fun x hx => (isAlphaNum_iff x).1 (hw x hx)
              have hd' : ¬ NameChar d := by rw [← isAlphaNum_iff]; simp [hd]
              cases w with
              | nil =>
                simp only [List.nil_append, List.cons.injEq] at hsp
                rw [← hsp.1] at hd'
                exact absurd (.inl ((isAlpha_iff c).1 hal)) hd'
              | cons a w =>
                simp only [List.cons_append, List.cons.injEq] at hsp
                obtain ⟨rfl, rfl⟩ := hsp
                have hm := munchAny_word (r := r) hw' hd' (keyword_chars (lower c))
                rw [List.cons_append, e] at hm
                have hk := keywordsFor_find c w
                have hnone : keywordOf (c :: w) = none := by
                  rw [← hk]
                  revert hm
                  cases (keywordsFor (lower c)).find? (fun k => decide ((c :: w).map caseFold = k.1)) <;> simp
                refine StepKind.token (w := c :: w) (.name ((isAlpha_iff c).1 hal) (fun x hx => hw' x (by simp [hx])) hnone)
                  (by simp) ?_ hr
                left; intro y hy
                have := nameChar_facts y (hw' y hy); exact ⟨this.1, this.2.2.2.2.1, this.2.2.2.2.2.1⟩
            · rw [if_neg hal]; exact .err
    · rw [e]
      dsimp only
      have hw' : ∀ x ∈ w, NameChar x := by
        intro x hx
        apply nameChar_of_caseFold
        exact (keyword_chars (lower c) _ hm (caseFold x) (List.mem_map_of_mem hx)).1
      have hwne : w ≠ [] := by
        rintro rfl
        have : ∀ k ∈ keywordTable, k.1 ≠ [] := by decide
        rw [keywordsFor_filter] at hm
        exact this _ (List.mem_filter.1 hm).1 rfl
      cases w with
      | nil => exact absurd rfl hwne
      | cons a w =>
        simp only [List.cons_append, List.cons.injEq] at hsp
        obtain ⟨rfl, rfl⟩ := hsp
        have hmw := munchAny_word (r := r) hw' hd (keyword_chars (lower c))
        rw [List.cons_append, e] at hmw
        have hk := keywordsFor_find c w
        have hsome : keywordOf (c :: w) = some k := by
          rw [← hk]
          revert hmw
          cases (keywordsFor (lower c)).find? (fun k => decide ((c :: w).map caseFold = k.1)) <;>
            simp
          intro h; exact h.symm
        refine StepKind.token (w := c :: w) (.keyword hsome) (by simp) ?_ hr
        left; intro y hy
        have := nameChar_facts y (hw' y hy); exact ⟨this.1, this.2.2.2.2.1, this.2.2.2.2.2.1⟩

/-! ### The loop -/

theorem append_term {w r text : List Byte} (hr : Term r) (e : w ++ r = text ++ [0]) :
    ∃ t', r = t' ++ [0] ∧ text = w ++ t' := by
  rcases hr with ⟨p, rfl⟩
  refine ⟨p, rfl, ?_⟩
  rw [← List.append_assoc] at e
  exact (List.append_inj' e rfl).1.symm

theorem cons_term {c : Byte} {r text : List Byte} (hr : Term r) (e : c :: r = text ++ [0]) :
    ∃ t', r = t' ++ [0] ∧ text = c :: t' := append_term (w := [c]) hr e

/-- A successful run splits the text into spellings. -/
theorem lexLoop_reads (fl : FloatOps) (file : Nat) {n : Nat} {text : Str} {line : Nat}
    {ts : List Token} (h : lexLoop fl file n (text ++ [0]) line = .ok ts) :
    Reads fl file line text ts := by
  induction n generalizing text line ts with
  | zero => simp [lexLoop] at h
  | succ n ih =>
    have hk := lexStep_kind fl file (s := text ++ [0]) ⟨text, rfl⟩ line
    simp only [lexLoop] at h
    generalize hst : lexStep fl file (text ++ [0]) line = o at hk h
    generalize hbuf : text ++ [0] = s at hk
    cases hk with
    | done =>
      simp only [Except.ok.injEq] at h
      subst h
      cases text with
      | nil => exact .eof
      | cons a text =>
        simp only [List.cons_append, List.cons.injEq] at hbuf
        rw [hbuf.1]; exact .nul
    | err => simp at h
    | overflow => simp at h
    | blank hb ht =>
      obtain ⟨t', rfl, rfl⟩ := cons_term ht hbuf.symm
      dsimp only at h
      cases hl : lexLoop fl file n (t' ++ [0]) line with
      | error e => rw [hl] at h; cases h
      | ok ts' =>
        simp only [hl, List.nil_append, Except.ok.injEq] at h
        subst h
        exact .blank hb (ih hl)
    | eol ht =>
      obtain ⟨t', rfl, rfl⟩ := cons_term ht hbuf.symm
      dsimp only at h
      cases hl : lexLoop fl file n (t' ++ [0]) (line + 1) with
      | error e => rw [hl] at h; cases h
      | ok ts' =>
        simp only [hl, List.cons_append, List.nil_append, Except.ok.injEq] at h
        subst h
        exact .eol (ih hl)
    | comment hq hd ht =>
      rename_i q d r
      dsimp only at h
      by_cases hr : r = []
      · subst hr
        cases n with
        | zero => simp [lexLoop] at h
        | succ n => simp [lexLoop, lexStep] at h
      · have htr : Term r := by
          rcases ht with ⟨p, hp⟩
          cases p with
          | nil => simp at hp; exact absurd hp.2 hr
          | cons a p => simp at hp; exact ⟨p, hp.2⟩
        have e : (ch '#' :: q ++ [d]) ++ r = text ++ [0] := by rw [hbuf]; simp
        obtain ⟨t', rfl, rfl⟩ := append_term htr e
        cases hl : lexLoop fl file n (t' ++ [0]) (line + 1) with
        | error e => rw [hl] at h; cases h
        | ok ts' =>
          simp only [hl, List.cons_append, List.nil_append, Except.ok.injEq] at h
          subst h
          have := Reads.comment (fl := fl) (file := file) hq hd (ih hl)
          simpa using this
    | token hsp _ _ ht =>
      obtain ⟨t', rfl, rfl⟩ := append_term ht hbuf.symm
      dsimp only at h
      cases hl : lexLoop fl file n (t' ++ [0]) line with
      | error e => rw [hl] at h; cases h
      | ok ts' =>
        simp only [hl, List.cons_append, List.nil_append, Except.ok.injEq] at h
        subst h
        exact .token hsp (ih hl)

/-! ### One iteration on a spelled token -/

theorem lexStep_word (fl : FloatOps) (file : Nat) {c d : Byte} {w r : List Byte} (line : Nat)
    (hc : NameStart c) (hw : ∀ x ∈ w, NameChar x) (hd : ¬ NameChar d) :
    lexStep fl file (c :: w ++ d :: r) line = .ok (.next
      [match keywordOf (c :: w) with
        | some k => .plain k ⟨file, line⟩
        | none => .text .IDENT (c :: w) ⟨file, line⟩] line (d :: r)) := by
  obtain ⟨f1, f2, f3, f4, f5, f6, f7, f8, f9, f10, f11⟩ := nameChar_facts c (.inl hc)
  have hcw : ∀ x ∈ c :: w, NameChar x := by
    intro x hx; rcases List.mem_cons.1 hx with rfl | hx
    · exact .inl hc
    · exact hw x hx
  have hm := munchAny_word (r := r) hcw hd (keyword_chars (lower c))
  have hk := keywordsFor_find c w
  rw [List.cons_append] at hm ⊢
  unfold lexStep
  dsimp only
  rw [if_neg f1, if_neg (by simp [f2, f3, f4]), if_neg f5, if_neg f6, hm]
  cases hf : (keywordsFor (lower c)).find? (fun k => decide ((c :: w).map caseFold = k.1)) with
  | some k =>
    rw [hf] at hk
    simp only [Option.map_some] at hk
    simp only [Option.map_some, ← hk]
  | none =>
    rw [hf] at hk
    simp only [Option.map_none] at hk
    simp only [Option.map_none, ← hk, f10, f11, if_neg f7]
    rw [if_neg (by simp [nameStart_facts c hc]), if_pos ((isAlpha_iff c).2 hc), ← List.cons_append,
      scanWhile_append (fun x hx => (isAlphaNum_iff x).2 (hcw x hx)) (by
        rw [Bool.eq_false_iff]; intro h; exact hd ((isAlphaNum_iff d).1 h))]

theorem keyword_nameStart {w : Str} {t : Tok} (h : keywordOf w = some t) :
    ∃ c v, w = c :: v ∧ NameStart c ∧ ∀ x ∈ v, NameChar x := by
  unfold keywordOf at h
  cases hf : keywordTable.find? (fun k => decide (k.1 = w.map caseFold)) with
  | none => simp [hf] at h
  | some k =>
    have hm := List.mem_of_find?_eq_some hf
    have he := List.find?_some hf
    simp only [decide_eq_true_eq] at he
    have hall : ∀ k ∈ keywordTable, k.1 ≠ [] ∧ (∀ x ∈ k.1.head?, NameStart x) ∧ (∀ x ∈ k.1, NameChar x) := by
      decide +kernel
    obtain ⟨h1, h2, h3⟩ := hall k hm
    rw [he] at h1 h2 h3
    cases w with
    | nil => simp at h1
    | cons c v =>
      refine ⟨c, v, rfl, ?_, ?_⟩
      · have key : ∀ x : Byte, NameStart (caseFold x) → NameStart x := by decide +kernel
        exact key c (h2 _ (by simp))
      · intro x hx
        exact nameChar_of_caseFold x (h3 _ (by simp; exact .inr ⟨x, hx, rfl⟩))

theorem symbol_cases : ∀ k ∈ symbolTable,
    (∃ c, k.1 = [c] ∧ c ≠ 0 ∧ ¬ Blank c ∧ c ≠ ch '"' ∧ c ≠ ch '#' ∧ c ≠ ch '\n' ∧
      keywordsFor (lower c) = [] ∧
      (punct c = some k.2 ∨ (punct c = none ∧ (punctEq c).map (·.2) = some k.2))) ∨
    (∃ c, k.1 = [c, ch '='] ∧ c ≠ 0 ∧ ¬ Blank c ∧ c ≠ ch '"' ∧ c ≠ ch '#' ∧ c ≠ ch '\n' ∧
      keywordsFor (lower c) = [] ∧
      punct c = none ∧ (punctEq c).map (·.1) = some k.2) := by
  decide +kernel

theorem lexStep_symbol (fl : FloatOps) (file : Nat) {w r : List Byte} {d : Byte} {line : Nat} {t : Tok}
    (hm : (w, t) ∈ symbolTable) (heq : w ∈ [str "=", str "<", str ">"] → d ≠ ch '=') :
    lexStep fl file (w ++ d :: r) line = .ok (.next [.plain t ⟨file, line⟩] line (d :: r)) := by
  rcases symbol_cases _ hm with ⟨c, e, h0, hb, hq, hh, hn, hkw, hp⟩ | ⟨c, e, h0, hb, hq, hh, hn, hkw, hp, hpe⟩
  · simp only at e
    subst e
    simp only [List.cons_append, List.nil_append, lexStep]
    rw [if_neg h0, if_neg (by simpa [Blank, or_assoc] using hb), if_neg hq, if_neg hh, hkw]
    simp only [munchAny]
    rcases hp with hp | ⟨hp, hpe⟩
    · simp only [hp]
    · simp only [hp, if_neg hn]
      cases hc : punctEq c with
      | none => simp [hc] at hpe
      | some kk =>
        simp only [hc, Option.map_some, Option.some.injEq] at hpe
        have hmem : [c] ∈ [str "=", str "<", str ">"] := by
          have : ∀ c : Byte, punctEq c ≠ none → [c] ∈ [str "=", str "<", str ">"] := by decide +kernel
          exact this c (by simp [hc])
        simp only [if_neg (heq hmem), hpe]
  · simp only at e
    subst e
    simp only [List.cons_append, List.nil_append, lexStep]
    rw [if_neg h0, if_neg (by simpa [Blank, or_assoc] using hb), if_neg hq, if_neg hh, hkw]
    simp only [munchAny, hp, if_neg hn]
    cases hc : punctEq c with
    | none => simp [hc] at hpe
    | some kk =>
      simp only [hc, Option.map_some, Option.some.injEq] at hpe
      simp only [if_true, hpe]

theorem lexStep_string (fl : FloatOps) (file : Nat) {q r : List Byte} {line : Nat}
    (hq : ∀ c ∈ q, c ≠ ch '"' ∧ c ≠ ch '\n' ∧ c ≠ 0) :
    lexStep fl file ((ch '"' :: q ++ [ch '"']) ++ r) line =
      .ok (.next [.text .STRING q ⟨file, line⟩] line r) := by
  simp only [List.cons_append, List.append_assoc, List.nil_append, lexStep]
  rw [if_neg (by decide), if_neg (by decide), if_pos trivial, scanString_append hq]

theorem lexStep_int (fl : FloatOps) (file : Nat) {w r : List Byte} {d : Byte} {line : Nat}
    (hne : w ≠ []) (hw : ∀ c ∈ w, Digit c) (hv : digitsValue w < 2 ^ 31) (hd : ¬ Digit d)
    (hdot : d ≠ ch '.') :
    lexStep fl file (w ++ d :: r) line =
      .ok (.next [.number .INT (BitVec.ofNat 32 (digitsValue w)) ⟨file, line⟩] line (d :: r)) := by
  cases w with
  | nil => exact absurd rfl hne
  | cons c v =>
    have hc := hw c (by simp)
    obtain ⟨f1, f2, f3, f4, f5, f6, f7, f8, f9, f10, f11⟩ := nameChar_facts c (.inr hc)
    have hdn : isNumeric d = false := by
      rw [Bool.eq_false_iff]; intro h; exact hd ((isNumeric_iff d).1 h)
    have hs := scanWhile_append (p := isNumeric) (r := r) (fun x hx => (isNumeric_iff x).2 (hw x hx)) hdn
    rw [List.cons_append] at hs
    simp only [List.cons_append, lexStep]
    rw [if_neg f1, if_neg (by simp [f2, f3, f4]), if_neg f5, if_neg f6, (digit_facts c hc).1]
    simp only [munchAny, f10, f11, if_neg f7]
    rw [if_pos ((isNumeric_iff c).2 hc)]
    simp only [scanNumber, hs, if_neg hdot]
    rw [numToken_int fl hw, if_pos hv]

theorem lexStep_float (fl : FloatOps) (file : Nat) {a b r : List Byte} {d : Byte} {line : Nat}
    (hne : a ≠ []) (ha : ∀ c ∈ a, Digit c) (hb : ∀ c ∈ b, Digit c)
    (hv : digitsValue (a ++ b) < 2 ^ 31) (hl : 10 ^ b.length < 2 ^ 31) (hd : ¬ Digit d) :
    lexStep fl file ((a ++ ch '.' :: b) ++ d :: r) line =
      .ok (.next [.number .FLOAT (fl.div (fl.ofInt (BitVec.ofNat 32 (digitsValue (a ++ b))))
          (fl.ofInt (BitVec.ofNat 32 (10 ^ b.length)))) ⟨file, line⟩] line (d :: r)) := by
  cases a with
  | nil => exact absurd rfl hne
  | cons c v =>
    have hc := ha c (by simp)
    obtain ⟨f1, f2, f3, f4, f5, f6, f7, f8, f9, f10, f11⟩ := nameChar_facts c (.inr hc)
    have hdn : isNumeric d = false := by
      rw [Bool.eq_false_iff]; intro h; exact hd ((isNumeric_iff d).1 h)
    have hs := scanWhile_append (p := isNumeric) (r := b ++ d :: r) (d := ch '.')
      (fun x hx => (isNumeric_iff x).2 (ha x hx)) (by decide)
    have hs2 := scanWhile_append (p := isNumeric) (r := r) (fun x hx => (isNumeric_iff x).2 (hb x hx)) hdn
    rw [List.cons_append] at hs
    simp only [List.cons_append, List.append_assoc, lexStep]
    rw [if_neg f1, if_neg (by simp [f2, f3, f4]), if_neg f5, if_neg f6, (digit_facts c hc).1]
    simp only [munchAny, f10, f11, if_neg f7]
    rw [if_pos ((isNumeric_iff c).2 hc)]
    simp only [scanNumber, hs, if_true, hs2]
    have := numToken_float fl ha hb ⟨file, line⟩
    rw [if_pos ⟨hv, hl⟩] at this
    rw [List.cons_append] at this
    simp only [List.cons_append, this]

/-! ### Fuel -/

theorem lexStep_shorter (fl : FloatOps) (file : Nat) {s r : List Byte} {line line' : Nat}
    {ts : List Token} (hs : Term s) (h : lexStep fl file s line = .ok (.next ts line' r)) :
    r.length < s.length ∧ (Term r ∨ r = []) := by
  have hk := lexStep_kind fl file hs line
  rw [h] at hk
  generalize ho : (Except.ok (LexStep.next ts line' r) : Lex LexStep) = o at hk
  cases hk with
  | done => simp at ho
  | err => simp at ho
  | overflow => simp at ho
  | blank _ ht => simp at ho; obtain ⟨-, -, rfl⟩ := ho; exact ⟨by simp, .inl ht⟩
  | eol ht => simp at ho; obtain ⟨-, -, rfl⟩ := ho; exact ⟨by simp, .inl ht⟩
  | comment _ _ ht =>
    rename_i d r'
    simp at ho; obtain ⟨-, -, rfl⟩ := ho
    refine ⟨by simp; omega, ?_⟩
    by_cases hr : r = []
    · exact .inr hr
    · rcases ht with ⟨p, hp⟩
      cases p with
      | nil => simp at hp; exact absurd hp.2 hr
      | cons a p => simp at hp; exact .inl ⟨p, hp.2⟩
  | token _ hne _ ht =>
    simp at ho; obtain ⟨-, -, rfl⟩ := ho
    refine ⟨?_, .inl ht⟩
    rename_i w _ _
    have := List.length_pos_iff.2 hne
    simp; omega

theorem lexLoop_fuel (fl : FloatOps) (file : Nat) {n m : Nat} {s : List Byte} {line : Nat}
    (hs : Term s ∨ s = []) (hn : s.length < n) (hm : s.length < m) :
    lexLoop fl file n s line = lexLoop fl file m s line := by
  induction n generalizing m s line with
  | zero => omega
  | succ n ih =>
    cases m with
    | zero => omega
    | succ m =>
      simp only [lexLoop]
      rcases hs with hs | rfl
      · cases h : lexStep fl file s line with
        | error e => rfl
        | ok st =>
          cases st with
          | done => rfl
          | next ts line' r =>
            obtain ⟨h1, h2⟩ := lexStep_shorter fl file hs h
            dsimp only
            rw [ih (m := m) h2 (by omega) (by omega)]
      · rfl

end Ccml
