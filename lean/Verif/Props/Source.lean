import Verif.Source
import Verif.LexSpec
import Verif.LexLemmas
import Verif.MachineLemmas
/-!
Properties of sources and the source manager: C11, C12, C54.
-/
namespace Ccml.Props
open Ccml

/-! ### C11: the lines of a source -/

/-- The text cut after every line end. -/
def splitLines : Str → List Str
  | [] => [[]]
  | c :: t =>
    if c = ch '\n' then [c] :: splitLines t
    else
      match splitLines t with
      | [] => [[c]]
      | l :: ls => (c :: l) :: ls

theorem splitLines_ne_nil (t : Str) : splitLines t ≠ [] := by
  cases t with
  | nil => simp [splitLines]
  | cons c t =>
    simp only [splitLines]
    by_cases h : c = ch '\n'
    · simp [h]
    · rw [if_neg h]; split <;> simp

theorem splitLines_cons {c : Byte} {t : Str} (h : c ≠ ch '\n') :
    ∃ l ls, splitLines t = l :: ls ∧ splitLines (c :: t) = (c :: l) :: ls := by
  cases e : splitLines t with
  | nil => exact absurd e (splitLines_ne_nil t)
  | cons l ls => exact ⟨l, ls, rfl, by simp only [splitLines, if_neg h, e]⟩

/-- The cut text is the whole text. -/
theorem splitLines_flatten (t : Str) : (splitLines t).flatten = t := by
  induction t with
  | nil => rfl
  | cons c t ih =>
    by_cases h : c = ch '\n'
    · simp only [splitLines, if_pos h, List.flatten_cons, ih]; rfl
    · obtain ⟨l, ls, e1, e2⟩ := splitLines_cons (t := t) h
      rw [e2]
      rw [e1] at ih
      simp only [List.flatten_cons, List.cons_append, List.cons.injEq, true_and] at ih ⊢
      exact ih

theorem splitLines_length (t : Str) : (splitLines t).length = 1 + t.count (ch '\n') := by
  induction t with
  | nil => rfl
  | cons c t ih =>
    by_cases h : c = ch '\n'
    · subst h; simp [splitLines, ih]; omega
    · obtain ⟨l, ls, e1, e2⟩ := splitLines_cons (t := t) h
      rw [e2]; rw [e1] at ih
      simp only [List.length_cons] at ih ⊢
      rw [ih, List.count_cons_of_ne h]

/-- Every line but the last ends with its only line end, the last line has none. -/
theorem splitLines_shape (t : Str) (i : Nat) (l : Str) (h : (splitLines t)[i]? = some l) :
    (i + 1 < (splitLines t).length → ∃ b, l = b ++ [ch '\n'] ∧ ch '\n' ∉ b) ∧
    (i + 1 = (splitLines t).length → ch '\n' ∉ l) := by
  induction t generalizing i l with
  | nil =>
    cases i with
    | zero => simp [splitLines] at h; subst h; simp [splitLines]
    | succ i => simp [splitLines] at h
  | cons c t ih =>
    by_cases hc : c = ch '\n'
    · have e : splitLines (c :: t) = [c] :: splitLines t := by simp only [splitLines, if_pos hc]
      rw [e] at h ⊢
      cases i with
      | zero =>
        simp only [List.getElem?_cons_zero, Option.some.injEq] at h
        subst h
        refine ⟨fun _ => ⟨[], by rw [hc]; rfl, by simp⟩, fun hl => ?_⟩
        have := List.length_pos_iff.2 (splitLines_ne_nil t)
        rw [List.length_cons] at hl; omega
      | succ i =>
        rw [List.getElem?_cons_succ] at h
        simpa using ih i l h
    · obtain ⟨m, ms, e1, e2⟩ := splitLines_cons (t := t) hc
      rw [e2] at h ⊢
      rw [e1] at ih
      cases i with
      | zero =>
        simp only [List.getElem?_cons_zero, Option.some.injEq] at h
        subst h
        obtain ⟨h1, h2⟩ := ih 0 m (by simp)
        refine ⟨fun hl => ?_, fun hl => ?_⟩
        · obtain ⟨b, rfl, hb⟩ := h1 (by simpa using hl)
          exact ⟨c :: b, rfl, by simp [hb, Ne.symm hc]⟩
        · have := h2 (by simpa using hl)
          simp [this, Ne.symm hc]
      | succ i =>
        rw [List.getElem?_cons_succ] at h
        have := ih (i + 1) l (by simpa using h)
        simpa using this

/-- The line found through a table of line starts. -/
def lineAt (text : Str) (lines : List Nat) (i : Nat) : Option Str :=
  match lines[i]?, lines[i + 1]? with
  | some a, some b => some ((text.drop a).take (b - a))
  | some a, none => some (cstr (text.drop a))
  | none, _ => none

theorem splitLines_noNl {cur : Str} (h : ch '\n' ∉ cur) : splitLines cur = [cur] := by
  induction cur with
  | nil => rfl
  | cons c cur ih =>
    simp only [List.mem_cons, not_or] at h
    obtain ⟨l, ls, e1, e2⟩ := splitLines_cons (t := cur) (Ne.symm h.1)
    rw [ih h.2] at e1
    simp only [List.cons.injEq] at e1
    rw [e2, ← e1.1, ← e1.2]

theorem splitLines_nl {cur t : Str} (h : ch '\n' ∉ cur) :
    splitLines (cur ++ ch '\n' :: t) = (cur ++ [ch '\n']) :: splitLines t := by
  induction cur with
  | nil => simp [splitLines]
  | cons c cur ih =>
    simp only [List.mem_cons, not_or] at h
    obtain ⟨l, ls, e1, e2⟩ := splitLines_cons (t := cur ++ ch '\n' :: t) (Ne.symm h.1)
    rw [ih h.2] at e1
    simp only [List.cons.injEq] at e1
    rw [List.cons_append, e2, ← e1.1, ← e1.2]
    rfl

theorem lineAt_spec (t : Str) : ∀ (pre cur : Str), (∀ b ∈ cur ++ t, b ≠ 0) → ch '\n' ∉ cur → ∀ i,
    lineAt (pre ++ cur ++ t) (pre.length :: genLinesFrom (pre ++ cur).length t) i
      = (splitLines (cur ++ t))[i]? := by
  induction t with
  | nil =>
    intro pre cur h0 hc i
    rw [List.append_nil, List.append_nil, splitLines_noNl hc]
    rw [List.append_nil] at h0
    cases i with
    | zero => simp [lineAt, genLinesFrom, cstr_id h0]
    | succ i => simp [lineAt, genLinesFrom]
  | cons c t ih =>
    intro pre cur h0 hc i
    have hc0 : c ≠ 0 := h0 c (by simp)
    by_cases hn : c = ch '\n'
    · subst hn
      rw [splitLines_nl hc]
      have e : pre ++ cur ++ ch '\n' :: t = (pre ++ cur ++ [ch '\n']) ++ [] ++ t := by simp
      have e2 : (pre ++ cur).length + 1 = (pre ++ cur ++ [ch '\n']).length := by
        simp only [List.length_append, List.length_cons, List.length_nil]
      have hg : genLinesFrom (pre ++ cur).length (ch '\n' :: t) =
          (pre ++ cur ++ [ch '\n']).length :: genLinesFrom (pre ++ cur ++ [ch '\n'] ++ []).length t := by
        simp only [genLinesFrom, if_neg hc0, if_true, e2, List.append_nil]
      rw [hg]
      cases i with
      | zero =>
        simp only [lineAt, List.getElem?_cons_zero, List.getElem?_cons_succ, Option.some.injEq]
        rw [show pre ++ cur ++ ch '\n' :: t = pre ++ ((cur ++ [ch '\n']) ++ t) by simp,
          List.drop_left, show (pre ++ cur ++ [ch '\n']).length - pre.length = (cur ++ [ch '\n']).length by
            simp only [List.length_append, List.length_cons, List.length_nil]; omega, List.take_left]
      | succ i =>
        have := ih (pre ++ cur ++ [ch '\n']) [] (fun b hb => h0 b (by simp at hb ⊢; simp [hb])) (by simp) i
        rw [← e] at this
        rw [List.nil_append] at this
        rw [List.getElem?_cons_succ, ← this]
        simp only [lineAt, List.getElem?_cons_succ]
    · have e : pre ++ cur ++ c :: t = pre ++ (cur ++ [c]) ++ t := by simp
      have e3 : cur ++ c :: t = (cur ++ [c]) ++ t := by simp
      have e2 : (pre ++ cur).length + 1 = (pre ++ (cur ++ [c])).length := by simp; omega
      rw [e3] at h0 ⊢
      rw [e, ← ih pre (cur ++ [c]) h0 (by simp [hc, Ne.symm hn]) i]
      simp only [genLinesFrom, if_neg hc0, if_neg hn, e2]

theorem getLine_eq (s : Source) (num : BitVec 32) (h : num.toNat ≠ 0) :
    s.getLine num = .ok (match lineAt (s.data.getD []) s.lines (num.toNat - 1) with
      | some l => (true, some l) | none => (false, none)) := by
  unfold Source.getLine lineAt
  rw [if_neg h]
  dsimp only
  cases s.lines[num.toNat - 1]? with
  | none => rfl
  | some a => cases s.lines[num.toNat - 1 + 1]? <;> rfl

/-- Line `num` of a loaded non-empty text without NUL is the piece `num` of the text cut after
every line end, and there is no line beyond the last piece.  Together with
`splitLines_flatten` (the pieces make up the text) and `splitLines_shape` (every piece but the
last ends with its only line end). -/
theorem C11_lines (text : Str) (h0 : ∀ b ∈ text, b ≠ 0) (hne : text ≠ []) :
    ∃ s, Source.fromString text = (true, s) ∧ s.data = some text ∧
      ∀ num : BitVec 32, num ≠ 0 →
        s.getLine num = .ok (match (splitLines text)[num.toNat - 1]? with
          | some l => (true, some l)
          | none => (false, none)) := by
  have hs : Source.fromString text = (true, ⟨str "unknown", some text, genLines text⟩) := by
    simp only [Source.fromString, cstr_id h0]
    rw [if_neg (by simp [hne])]
  refine ⟨_, hs, rfl, fun num hnum => ?_⟩
  rw [getLine_eq _ num (fun h => hnum (BitVec.eq_of_toNat_eq (by simpa using h)))]
  have := lineAt_spec text [] [] (by simpa using h0) (by simp) (num.toNat - 1)
  simp only [List.nil_append, List.length_nil] at this
  simp only [Option.getD_some, genLines, this]

/-- The same for a text read from a file. -/
theorem C11_file_lines (fs : Str → Option Str) (path text : Str) (hf : fs path = some text)
    (h0 : ∀ b ∈ text, b ≠ 0) (hne : text ≠ []) :
    ∃ s, Source.fromFile fs path = (true, s) ∧ s.path = path ∧ s.data = some text ∧
      ∀ num : BitVec 32, num ≠ 0 →
        s.getLine num = .ok (match (splitLines text)[num.toNat - 1]? with
          | some l => (true, some l)
          | none => (false, none)) := by
  have hs : Source.fromFile fs path = (true, ⟨path, some text, genLines text⟩) := by
    simp only [Source.fromFile, hf]
    rw [if_neg (by simp [hne])]
  refine ⟨_, hs, rfl, rfl, fun num hnum => ?_⟩
  rw [getLine_eq _ num (fun h => hnum (BitVec.eq_of_toNat_eq (by simpa using h)))]
  have := lineAt_spec text [] [] (by simpa using h0) (by simp) (num.toNat - 1)
  simp only [List.nil_append, List.length_nil] at this
  simp only [Option.getD_some, genLines, this]

/-- Concatenating all lines gives the text back. -/
theorem C11_lines_concat (text : Str) (h0 : ∀ b ∈ text, b ≠ 0) (hne : text ≠ [])
    (hsize : text.length + 1 < 2 ^ 32) :
    ∃ s, Source.fromString text = (true, s) ∧
      ((List.range (1 + text.count (ch '\n'))).map (fun i =>
        match s.getLine (BitVec.ofNat 32 (i + 1)) with
        | .ok (true, some l) => l
        | _ => [])).flatten = text := by
  obtain ⟨s, hs, -, hl⟩ := C11_lines text h0 hne
  refine ⟨s, hs, ?_⟩
  have hcount : text.count (ch '\n') ≤ text.length := List.count_le_length
  have : (List.range (1 + text.count (ch '\n'))).map (fun i =>
        match s.getLine (BitVec.ofNat 32 (i + 1)) with
        | .ok (true, some l) => l
        | _ => []) = splitLines text := by
    apply List.ext_getElem?
    intro i
    rw [List.getElem?_map]
    by_cases hi : i < 1 + text.count (ch '\n')
    · have hn : (BitVec.ofNat 32 (i + 1)).toNat = i + 1 := by
        rw [BitVec.toNat_ofNat, Nat.mod_eq_of_lt (by omega)]
      have hl' := hl (BitVec.ofNat 32 (i + 1)) (fun h => by
        have := congrArg BitVec.toNat h; rw [hn] at this; simp at this)
      rw [hn] at hl'
      have hlt : i < (splitLines text).length := by rw [splitLines_length]; exact hi
      rw [List.getElem?_range hi]
      simp only [Nat.add_sub_cancel, List.getElem?_eq_getElem hlt] at hl'
      simp only [Option.map_some, hl', List.getElem?_eq_getElem hlt]
    · rw [List.getElem?_eq_none (by simp; omega), List.getElem?_eq_none (by rw [splitLines_length]; omega)]
      rfl
  rw [this, splitLines_flatten]

example : splitLines (str "a\n\nbc") = [str "a\n", str "\n", str "bc"] := by decide +kernel

/-! ### C12: loading files -/

/-- Two path characters the compiler does not distinguish. -/
def PathChar (c d : Byte) : Prop :=
  caseFold c = caseFold d ∨ (c = ch '\\' ∧ d = ch '/') ∨ (c = ch '/' ∧ d = ch '\\')

/-- Two spellings of one path. -/
def SamePath (x y : Str) : Prop :=
  x.length = y.length ∧ ∀ (i : Nat) c d, x[i]? = some c → y[i]? = some d → PathChar c d

theorem pathCmp_iff (x y : Str) :
    pathCmp x y = true ↔ x.length ≤ y.length ∧ SamePath x (y.take x.length) := by
  induction x generalizing y with
  | nil => simp [pathCmp, SamePath]
  | cons c x ih =>
    cases y with
    | nil => simp [pathCmp]
    | cons d y =>
      have key : pathCmp (c :: x) (d :: y) = true ↔ PathChar c d ∧ pathCmp x y = true := by
        simp only [pathCmp, PathChar, lower_eq]
        by_cases h1 : caseFold c = caseFold d
        · simp [h1]
        · by_cases h2 : c = ch '\\' ∧ d = ch '/'
          · simp [h1, h2]
          · by_cases h3 : c = ch '/' ∧ d = ch '\\'
            · simp [h1, h2, h3]
            · simp [h1, h2, h3]
      rw [key, ih]
      constructor
      · rintro ⟨hcd, hl, hs1, hs2⟩
        refine ⟨by simpa using hl, by simp; omega, ?_⟩
        intro i a b ha hb
        cases i with
        | zero =>
          simp only [List.getElem?_cons_zero, Option.some.injEq, List.length_cons, List.take_succ_cons] at ha hb
          subst ha; subst hb; exact hcd
        | succ i =>
          simp only [List.getElem?_cons_succ, List.length_cons, List.take_succ_cons] at ha hb
          exact hs2 i a b ha hb
      · rintro ⟨hl, hs1, hs2⟩
        refine ⟨hs2 0 c d rfl rfl, by simpa using hl, by simp at hl ⊢; omega, ?_⟩
        intro i a b ha hb
        exact hs2 (i + 1) a b (by simpa using ha) (by simpa using hb)

theorem SamePath.refl (x : Str) : SamePath x x :=
  ⟨rfl, fun i c d hc hd => by rw [hc] at hd; cases hd; exact .inl rfl⟩

/-- The sources after a sequence of loads. -/
def loadAll (fs : Str → Option Str) (paths : List Str) : List Source :=
  paths.foldl (fun ss p => (loadSource fs ss p).2) []

/-- Every source is a failed load, or holds the content of the file its path names. -/
def FromFs (fs : Str → Option Str) (s : Source) : Prop :=
  s = .empty ∨ ∃ t, t ≠ [] ∧ fs s.path = some t ∧ s.data = some t

theorem fromFile_fs (fs : Str → Option Str) (p : Str) : FromFs fs (Source.fromFile fs p).2 := by
  unfold Source.fromFile
  cases h : fs p with
  | none => exact .inl rfl
  | some t =>
    dsimp only
    by_cases ht : t.length = 0
    · rw [if_pos ht]; exact .inl rfl
    · rw [if_neg ht]; exact .inr ⟨t, by intro e; subst e; exact ht rfl, h, rfl⟩

theorem load_fs {fs : Str → Option Str} {ss : List Source} (h : ∀ s ∈ ss, FromFs fs s) (p : Str) :
    ∀ s ∈ (loadSource fs ss p).2, FromFs fs s := by
  unfold loadSource
  split
  · exact h
  · intro s hs
    rcases List.mem_append.1 hs with hs | hs
    · exact h s hs
    · rw [List.mem_singleton] at hs; subst hs; exact fromFile_fs fs p

theorem loadAll_fs (fs : Str → Option Str) (paths : List Str) : ∀ s ∈ loadAll fs paths, FromFs fs s := by
  unfold loadAll
  have : ∀ ss : List Source, (∀ s ∈ ss, FromFs fs s) →
      ∀ s ∈ paths.foldl (fun ss p => (loadSource fs ss p).2) ss, FromFs fs s := by
    induction paths with
    | nil => exact fun ss h => h
    | cons p ps ih => exact fun ss h => ih _ (load_fs h p)
  exact this [] (by simp)

/-- After any sequence of loads, if loading `path` succeeds then the content of that file is among
the sources.  Partial: this needs that no loaded path is (up to case and kind of slash) a proper
beginning of `path`, that no load failed before, and that the file system does not distinguish
spellings of one path; see `C12_prefix_skipped` and `C12_after_failure` for what happens
otherwise. -/
theorem C12_load_partial (fs : Str → Option Str) (history : List Str) (path : Str)
    (hfs : ∀ p q, SamePath p q → fs p = fs q)
    (hpre : ∀ s ∈ loadAll fs history, ∀ n < path.length, ¬ SamePath s.path (path.take n))
    (h : (loadSource fs (loadAll fs history) path).1 = true) (hne : path ≠ []) :
    ∃ t, t ≠ [] ∧ fs path = some t ∧
      ∃ s ∈ (loadSource fs (loadAll fs history) path).2, SamePath s.path path ∧ s.data = some t := by
  unfold loadSource at h ⊢
  by_cases hany : ((loadAll fs history).any fun s => pathCmp s.path path) = true
  · rw [if_pos hany] at h ⊢
    obtain ⟨s, hs, hc⟩ := List.any_eq_true.1 hany
    obtain ⟨hl, hsame⟩ := (pathCmp_iff _ _).1 hc
    have hlen : s.path.length = path.length := by
      refine Nat.le_antisymm hl (Nat.not_lt.1 fun hlt => hpre s hs _ hlt hsame)
    rw [hlen, List.take_length] at hsame
    rcases loadAll_fs fs history s hs with rfl | ⟨t, ht, hft, hd⟩
    · exact absurd (List.length_eq_zero_iff.1 hlen.symm) hne
    · exact ⟨t, ht, by rw [← hfs _ _ hsame]; exact hft, s, hs, hsame, hd⟩
  · rw [if_neg hany] at h ⊢
    rcases hf : fs path with _ | t
    · simp [Source.fromFile, hf] at h
    · have ht : t ≠ [] := by
        intro e; subst e; simp [Source.fromFile, hf] at h
      refine ⟨t, ht, rfl, (Source.fromFile fs path).2, by simp, ?_, ?_⟩
      · simp only [Source.fromFile, hf]
        rw [if_neg (by simp [ht])]
        exact .refl _
      · simp only [Source.fromFile, hf]
        rw [if_neg (by simp [ht])]

/-- No file is loaded twice: the paths of the sources are pairwise different, whatever is loaded. -/
theorem C12_load_once (fs : Str → Option Str) (history : List Str) :
    (loadAll fs history).Pairwise (fun s t => s.path ≠ t.path ∨ t = .empty) := by
  unfold loadAll
  have : ∀ ss : List Source, ss.Pairwise (fun s t => s.path ≠ t.path ∨ t = .empty) →
      (history.foldl (fun ss p => (loadSource fs ss p).2) ss).Pairwise
        (fun s t => s.path ≠ t.path ∨ t = .empty) := by
    induction history with
    | nil => exact fun ss h => h
    | cons p ps ih =>
      intro ss h
      refine ih _ ?_
      unfold loadSource
      dsimp only
      split
      · exact h
      · rename_i hany
        refine List.pairwise_append.2 ⟨h, by simp, fun s hs t ht => ?_⟩
        rw [List.mem_singleton] at ht
        subst ht
        rcases hf : fs p with _ | u
        · right; simp [Source.fromFile, hf]
        · by_cases hu : u.length = 0
          · right; simp [Source.fromFile, hf, hu]
          · left
            intro e
            apply hany
            refine List.any_eq_true.2 ⟨s, hs, (pathCmp_iff _ _).2 ?_⟩
            have e2 : (Source.fromFile fs p).2.path = p := by
              simp only [Source.fromFile, hf]; rw [if_neg hu]
            rw [e2] at e
            rw [e, List.take_length]
            exact ⟨Nat.le_refl _, .refl _⟩
  exact this [] .nil

/-- C12 fails: once `p` is loaded, loading any path that extends `p` reports success and loads
nothing. -/
theorem C12_prefix_skipped (fs : Str → Option Str) (p q t : Str) (hp : fs p = some t) (ht : t ≠ []) :
    loadSource fs (loadAll fs [p]) (p ++ q) = (true, loadAll fs [p]) ∧
      loadAll fs [p] = [⟨p, some t, genLines t⟩] := by
  have h : loadAll fs [p] = [⟨p, some t, genLines t⟩] := by
    simp only [loadAll, List.foldl_cons, List.foldl_nil, loadSource, List.any_nil, Source.fromFile, hp]
    rw [if_neg (by simp), if_neg (by simp [ht])]
    rfl
  refine ⟨?_, h⟩
  unfold loadSource
  rw [if_pos]
  rw [h]
  simp only [List.any_cons, List.any_nil, Bool.or_false]
  refine (pathCmp_iff _ _).2 ⟨by simp, ?_⟩
  rw [List.take_left]
  exact .refl _

/-- C12 fails: after one failed load every further load reports success and loads nothing. -/
theorem C12_after_failure (fs : Str → Option Str) (history : List Str) (p q : Str)
    (hf : (loadSource fs (loadAll fs history) p).1 = false) :
    loadSource fs (loadAll fs (history ++ [p])) q = (true, loadAll fs (history ++ [p])) := by
  have h : loadAll fs (history ++ [p]) = (loadSource fs (loadAll fs history) p).2 := by
    simp [loadAll]
  have hm : Source.empty ∈ loadAll fs (history ++ [p]) := by
    rw [h]
    unfold loadSource at hf ⊢
    split
    · rename_i hany; simp [hany] at hf
    · rename_i hany
      rw [if_neg hany] at hf
      refine List.mem_append.2 (.inr (List.mem_singleton.2 ?_))
      unfold Source.fromFile at hf ⊢
      cases hfp : fs p with
      | none => rfl
      | some t =>
        rw [hfp] at hf
        dsimp only at hf ⊢
        split
        · rfl
        · rename_i ht; rw [if_neg ht] at hf; cases hf
  unfold loadSource
  rw [if_pos (List.any_eq_true.2 ⟨_, hm, rfl⟩)]

/-- A file system with two files. -/
def toyFs : Str → Option Str := fun p =>
  if p = str "a" then some (str "x") else if p = str "b/c" then some (str "y") else none

example : (loadSource toyFs (loadAll toyFs [str "a"]) (str "b/c")).1 = true ∧
    (∀ s ∈ loadAll toyFs [str "a"], ∀ n < 3, pathCmp s.path ((str "b/c").take n) = false) := by
  decide +kernel

/-! ### C54: import paths -/

/-- A file imported from `dir/file` is looked up in `dir`, whichever kind of slash separates
them.  Partial: a source whose path has no directory looks its imports up in the root directory,
see `C54_import_from_bare_file`. -/
theorem C54_import_relative_partial (s : Source) (dir file p : Str) (c : Byte)
    (hc : c = ch '/' ∨ c = ch '\\') (hpath : s.path = dir ++ c :: file)
    (hfile : ∀ d ∈ file, d ≠ ch '/' ∧ d ≠ ch '\\') :
    importedPath s p = dir ++ ch '/' :: p := by
  have hrf : ∀ (e : Byte), (∀ d ∈ file, d ≠ e) → rfind0 e (dir ++ c :: file) =
      if c = e then dir.length else rfind0 e dir := by
    intro e he
    have htw : (file.reverse.takeWhile (fun d => d != e)) = file.reverse := by
      have : ∀ l : Str, (∀ d ∈ l, d ≠ e) → l.takeWhile (fun d => d != e) = l := by
        intro l hl
        induction l with
        | nil => rfl
        | cons a l ih =>
          rw [List.takeWhile_cons_of_pos (by simpa using hl a (by simp)), ih fun d hd => hl d (by simp [hd])]
      exact this _ fun d hd => he d (by simpa using hd)
    unfold rfind0
    rw [List.reverse_append, List.reverse_cons, List.append_assoc]
    have happ : ∀ (l m : Str), (∀ d ∈ l, (d != e) = true) →
        (l ++ m).takeWhile (fun d => d != e) = l ++ m.takeWhile (fun d => d != e) := by
      intro l m hl
      induction l with
      | nil => rfl
      | cons a l ih =>
        rw [List.cons_append, List.takeWhile_cons_of_pos (p := fun d => d != e) (hl a (by simp)), ih fun d hd => hl d (by simp [hd])]
        rfl
    rw [happ _ _ (fun d hd => by simpa using he d (by simpa using hd))]
    by_cases hce : c = e
    · rw [if_pos hce, List.cons_append, List.takeWhile_cons_of_neg (by simp [hce])]
      simp; omega
    · rw [if_neg hce, List.cons_append, List.takeWhile_cons_of_pos (by simpa using hce)]
      simp; omega
  have hle : ∀ (e : Byte) (d : Str), rfind0 e d ≤ d.length := by
    intro e d; unfold rfind0; omega
  have hb : basePath s.path = dir := by
    unfold basePath
    rw [hpath, hrf _ (fun d hd => (hfile d hd).1), hrf _ (fun d hd => (hfile d hd).2)]
    have h1 := hle (ch '/') dir
    have h2 := hle (ch '\\') dir
    have : max (if c = ch '/' then dir.length else rfind0 (ch '/') dir)
        (if c = ch '\\' then dir.length else rfind0 (ch '\\') dir) = dir.length := by
      rcases hc with rfl | rfl
      · rw [if_pos rfl, if_neg (by decide)]; omega
      · rw [if_neg (by decide), if_pos rfl]; omega
    rw [this, List.take_left]
  rw [importedPath, hb]

/-- A source whose path names no directory looks its imports up in the root directory. -/
theorem C54_import_from_bare_file (s : Source) (p : Str)
    (hfile : ∀ d ∈ s.path, d ≠ ch '/' ∧ d ≠ ch '\\') :
    importedPath s p = ch '/' :: p := by
  have hrf : ∀ (e : Byte), (∀ d ∈ s.path, d ≠ e) → rfind0 e s.path = 0 := by
    intro e he
    have : ∀ l : Str, (∀ d ∈ l, d ≠ e) → l.takeWhile (fun d => d != e) = l := by
      intro l hl
      induction l with
      | nil => rfl
      | cons a l ih =>
        rw [List.takeWhile_cons_of_pos (by simpa using hl a (by simp)), ih fun d hd => hl d (by simp [hd])]
    unfold rfind0
    rw [this _ fun d hd => he d (by simpa using hd)]
    simp
  rw [importedPath, basePath, hrf _ fun d hd => (hfile d hd).1, hrf _ fun d hd => (hfile d hd).2]
  rfl

example : importedPath ⟨str "lib\\src/a.txt", none, []⟩ (str "b.txt") = str "lib\\src/b.txt" := by
  decide +kernel

end Ccml.Props
