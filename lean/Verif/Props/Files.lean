import Verif.Files
import Verif.Driver
import Verif.SdlDriver
import Verif.Props.Words
import Verif.Props.Build
import Verif.Props.Source
/-!
# C83: a program depends on the files it imports only
-/
namespace Ccml.Props

variable {P M : Type}

/-- The text at `path` has a statement `import "…"` for the file `p`: the tokens `import` and a string, next to each
other, wherever the source stands in the list of sources. -/
def Imports (fl : FloatOps) (path text p : Str) : Prop :=
  ∃ i toks t u, lex fl i text = .ok toks ∧ [t, u] <:+: toks ∧ t.type = .IMPORT ∧ u.type = .STRING ∧
    p = cstr (basePath path ++ ch '/' :: cstr u.str)

/-- The files that can be reached by imports from the sources given. -/
inductive Needed (fs : Str → Option Str) (fl : FloatOps) (given : List Source) : Str → Prop
  | given {s text p} : s ∈ given → s.data = some text → Imports fl s.path text p → Needed fs fl given p
  | file {q text p} : Needed fs fl given q → fs q = some text → Imports fl q text p → Needed fs fl given p

/-- Files that agree on those needed give the same program, or the same error. -/
theorem C83_build (fs fs' : Str → Option Str) (fl : FloatOps) (L : Layout) (opt : Bool)
    (sys : List (Str × Option Nat)) (n : Nat) (given : List Source)
    (h : ∀ p, Needed fs fl given p → fs p = fs' p) :
    build fs fl L opt sys n given = build fs' fl L opt sys n given := by
  unfold build
  cases given with
  | nil => rfl
  | cons s ss =>
    dsimp only
    rw [Files.sources_alike (A := Needed fs fl (s :: ss)) h
      (fun p text hp hf i toks hl t u hi ht hu => .file hp hf ⟨i, toks, t, u, hl, hi, ht, hu, rfl⟩)
      n 0 (s :: ss) [] (registered sys)
      (fun x hx text hd i toks hl t u hi ht hu => .given hx hd ⟨i, toks, t, u, hl, hi, ht, hu, rfl⟩)]

/-- The files that can be reached from the files named on the command line: these and what they import. -/
inductive NeededBy (fs : Str → Option Str) (fl : FloatOps) (paths : List Str) : Str → Prop
  | named {p} : p ∈ paths → NeededBy fs fl paths p
  | file {q text p} : NeededBy fs fl paths q → fs q = some text → Imports fl q text p → NeededBy fs fl paths p

theorem loadFiles_needed {fs fs' : Str → Option Str} : ∀ (paths all : List Str) (srcs : List Source),
    (∀ p ∈ paths, p ∈ all) → (∀ p ∈ all, fs p = fs' p) →
    (∀ s ∈ srcs, ∀ text, s.data = some text → s.path ∈ all ∧ fs s.path = some text) →
    loadFiles fs srcs paths = loadFiles fs' srcs paths ∧ ∀ out, loadFiles fs srcs paths = some out →
      ∀ s ∈ out, ∀ text, s.data = some text → s.path ∈ all ∧ fs s.path = some text
  | [], all, srcs, _, _, hs => ⟨rfl, fun out h => by cases h; exact hs⟩
  | p :: ps, all, srcs, hp, ha, hs => by
    have e : loadSource fs srcs p = loadSource fs' srcs p := by
      unfold loadSource Source.fromFile
      rw [ha p (hp p (by simp))]
    have hs2 : ∀ s ∈ (loadSource fs srcs p).2, ∀ text, s.data = some text → s.path ∈ all ∧ fs s.path = some text := by
      intro s hm text ht
      unfold loadSource at hm
      split at hm
      · exact hs s hm text ht
      · rcases List.mem_append.1 hm with hm | hm
        · exact hs s hm text ht
        · rw [List.mem_singleton.1 hm] at ht ⊢
          unfold Source.fromFile at ht ⊢
          cases hf : fs p with
          | none => rw [hf] at ht; cases ht
          | some t =>
            rw [hf] at ht
            dsimp only at ht ⊢
            split at ht
            · cases ht
            · rename_i hne
              rw [if_neg hne]
              cases ht
              exact ⟨hp p (by simp), hf⟩
    unfold loadFiles
    rw [← e]
    generalize loadSource fs srcs p = x at hs2
    obtain ⟨b, out⟩ := x
    cases b with
    | true => exact loadFiles_needed ps all out (fun q hq => hp q (List.mem_cons_of_mem _ hq)) ha hs2
    | false => exact ⟨rfl, fun _ h => by cases h⟩

theorem needed_by {fs : Str → Option Str} {fl : FloatOps} {paths : List Str} {srcs : List Source}
    (h : ∀ s ∈ srcs, ∀ text, s.data = some text → s.path ∈ paths ∧ fs s.path = some text) {p : Str}
    (hp : Needed fs fl srcs p) : NeededBy fs fl paths p := by
  induction hp with
  | given hs hd hi => exact .file (.named (h _ hs _ hd).1) (h _ hs _ hd).2 hi
  | file _ hf hi ih => exact .file ih hf hi

/-- The command line driver does the same when the files reachable from its arguments are the same. -/
theorem C83_driver (mem : MemOps P M) (m0 : M) (fl : FloatOps) (L : Layout) (n fuel : Nat)
    (fs fs' : Str → Option Str) (paths : List Str) (input : Str) (h : ∀ p, NeededBy fs fl paths p → fs p = fs' p) :
    driverMain mem m0 fs fl L n fuel paths input = driverMain mem m0 fs' fl L n fuel paths input := by
  obtain ⟨h1, h2⟩ := loadFiles_needed paths paths [] (fun _ h => h) (fun p hp => h p (.named hp))
    (fun _ h => by cases h)
  unfold driverMain
  rw [← h1]
  cases hl : loadFiles fs [] paths with
  | none => rfl
  | some srcs =>
    have := C83_build fs fs' fl L true driverSys n srcs fun p hp => h p (needed_by (h2 srcs hl) hp)
    cases srcs with
    | nil => rfl
    | cons =>
      dsimp only
      rw [this]

/-- So does the graphical driver. -/
theorem C83_sdl (mem : MemOps P M) (m0 : M) (fl : FloatOps) (L : Layout) (n : Nat) (started : Bool)
    (outside : Nat → Sdl.Outside) (rounds : List SdlRound) (fs fs' : Str → Option Str) (paths : List Str)
    (h : ∀ p, NeededBy fs fl paths p → fs p = fs' p) :
    sdlMain mem m0 fs fl L n started outside rounds paths = sdlMain mem m0 fs' fl L n started outside rounds paths := by
  obtain ⟨h1, h2⟩ := loadFiles_needed paths paths [] (fun _ h => h) (fun p hp => h p (.named hp))
    (fun _ h => by cases h)
  unfold sdlMain
  rw [← h1]
  split
  · cases hl : loadFiles fs [] paths with
    | none => rfl
    | some srcs =>
      have := C83_build fs fs' fl L true sdlSys n srcs fun p hp => h p (needed_by (h2 srcs hl) hp)
      cases srcs with
      | nil => rfl
      | cons =>
        dsimp only
        rw [this]
  · rfl

/-! ### Every import was followed -/

/-- Inside expressions, statements and functions there is no `import`. -/
theorem spells_no_import {k : Lang.Part} {ts : List Token} (h : Lang.Spells k ts) : ∀ t ∈ ts, t.type ≠ .IMPORT := by
  have blank {l : List Token} (h : Lang.Blank l) : ∀ t ∈ l, t.type ≠ .IMPORT := fun t ht e => by
    rw [h t ht] at e; cases e
  have no {t : Token} {a : Tok} (h : t.type = a) (ha : a ≠ .IMPORT) : t.type ≠ .IMPORT := h ▸ ha
  induction h with
  | literal h =>
    intro t ht
    rw [List.mem_singleton.1 ht]
    rcases h with h | h | h | h <;> exact no h (by decide)
  | unary ht _ ih =>
    intro t hm
    rcases List.mem_cons.1 hm with rfl | hm
    · rcases ht with h | h <;> exact no h (by decide)
    · exact ih t hm
  | binary _ _ ho _ ih1 ih2 ih3 =>
    intro t hm
    simp only [List.mem_append, List.mem_cons] at hm
    rcases hm with hm | hm | rfl | hm
    · exact ih1 t hm
    · exact ih2 t hm
    · rcases ho with h | h | h | h | h | h | h | h | h | h | h | h | h <;> exact no h (by decide)
    · exact ih3 t hm
  | compound h1 h2 h3 _ ih =>
    intro t hm
    simp only [List.mem_cons] at hm
    rcases hm with rfl | rfl | rfl | hm
    · exact no h1 (by decide)
    · rcases h2 with h | h | h | h <;> exact no h (by decide)
    · exact no h3 (by decide)
    · exact ih t hm
  | cons hb _ hn ha _ ih1 ih2 =>
    intro t hm
    simp only [List.mem_append, List.mem_cons] at hm
    rcases hm with hm | hm | rfl | hm | hm
    · exact blank hb t hm
    · exact ih1 t hm
    · exact no hn (by decide)
    · exact blank ha t hm
    · exact ih2 t hm
  | bare => exact fun _ h => nomatch h
  | noArgs => exact fun _ h => nomatch h
  | nil => exact fun _ h => nomatch h
  | one _ ih => exact ih
  | someArgs _ ih => exact ih
  | _ =>
    clear blank no
    intro t hm
    simp only [List.mem_append, List.mem_cons, List.not_mem_nil, or_false] at hm
    grind

theorem names_no_import {ns : List Token} (h : Lang.Names ns) : ∀ t ∈ ns, t.type ≠ .IMPORT := by
  induction h with
  | one => grind
  | more => grind

theorem function_no_import {ts : List Token} (h : Lang.Function ts) : ∀ t ∈ ts, t.type ≠ .IMPORT := by
  cases h with
  | noArgs h1 h2 h3 h4 hb h5 =>
    have := spells_no_import hb
    grind
  | args h1 h2 hn h3 h4 hb h5 =>
    have := spells_no_import hb
    have := names_no_import hn
    grind

/-- A pair whose first token is not in the first part. -/
theorem pair_append {t u : Token} : ∀ {pre l : List Token}, (∀ x ∈ pre, x.type ≠ .IMPORT) → t.type = .IMPORT →
    [t, u] <:+: pre ++ l → [t, u] <:+: l
  | [], _, _, _, h => h
  | x :: pre, l, hp, ht, h => by
    rw [List.cons_append, List.infix_cons_iff] at h
    rcases h with h | h
    · exact absurd ht ((List.cons_prefix_cons.1 h).1 ▸ hp x (by simp))
    · exact pair_append (fun y hy => hp y (List.mem_cons_of_mem _ hy)) ht h

/-- One of the sources is taken for the file `q`: its path is `q`, up to case and the kind of slash, or a beginning of
it (which C12 and C58 show to be an error of the comparison). -/
def TakenFor (srcs : List Source) (q : Str) : Prop :=
  ∃ s ∈ srcs, s.path.length ≤ q.length ∧ SamePath s.path (q.take s.path.length)

theorem load_taken {fs : Str → Option Str} {ss ss1 : List Source} {q : Str} (h : loadSource fs ss q = (true, ss1)) :
    (∀ s ∈ ss, s ∈ ss1) ∧ TakenFor ss1 q := by
  unfold loadSource at h
  split at h
  · rename_i ha
    cases h
    obtain ⟨s, hs, hp⟩ := List.any_eq_true.1 ha
    exact ⟨fun _ h => h, s, hs, (pathCmp_iff _ _).1 hp⟩
  · simp only [Prod.mk.injEq] at h
    obtain ⟨h1, rfl⟩ := h
    refine ⟨fun s hs => List.mem_append_left _ hs, _, List.mem_append_right _ (List.mem_singleton.2 rfl), ?_⟩
    unfold Source.fromFile at h1 ⊢
    cases hf : fs q with
    | none => rw [hf] at h1; cases h1
    | some text =>
      rw [hf] at h1
      dsimp only at h1 ⊢
      split at h1
      · cases h1
      · rename_i hn
        rw [if_neg hn]
        exact ⟨Nat.le_refl _, by rw [List.take_length]; exact SamePath.refl q⟩

theorem file_taken {fs : Str → Option Str} {cur : Source} {ss ss' : List Source} {us : List Token} {e : Token}
    (h : Lang.File fs cur ss ss' us) : (∀ s ∈ ss, s ∈ ss') ∧
      ∀ t u, [t, u] <:+: us ++ [e] → t.type = .IMPORT →
        u.type = .STRING ∧ TakenFor ss' (cstr (basePath cur.path ++ ch '/' :: cstr u.str)) := by
  have skip {t u x : Token} {l : List Token} (ht : t.type = .IMPORT) (hx : x.type ≠ .IMPORT)
      (h : [t, u] <:+: x :: l) : [t, u] <:+: l :=
    pair_append (pre := [x]) (by simpa using hx) ht h
  induction h with
  | nil =>
    refine ⟨fun _ h => h, fun t u h ht => ?_⟩
    have := h.length_le
    simp at this
  | eol ht _ ih =>
    exact ⟨ih.1, fun t u h hi => ih.2 t u (skip hi (by rw [ht]; decide) h) hi⟩
  | decl hv hn _ ih =>
    exact ⟨ih.1, fun t u h hi => ih.2 t u (skip hi (by rw [hn]; decide) (skip hi (by
      rcases hv with h | h <;> rw [h] <;> decide) h)) hi⟩
  | init hv hn ha hx _ ih =>
    refine ⟨ih.1, fun t u h hi => ih.2 t u ?_ hi⟩
    have h := skip hi (by rw [ha]; decide) (skip hi (by rw [hn]; decide) (skip hi (by
      rcases hv with h | h <;> rw [h] <;> decide) h))
    exact pair_append (spells_no_import hx) hi (by simpa using h)
  | func ht hf _ ih =>
    refine ⟨ih.1, fun t u h hi => ih.2 t u ?_ hi⟩
    have h := skip hi (by rw [ht]; decide) h
    exact pair_append (function_no_import hf) hi (by simpa using h)
  | imp ht hn hl _ ih =>
    obtain ⟨k1, k2⟩ := load_taken hl
    refine ⟨fun s hs => ih.1 s (k1 s hs), fun t u h hi => ?_⟩
    rw [List.cons_append, List.infix_cons_iff] at h
    rcases h with h | h
    · have h := (List.cons_prefix_cons.1 h).2
      rw [List.cons_append] at h
      obtain ⟨rfl, -⟩ := List.cons_prefix_cons.1 h
      obtain ⟨s, hs, hq⟩ := k2
      exact ⟨hn, s, ih.1 s hs, hq⟩
    · exact ih.2 t u (skip hi (by rw [hn]; decide) h) hi

/-- In a build that reads all its sources every `import` is followed by a string and one of the sources read, which
has a text, is taken for that file. -/
theorem C83_followed {fs : Str → Option Str} {fl : FloatOps} {n : Nat} {srcs srcs' : List Source}
    {acc p : Prog Unit} (h : buildSources fs fl n 0 srcs [] acc = .ok (p, srcs')) :
    (∀ s ∈ srcs', s.data.isSome) ∧
    ∀ (k : Nat) src text, srcs'[k]? = some src → src.data = some text → ∃ toks, lex fl k text = .ok toks ∧
      ∀ t u, [t, u] <:+: toks → t.type = .IMPORT →
        u.type = .STRING ∧ TakenFor srcs' (cstr (basePath src.path ++ ch '/' :: cstr u.str)) := by
  obtain ⟨parts, new, -, -, hlen, -, -, hall⟩ := C58_once h
  have at_ : ∀ (k : Nat) src, srcs'[k]? = some src → ∃ text toks known left s part, src.data = some text ∧
      lex fl k text = .ok toks ∧ parse fs src known left toks = .ok (part, s) ∧ s.srcs <+: srcs' := by
    intro k src hk
    have hk2 := (List.getElem?_eq_some_iff.1 hk).1
    obtain ⟨src', text, toks, known, left, s, h1, h2, h3, -, h5, h6⟩ := hall k (parts[k]'(by omega)) (by simp)
    rw [hk] at h1
    cases h1
    exact ⟨text, toks, known, left, s, _, h2, h3, h5, h6⟩
  refine ⟨fun s hs => ?_, fun k src text hk hd => ?_⟩
  · obtain ⟨k, hk⟩ := List.getElem?_of_mem hs
    obtain ⟨_, _, _, _, _, _, hd, -⟩ := at_ k s hk
    rw [hd]
    rfl
  · obtain ⟨text', toks, known, left, s, part, h1, h2, h3, h4⟩ := at_ k src hk
    rw [hd] at h1
    cases h1
    refine ⟨toks, h2, fun t u hi ht => ?_⟩
    obtain ⟨us, e, rfl, he, hu⟩ := C07_one_eof fl k text toks h2
    have hf := (C74_language fs src known s.srcs left us e he hu).1 ⟨part, s, h3, rfl⟩
    obtain ⟨k1, x, hx, k2⟩ := (file_taken hf).2 t u hi ht
    exact ⟨k1, x, h4.subset hx, k2⟩

/-! ### Examples -/

/-- Imported paths contain a slash, so that files without one are never imported; -/
theorem needed_slash {fs : Str → Option Str} {fl : FloatOps} {given : List Source} (h : ∀ s ∈ given, 0 ∉ s.path)
    {p : Str} (hp : Needed fs fl given p) : 0 ∉ p ∧ ch '/' ∈ p := by
  have key : ∀ (path x : Str), 0 ∉ path → 0 ∉ cstr (basePath path ++ ch '/' :: x) ∧
      ch '/' ∈ cstr (basePath path ++ ch '/' :: x) := by
    intro path x hx
    have hb : 0 ∉ basePath path := fun h => hx (List.mem_of_mem_take h)
    generalize basePath path = b at hb
    constructor
    · intro hm
      simpa using List.all_eq_true.1 (List.all_takeWhile (p := fun b : Byte => b != 0)) _ hm
    · induction b with
      | nil => simp [cstr, ch]
      | cons c b ih =>
        have hc : c ≠ 0 := fun e => hb (by simp [e])
        have : cstr (c :: b ++ ch '/' :: x) = c :: cstr (b ++ ch '/' :: x) := List.takeWhile_cons_of_pos (by simpa using hc)
        rw [this]
        exact List.mem_cons_of_mem _ (ih fun hm => hb (List.mem_cons_of_mem _ hm))
  induction hp with
  | given hs _ hi =>
    obtain ⟨_, _, _, _, -, -, -, -, rfl⟩ := hi
    exact key _ _ (h _ hs)
  | file _ _ hi ih =>
    obtain ⟨_, _, _, _, -, -, -, -, rfl⟩ := hi
    exact key _ _ ih.1

/-- hence another file `m` does not change what is built from `runSrc`, -/
example : build (fun p => if p = str "m" then some (str "var") else twoFs p) toyFl sampleLayout true [] 5 [runSrc] =
    .ok (some runProg) := by
  rw [← C83_build twoFs _ toyFl sampleLayout true [] 5 [runSrc], run_builds]
  intro p hp
  have hs := needed_slash (by decide +kernel) hp
  rw [if_neg]
  rintro rfl
  revert hs
  decide +kernel

/-- while the file `s/b`, which it imports, matters. -/
theorem run_imports : ∃ t u ts, lex toyFl 0 runText = .ok (t :: u :: ts) ∧ t.type = .IMPORT ∧ u.type = .STRING ∧
    cstr (basePath runSrc.path ++ ch '/' :: cstr u.str) = str "s/b" := by
  have hl : (lex toyFl 0 runText).toOption.map (fun ts => (ts.take 2).map fun t => (t.type, t.str)) =
    some [(.IMPORT, []), (.STRING, str "b")] := by decide +kernel
  have e : cstr (basePath runSrc.path ++ ch '/' :: cstr (str "b")) = str "s/b" := by decide +kernel
  generalize lex toyFl 0 runText = x at hl ⊢
  match x, hl with
  | .ok (t :: u :: ts), hl =>
    simp only [Except.toOption, Option.map_some, List.take_succ_cons, List.take_zero, List.map_cons, List.map_nil,
      Option.some.injEq, List.cons.injEq, Prod.mk.injEq, and_true] at hl
    exact ⟨t, u, ts, rfl, hl.1.1, hl.2.1, hl.2.2 ▸ e⟩
  | .ok [_], hl => simp [Except.toOption] at hl

example : Needed twoFs toyFl [runSrc] (str "s/b") := by
  obtain ⟨t, u, ts, h1, h2, h3, h4⟩ := run_imports
  exact .given (List.mem_singleton.2 rfl) rfl ⟨0, _, t, u, h1, ⟨[], ts, rfl⟩, h2, h3, h4.symm⟩

example : isOk (build (fun _ => none) toyFl sampleLayout true [] 5 [runSrc]) = false := by decide +kernel

/-- `C83_followed` for it. -/
example : TakenFor runRead.2 (str "s/b") := by
  obtain ⟨toks, h1, h2⟩ := (C83_followed run_reads).2 0 runSrc runText (by decide +kernel) rfl
  obtain ⟨t, u, ts, h3, h4, h5, h6⟩ := run_imports
  rw [h3] at h1
  cases h1
  exact h6 ▸ (h2 t u ⟨[], ts, rfl⟩ h4).2

end Ccml.Props
