import Verif.Comp
import Verif.Props.Driver
import Verif.Props.Listing
import Verif.Props.Tree
/-!
Properties of the compiler driver: C70.
-/
namespace Ccml.Props
open Ccml

/-! ### Specification -/

/-- An option: an argument that begins with `-`. -/
def isOption (a : Str) : Bool := a.head? == some (ch '-')
/-- The files to be compiled: the arguments that are not options. -/
def inputsOf (args : List Str) : List Str := args.filter fun a => !isOption a
/-- The option `-c` is among the arguments. -/
def asked (c : Char) (args : List Str) : Bool := args.any fun a => isOption a && a[1]? == some (ch c)

/-- The names of the three output files. -/
def outNames (base : Str) : List (Char × Str) :=
  [('a', base ++ str ".ast"), ('d', base ++ str ".dis"), ('b', base ++ str ".bin")]

/-- The output files that are asked for and can be opened. -/
def outFiles (can : Str → Bool) (base : Str) (args : List Str) : List Str :=
  ((outNames base).filter fun x => asked x.1 args && can x.2).map Prod.snd

/-- The files, after those in the list were opened for writing. -/
def opened (fs : Str → Option Str) (paths : List Str) : Str → Option Str :=
  fun p => if p ∈ paths then some [] else fs p

/-! ### The loop over the arguments -/

section
variable {can : Str → Bool} {base : Str} {fs : Str → Option Str}

theorem fdOpen_short {ext : Str} (h : base.length + ext.length < 1024) (fs : Str → Option Str) :
    fdOpen can fs base ext =
      .ok (can (base ++ ext), opened fs (if can (base ++ ext) then [base ++ ext] else [])) := by
  unfold fdOpen
  rw [if_neg (by omega)]
  split
  · rename_i h
    rw [h]
    refine congrArg Except.ok (congrArg (Prod.mk true) (funext fun p => ?_))
    simp [setFile, opened]
  · rename_i h
    have h : can (base ++ ext) = false := by simpa using h
    rw [h]
    refine congrArg Except.ok (congrArg (Prod.mk false) (funext fun p => ?_))
    simp [opened]

theorem opened_opened (fs : Str → Option Str) (a b : List Str) : opened (opened fs a) b = opened fs (a ++ b) := by
  funext p
  simp only [opened, List.mem_append]
  by_cases h1 : p ∈ b <;> by_cases h2 : p ∈ a <;> simp [h1, h2]

theorem opened_congr (fs : Str → Option Str) {a b : List Str} (h : ∀ p, p ∈ a ↔ p ∈ b) : opened fs a = opened fs b := by
  funext p
  simp only [opened, h]

theorem mem_outFiles {args : List Str} {p : Str} : p ∈ outFiles can base args ↔
    can p = true ∧ ((asked 'a' args = true ∧ p = base ++ str ".ast") ∨ (asked 'd' args = true ∧ p = base ++ str ".dis") ∨
      (asked 'b' args = true ∧ p = base ++ str ".bin")) := by
  simp only [outFiles, outNames, List.mem_map, List.mem_filter, List.mem_cons, List.not_mem_nil, or_false,
    Bool.and_eq_true]
  constructor
  · rintro ⟨⟨c, q⟩, ⟨(h | h | h), h1, h2⟩, rfl⟩ <;> cases h
    · exact ⟨h2, .inl ⟨h1, rfl⟩⟩
    · exact ⟨h2, .inr (.inl ⟨h1, rfl⟩)⟩
    · exact ⟨h2, .inr (.inr ⟨h1, rfl⟩)⟩
  · rintro ⟨h, (⟨h1, rfl⟩ | ⟨h1, rfl⟩ | ⟨h1, rfl⟩)⟩
    · exact ⟨_, ⟨.inl rfl, h1, h⟩, rfl⟩
    · exact ⟨_, ⟨.inr (.inl rfl), h1, h⟩, rfl⟩
    · exact ⟨_, ⟨.inr (.inr rfl), h1, h⟩, rfl⟩

theorem asked_cons (c : Char) (a : Str) (args : List Str) :
    asked c (a :: args) = (isOption a && a[1]? == some (ch c) || asked c args) := rfl

theorem isOption_iff (a : Str) : isOption a = true ↔ a[0]? = some (ch '-') := by
  cases a <;> simp [isOption]

/-- One option. -/
theorem compOption_spec (hb : base.length < 1020) (s : CompState) {a : Str} (ha : isOption a = true) :
    compOption can base s a[1]? = .ok
      { s with
        fs := opened s.fs (outFiles can base [a])
        ast := if asked 'a' [a] then can (base ++ str ".ast") else s.ast
        dis := if asked 'd' [a] then can (base ++ str ".dis") else s.dis
        bin := if asked 'b' [a] then can (base ++ str ".bin") else s.bin
        opt := s.opt && !asked 'n' [a] } := by
  have e : ∀ c, asked c [a] = (a[1]? == some (ch c)) := by
    intro c
    rw [asked_cons, ha]
    simp [asked]
  have hl : ∀ x : String, (str x).length = 4 → base.length + (str x).length < 1024 := by
    intro x hx
    omega
  unfold compOption
  simp only [e]
  by_cases h1 : a[1]? = some (ch 'a')
  · rw [if_pos h1, fdOpen_short (hl ".ast" (by decide))]
    rw [h1]
    refine congrArg Except.ok ?_
    have : opened s.fs (if can (base ++ str ".ast") then [base ++ str ".ast"] else []) =
        opened s.fs (outFiles can base [a]) := opened_congr _ fun p => by
      rw [mem_outFiles]
      simp only [e, h1, show (some (ch 'a') == some (ch 'd')) = false from by decide,
        show (some (ch 'a') == some (ch 'b')) = false from by decide,
        show (some (ch 'a') == some (ch 'a')) = true from by decide]
      split
      · rename_i h; simp only [List.mem_singleton]; constructor
        · rintro rfl; exact ⟨h, .inl ⟨trivial, rfl⟩⟩
        · rintro ⟨_, (⟨_, h⟩ | ⟨h, _⟩ | ⟨h, _⟩)⟩ <;> first | exact h | cases h
      · rename_i h; constructor
        · intro h; cases h
        · rintro ⟨h', (⟨_, rfl⟩ | ⟨h, _⟩ | ⟨h, _⟩)⟩
          · exact absurd h' h
          · cases h
          · cases h
    rw [this]
    simp only [show (some (ch 'a') == some (ch 'd')) = false from by decide,
        show (some (ch 'a') == some (ch 'b')) = false from by decide,
        show (some (ch 'a') == some (ch 'n')) = false from by decide,
        show (some (ch 'a') == some (ch 'a')) = true from by decide]
    simp
  rw [if_neg h1]
  by_cases h2 : a[1]? = some (ch 'd')
  · rw [if_pos h2, fdOpen_short (hl ".dis" (by decide))]
    rw [h2]
    refine congrArg Except.ok ?_
    have : opened s.fs (if can (base ++ str ".dis") then [base ++ str ".dis"] else []) =
        opened s.fs (outFiles can base [a]) := opened_congr _ fun p => by
      rw [mem_outFiles]
      simp only [e, h2, show (some (ch 'd') == some (ch 'd')) = true from by decide,
        show (some (ch 'd') == some (ch 'b')) = false from by decide,
        show (some (ch 'd') == some (ch 'a')) = false from by decide]
      split
      · rename_i h; simp only [List.mem_singleton]; constructor
        · rintro rfl; exact ⟨h, .inr (.inl ⟨trivial, rfl⟩)⟩
        · rintro ⟨_, (⟨h, _⟩ | ⟨_, h⟩ | ⟨h, _⟩)⟩ <;> first | exact h | cases h
      · rename_i h; constructor
        · intro h; cases h
        · rintro ⟨h', (⟨h, _⟩ | ⟨_, rfl⟩ | ⟨h, _⟩)⟩
          · cases h
          · exact absurd h' h
          · cases h
    rw [this]
    simp only [show (some (ch 'd') == some (ch 'd')) = true from by decide,
        show (some (ch 'd') == some (ch 'b')) = false from by decide,
        show (some (ch 'd') == some (ch 'n')) = false from by decide,
        show (some (ch 'd') == some (ch 'a')) = false from by decide]
    simp
  rw [if_neg h2]
  by_cases h3 : a[1]? = some (ch 'b')
  · rw [if_pos h3, fdOpen_short (hl ".bin" (by decide))]
    rw [h3]
    refine congrArg Except.ok ?_
    have : opened s.fs (if can (base ++ str ".bin") then [base ++ str ".bin"] else []) =
        opened s.fs (outFiles can base [a]) := opened_congr _ fun p => by
      rw [mem_outFiles]
      simp only [e, h3, show (some (ch 'b') == some (ch 'd')) = false from by decide,
        show (some (ch 'b') == some (ch 'b')) = true from by decide,
        show (some (ch 'b') == some (ch 'a')) = false from by decide]
      split
      · rename_i h; simp only [List.mem_singleton]; constructor
        · rintro rfl; exact ⟨h, .inr (.inr ⟨trivial, rfl⟩)⟩
        · rintro ⟨_, (⟨h, _⟩ | ⟨h, _⟩ | ⟨_, h⟩)⟩ <;> first | exact h | cases h
      · rename_i h; constructor
        · intro h; cases h
        · rintro ⟨h', (⟨h, _⟩ | ⟨h, _⟩ | ⟨_, rfl⟩)⟩
          · cases h
          · cases h
          · exact absurd h' h
    rw [this]
    simp only [show (some (ch 'b') == some (ch 'd')) = false from by decide,
        show (some (ch 'b') == some (ch 'b')) = true from by decide,
        show (some (ch 'b') == some (ch 'n')) = false from by decide,
        show (some (ch 'b') == some (ch 'a')) = false from by decide]
    simp
  rw [if_neg h3]
  have e1 : (a[1]? == some (ch 'a')) = false := by simpa using h1
  have e2 : (a[1]? == some (ch 'd')) = false := by simpa using h2
  have e3 : (a[1]? == some (ch 'b')) = false := by simpa using h3
  have this : s.fs = opened s.fs (outFiles can base [a]) := by
    have h : ∀ p, p ∉ outFiles can base [a] := by
      intro p hp
      rw [mem_outFiles] at hp
      simp only [e, e1, e2, e3] at hp
      obtain ⟨_, (⟨h, _⟩ | ⟨h, _⟩ | ⟨h, _⟩)⟩ := hp <;> cases h
    funext p
    simp [opened, h p]
  by_cases h4 : a[1]? = some (ch 'n')
  · rw [if_pos h4, ← this]
    refine congrArg Except.ok ?_
    simp only [e1, e2, e3, show (a[1]? == some (ch 'n')) = true from by simpa using h4]
    simp
  · rw [if_neg h4, ← this]
    refine congrArg Except.ok ?_
    simp only [e1, e2, e3, show (a[1]? == some (ch 'n')) = false from by simpa using h4]
    simp

theorem outFiles_cons (a : Str) (args : List Str) (p : Str) :
    p ∈ outFiles can base [a] ++ outFiles can base args ↔ p ∈ outFiles can base (a :: args) := by
  simp only [List.mem_append, mem_outFiles, asked_cons, Bool.or_eq_true]
  constructor
  · rintro (⟨h, h'⟩ | ⟨h, h'⟩)
    · refine ⟨h, ?_⟩
      rcases h' with ⟨h', e⟩ | ⟨h', e⟩ | ⟨h', e⟩ <;>
        rcases h' with h' | h' <;> first | cases h' | skip
      · exact .inl ⟨.inl h', e⟩
      · exact .inr (.inl ⟨.inl h', e⟩)
      · exact .inr (.inr ⟨.inl h', e⟩)
    · refine ⟨h, ?_⟩
      rcases h' with ⟨h', e⟩ | ⟨h', e⟩ | ⟨h', e⟩
      · exact .inl ⟨.inr h', e⟩
      · exact .inr (.inl ⟨.inr h', e⟩)
      · exact .inr (.inr ⟨.inr h', e⟩)
  · rintro ⟨h, (⟨h' | h', e⟩ | ⟨h' | h', e⟩ | ⟨h' | h', e⟩)⟩
    · exact .inl ⟨h, .inl ⟨.inl h', e⟩⟩
    · exact .inr ⟨h, .inl ⟨h', e⟩⟩
    · exact .inl ⟨h, .inr (.inl ⟨.inl h', e⟩)⟩
    · exact .inr ⟨h, .inr (.inl ⟨h', e⟩)⟩
    · exact .inl ⟨h, .inr (.inr ⟨.inl h', e⟩)⟩
    · exact .inr ⟨h, .inr (.inr ⟨h', e⟩)⟩

theorem asked_load {a : Str} (ha : isOption a = false) (c : Char) (args : List Str) :
    asked c (a :: args) = asked c args := by
  rw [asked_cons, ha]
  rfl

theorem outFiles_load {a : Str} (ha : isOption a = false) (args : List Str) :
    outFiles can base (a :: args) = outFiles can base args := by
  simp only [outFiles, asked_load ha]

/-- What the loop makes of the variables. -/
def afterArgs (can : Str → Bool) (base : Str) (args : List Str) (s : CompState) (srcs : List Source) : CompState where
  fs := opened s.fs (outFiles can base args)
  srcs := srcs
  ast := if asked 'a' args then can (base ++ str ".ast") else s.ast
  dis := if asked 'd' args then can (base ++ str ".dis") else s.dis
  bin := if asked 'b' args then can (base ++ str ".bin") else s.bin
  opt := s.opt && !asked 'n' args

theorem afterArgs_load {a : Str} (ha : isOption a = false) (args : List Str) (s : CompState) (srcs srcs' : List Source) :
    afterArgs can base args { s with srcs := srcs' } srcs = afterArgs can base (a :: args) s srcs := by
  simp only [afterArgs, outFiles_load ha, asked_load ha]

theorem afterArgs_cons (a : Str) (args : List Str) (s : CompState) (srcs srcs' : List Source) :
    afterArgs can base args (afterArgs can base [a] s srcs') srcs = afterArgs can base (a :: args) s srcs := by
  simp only [afterArgs, opened_opened, opened_congr _ (outFiles_cons a args)]
  have e : ∀ c, asked c (a :: args) = (asked c [a] || asked c args) := fun c => by simp [asked]
  simp only [e, CompState.mk.injEq, true_and]
  refine ⟨?_, ?_, ?_, ?_⟩
  · cases asked 'a' [a] <;> cases asked 'a' args <;> rfl
  · cases asked 'd' [a] <;> cases asked 'd' args <;> rfl
  · cases asked 'b' [a] <;> cases asked 'b' args <;> rfl
  · cases asked 'n' [a] <;> cases asked 'n' args <;> simp

theorem inputs_load {a : Str} (ha : isOption a = false) (args : List Str) : inputsOf (a :: args) = a :: inputsOf args := by
  simp [inputsOf, ha]

theorem inputs_option {a : Str} (ha : isOption a = true) (args : List Str) : inputsOf (a :: args) = inputsOf args := by
  simp [inputsOf, ha]

/-- The loop. -/
theorem compArgs_spec (hb : base.length < 1020) (O : List Str) : ∀ (args : List Str) (s : CompState),
    (∀ p, p ∈ outFiles can base args → p ∈ O) → (∀ p, p ∉ O → s.fs p = fs p) → (∀ q ∈ inputsOf args, q ∉ O) →
    (inputsOf args).Pairwise (fun a b => pathCmp a b = false) →
    (∀ x ∈ s.srcs, ∀ q ∈ inputsOf args, pathCmp x.path q = false) →
    ((∀ q ∈ inputsOf args, CanRead fs q) → ∃ new, compArgs can base s args = .ok (true, afterArgs can base args s (s.srcs ++ new)) ∧
      new.map (fun x => (x.path, x.data)) = (inputsOf args).map fun q => (q, fs q)) ∧
    ((∃ q ∈ inputsOf args, ¬ CanRead fs q) → ∃ s', compArgs can base s args = .ok (false, s') ∧
      ∀ p, p ∉ O → s'.fs p = fs p)
  | [], s, _, _, _, _, _ => by
    refine ⟨fun _ => ⟨[], ?_, rfl⟩, fun h => ?_⟩
    · have e : ∀ l : List (Char × Str), l.filter (fun x => asked x.1 [] && can x.2) = [] := by
        intro l
        simp [asked]
      have e' : opened s.fs [] = s.fs := funext fun p => by simp [opened]
      simp [compArgs, afterArgs, outFiles, e, e']
      simp [asked]
    · obtain ⟨q, hq, -⟩ := h
      cases hq
  | a :: args, s, hO, hs, hin, hp, hne => by
    cases ha : isOption a with
    | true =>
      rw [inputs_option ha] at hin hp hne ⊢
      have h1 : ¬ a[0]? ≠ some (ch '-') := by simpa using (isOption_iff a).1 ha
      have h2 := compOption_spec (can := can) hb s ha
      have hO' := fun p hp => hO p ((outFiles_cons a args p).1 (List.mem_append.2 (.inr hp)))
      have ih := compArgs_spec hb O args (afterArgs can base [a] s s.srcs) hO' (fun p hp => by
        have : p ∉ outFiles can base [a] := fun h => hp (hO p ((outFiles_cons a args p).1 (List.mem_append.2 (.inl h))))
        simp only [afterArgs, opened, if_neg this, hs p hp]) hin hp (by simpa [afterArgs] using hne)
      have h3 : compArgs can base s (a :: args) = compArgs can base (afterArgs can base [a] s s.srcs) args := by
        rw [compArgs, if_neg h1, h2]
        rfl
      rw [h3]
      refine ⟨fun h => ?_, ih.2⟩
      obtain ⟨new, h4, h5⟩ := ih.1 h
      exact ⟨new, by rw [h4, afterArgs_cons]; rfl, h5⟩
    | false =>
      rw [inputs_load ha] at hin hp hne ⊢
      have h1 : a[0]? ≠ some (ch '-') := fun h => by rw [(isOption_iff a).2 h] at ha; cases ha
      rw [outFiles_load ha] at hO
      obtain ⟨hp1, hp2⟩ := List.pairwise_cons.1 hp
      have hfa : s.fs a = fs a := hs a (hin a (by simp))
      obtain ⟨k1, k2⟩ := load_new (fs := s.fs) (srcs := s.srcs) (path := a) fun x hx => hne x hx a (by simp)
      by_cases hr : CanRead fs a
      · obtain ⟨t, ht, hn⟩ := hr
        have h3 : compArgs can base s (a :: args) =
            compArgs can base { s with srcs := s.srcs ++ [⟨a, some t, genLines t⟩] } args := by
          rw [compArgs, if_pos h1, k1 t (by rw [hfa, ht]) hn]
        have ih := compArgs_spec hb O args { s with srcs := s.srcs ++ [⟨a, some t, genLines t⟩] } hO hs
          (fun q hq => hin q (List.mem_cons_of_mem _ hq)) hp2 (by
            intro x hx q hq
            rcases List.mem_append.1 hx with hx | hx
            · exact hne x hx q (List.mem_cons_of_mem _ hq)
            · cases List.mem_singleton.1 hx
              exact hp1 q hq)
        rw [h3]
        refine ⟨fun h => ?_, fun ⟨q, hq, hr⟩ => ?_⟩
        · obtain ⟨new, h4, h5⟩ := ih.1 fun q hq => h q (List.mem_cons_of_mem _ hq)
          refine ⟨⟨a, some t, genLines t⟩ :: new, ?_, ?_⟩
          · rw [h4, afterArgs_load ha]
            simp
          · simp only [List.map_cons, h5, ht]
        · rcases List.mem_cons.1 hq with rfl | hq
          · exact absurd ⟨t, ht, hn⟩ hr
          · exact ih.2 ⟨q, hq, hr⟩
      · refine ⟨fun h => absurd (h a (by simp)) hr, fun _ => ?_⟩
        have h4 := k2 (fun ⟨t, ht, hn⟩ => hr ⟨t, by rw [← hfa, ht], hn⟩)
        rcases hl : loadSource s.fs s.srcs a with ⟨_ | _, ss⟩
        · refine ⟨{ s with srcs := ss }, by rw [compArgs, if_pos h1, hl], hs⟩
        · rw [hl] at h4
          cases h4
end

/-! ### What is proved about it -/

section
variable (can : Str → Bool) (fs : Str → Option Str) (fl : FloatOps) (L : Layout) (tree : Tree.Ast) (k n : Nat)
  (name : Str)

/-- C70: called without arguments, the compiler shows how it is to be called and touches no file. -/
theorem C70_usage : compMain can fs fl L tree k n name [] = .ok ⟨-1, str "usage: " ++ name ++ str
    " file.nano [-n -a -d -b]\n  -n  disable codegen optimizations\n  -a  emit ast\n  -d  emit disassembly\n  -b  emit binary\n",
    fs⟩ := rfl

/-- Arguments the theorems are about: the output files are named after the first argument, whose length has a bound;
no path begins with an earlier one; and no file to be compiled is at the same time to be written. -/
structure PlainArgs (can : Str → Bool) (base : Str) (args : List Str) : Prop where
  first : args.head? = some base
  short : base.length < 1020
  prefix' : NoPrefix (inputsOf args)
  apart : ∀ q ∈ inputsOf args, q ∉ outFiles can base args

theorem noPrefix_pairwise {paths : List Str} (h : NoPrefix paths) : paths.Pairwise (fun a b => pathCmp a b = false) :=
  h.imp fun {a b} h => by
    cases hc : pathCmp a b with
    | false => rfl
    | true => exact absurd ((pathCmp_iff a b).1 hc) h

/-- C70: if a file cannot be read or is empty the status is -2; no file is changed, except that output files
may have been emptied. -/
theorem C70_unreadable {base : Str} {args : List Str} (h : PlainArgs can base args)
    (hr : ∃ q ∈ inputsOf args, ¬ CanRead fs q) :
    ∃ x, compMain can fs fl L tree k n name args = .ok x ∧ x.status = -2 ∧ x.output = [] ∧
      ∀ p, p ∉ outFiles can base args → x.files p = fs p := by
  obtain ⟨s, h1, h2⟩ := (compArgs_spec (fs := fs) h.short (outFiles can base args) args
    ⟨fs, [], false, false, false, true⟩ (fun _ h => h) (fun _ _ => rfl) h.apart (noPrefix_pairwise h.prefix')
    (by simp)).2 hr
  cases args with
  | nil => cases h.first
  | cons b args =>
    cases h.first
    unfold compMain
    dsimp only
    rw [h1]
    exact ⟨_, rfl, rfl, rfl, h2⟩

/-- The files after a run: `ast`, `dis` and `code` in the output files that were asked for and could be opened,
all others as they were. -/
def results (base : Str) (args : List Str) (ast dis code : Str) : Str → Option Str := fun p =>
  if p ∈ outFiles can base args then
    if p = base ++ str ".ast" then some ast else if p = base ++ str ".dis" then some dis else some code
  else fs p

theorem names_differ (base : Str) : base ++ str ".ast" ≠ base ++ str ".dis" ∧ base ++ str ".ast" ≠ base ++ str ".bin" ∧
    base ++ str ".dis" ≠ base ++ str ".bin" := by
  refine ⟨fun h => ?_, fun h => ?_, fun h => ?_⟩ <;> exact absurd (List.append_cancel_left h) (by decide)

theorem writeIf_ok (b : Bool) (fs : Str → Option Str) (path t : Str) :
    writeIf b fs path (.ok t) = .ok fun p => if b = true ∧ p = path then some t else fs p := by
  cases b
  · simp [writeIf]
  · simp only [writeIf, if_true, true_and]
    rfl

/-- Writing the output files. -/
theorem results_eq (base : Str) (args : List Str) (ast dis code : Str) :
    (fun p => if (if asked 'b' args then can (base ++ str ".bin") else false) = true ∧ p = base ++ str ".bin" then
        some code
      else if (if asked 'd' args then can (base ++ str ".dis") else false) = true ∧ p = base ++ str ".dis" then some dis
      else if (if asked 'a' args then can (base ++ str ".ast") else false) = true ∧ p = base ++ str ".ast" then some ast
      else opened fs (outFiles can base args) p) = results can fs base args ast dis code := by
  obtain ⟨n1, n2, n3⟩ := names_differ base
  funext p
  simp only [results, opened]
  by_cases hm : p ∈ outFiles can base args
  · rw [if_pos hm, if_pos hm]
    obtain ⟨hc, (⟨h, rfl⟩ | ⟨h, rfl⟩ | ⟨h, rfl⟩)⟩ := mem_outFiles.1 hm
    · rw [if_neg (fun h => n2 h.2), if_neg (fun h => n1 h.2), if_pos ⟨by rw [if_pos h]; exact hc, rfl⟩, if_pos rfl]
    · rw [if_neg (fun h => n3 h.2), if_pos ⟨by rw [if_pos h]; exact hc, rfl⟩, if_neg (Ne.symm n1), if_pos rfl]
    · rw [if_pos ⟨by rw [if_pos h]; exact hc, rfl⟩, if_neg (Ne.symm n2), if_neg (Ne.symm n3)]
  · have key : ∀ c e, (c, e) ∈ outNames base → ¬ ((if asked c args then can e else false) = true ∧ p = e) := by
      rintro c e he ⟨h1, rfl⟩
      refine hm ?_
      unfold outFiles
      refine List.mem_map.2 ⟨(c, p), List.mem_filter.2 ⟨he, ?_⟩, rfl⟩
      cases hk : asked c args with
      | false => rw [hk] at h1; cases h1
      | true => rw [hk] at h1; simpa using h1
    rw [if_neg hm, if_neg (key 'b' _ (by simp [outNames])), if_neg (key 'd' _ (by simp [outNames])),
      if_neg (key 'a' _ (by simp [outNames])), if_neg hm]

theorem build_some {fs : Str → Option Str} {fl : FloatOps} {L : Layout} {opt : Bool} {sys : List (Str × Option Nat)} {n : Nat}
    {srcs : List Source} {prog : Program} (h : build fs fl L opt sys n srcs = .ok (some prog)) :
    ∃ p srcs' q, buildSources fs fl n 0 srcs [] (registered sys) = .ok (p, srcs') ∧ Compiles L opt p q prog := by
  unfold build at h
  split at h
  · cases h
  · split at h
    · cases h
    · rename_i p srcs' hb
      split at h
      · cases h
      · rename_i prog' hc
        cases h
        obtain ⟨q, hq⟩ := compile_ok.1 hc
        exact ⟨p, srcs', q, hb, hq⟩

/-- C70: otherwise the sources are the named files in their order.  If the compiler finds an error the status is
1 and the output files are empty.  If not, the status is 0, and the output files that are asked for
hold the listing, the bytes of the code and the text of the syntax tree.  The files that are asked for have been emptied
when the imports are read.  Partial: the output files are named after the first
argument, whatever it is (`C70_option_first`), which must not be too long (`C70_overflow`); and the syntax tree
can fail to be written (`C70_tree_partial`). -/
theorem C70_files_partial {base : Str} {args : List Str} (h : PlainArgs can base args)
    (hr : ∀ q ∈ inputsOf args, CanRead fs q) :
    ∃ srcs, srcs.map (fun x => (x.path, x.data)) = (inputsOf args).map (fun q => (q, fs q)) ∧
      ∀ (fl : FloatOps) (L : Layout) (tree : Tree.Ast) (k n : Nat) (name : Str),
      (inputsOf args = [] → compMain can fs fl L tree k n name args = .ok ⟨1, [], opened fs (outFiles can base args)⟩) ∧
      (∀ e, build (opened fs (outFiles can base args)) fl L (!asked 'n' args) [] n srcs = .error (.err e) →
        compMain can fs fl L tree k n name args = .ok ⟨1, [], opened fs (outFiles can base args)⟩) ∧
      (∀ prog tree' ast, build (opened fs (outFiles can base args)) fl L (!asked 'n' args) [] n srcs = .ok (some prog) →
        Tree.gc k tree = .ok tree' →
        (base ++ str ".ast" ∈ outFiles can base args → Tree.dump fl k tree' = .ok ast) →
        ∃ dis is, listing prog = .ok dis ∧ CodeOf is prog.code ∧ codeLines dis = is.map insLine ∧
          compMain can fs fl L tree k n name args = .ok ⟨0, [], results can fs base args ast dis prog.code⟩) ∧
      (∀ prog tree' x, build (opened fs (outFiles can base args)) fl L (!asked 'n' args) [] n srcs = .ok (some prog) →
        Tree.gc k tree = .ok tree' → base ++ str ".ast" ∈ outFiles can base args → Tree.dump fl k tree' = .error x →
        compMain can fs fl L tree k n name args = .error x) := by
  obtain ⟨new, h1, h2⟩ := (compArgs_spec (fs := fs) h.short (outFiles can base args) args
    ⟨fs, [], false, false, false, true⟩ (fun _ h => h) (fun _ _ => rfl) h.apart (noPrefix_pairwise h.prefix')
    (by simp)).1 hr
  refine ⟨new, h2, fun fl L tree k n name => ?_⟩
  have hm : compMain can fs fl L tree k n name args =
      compBuild fl L tree k n base (afterArgs can base args ⟨fs, [], false, false, false, true⟩ new) := by
    cases args with
    | nil => cases h.first
    | cons b args =>
      cases h.first
      unfold compMain
      dsimp only
      rw [h1]
      rfl
  obtain ⟨n1, n2, n3⟩ := names_differ base
  have hast : (if asked 'a' args then can (base ++ str ".ast") else false) = true ↔
      base ++ str ".ast" ∈ outFiles can base args := by
    rw [mem_outFiles]
    constructor
    · intro h
      cases ha : asked 'a' args with
      | false => rw [ha] at h; cases h
      | true => rw [ha] at h; exact ⟨h, .inl ⟨rfl, rfl⟩⟩
    · rintro ⟨h, (⟨h', -⟩ | ⟨_, h'⟩ | ⟨_, h'⟩)⟩
      · rw [if_pos h']; exact h
      · exact absurd h' n1
      · exact absurd h' n2
  refine ⟨fun h0 => ?_, fun e he => ?_, fun prog tree' ast hb hg hd => ?_, fun prog tree' x hb hg ha hd => ?_⟩
  · rw [h0] at h2
    have : new = [] := by simpa using h2
    subst this
    rw [hm]
    rfl
  · rw [hm]
    unfold compBuild
    simp only [afterArgs, Bool.true_and]
    rw [he]
  · obtain ⟨p, srcs', q, k1, k2⟩ := build_some hb
    obtain ⟨dis, is, k3, k4, k5⟩ := C68_built k1 (by simp) k2
    refine ⟨dis, is, k3, k4, k5, ?_⟩
    have hw : writeIf (if asked 'a' args then can (base ++ str ".ast") else false) (opened fs (outFiles can base args))
        (base ++ str ".ast") (Tree.dump fl k tree') =
        .ok fun p => if (if asked 'a' args then can (base ++ str ".ast") else false) = true ∧ p = base ++ str ".ast" then some ast
          else opened fs (outFiles can base args) p := by
      cases hb : (if asked 'a' args then can (base ++ str ".ast") else false) with
      | false => simp [writeIf]
      | true => rw [hd (hast.1 hb), writeIf_ok]
    rw [hm]
    unfold compBuild
    simp only [afterArgs, Bool.true_and]
    rw [hb]
    dsimp only
    rw [hg]
    dsimp only
    rw [hw]
    dsimp only
    rw [k3, writeIf_ok]
    dsimp only
    rw [writeIf_ok]
    dsimp only
    rw [results_eq]
  · rw [hm]
    unfold compBuild
    simp only [afterArgs, Bool.true_and]
    rw [hb]
    dsimp only
    rw [hg]
    dsimp only
    rw [hast.2 ha, hd]
    rfl

/-- C70: with `-a`.  If the nodes in memory are those of the program that was compiled (`IsP`), and it has neither array
literals nor assignments to members, the program is shown; otherwise deleted nodes are read. -/
theorem C70_tree_partial {base : Str} {args : List Str} (h : PlainArgs can base args)
    (hr : ∀ q ∈ inputsOf args, CanRead fs q) (ha : base ++ str ".ast" ∈ outFiles can base args)
    (ho : ∀ n, (tree.mem n).isSome → n ∈ tree.allocs) :
    ∃ srcs, srcs.map (fun x => (x.path, x.data)) = (inputsOf args).map (fun q => (q, fs q)) ∧
      ∀ p srcs' q prog, buildSources (opened fs (outFiles can base args)) fl n 0 srcs [] [] = .ok (p, srcs') → srcs ≠ [] →
        Compiles L (!asked 'n' args) p q prog → IsP tree q → ∃ m dis, listing prog = .ok dis ∧ ∀ k, m ≤ k →
        compMain can fs fl L tree k n name args = if q.all safeI then
          .ok ⟨0, [], results can fs base args (showP fl q) dis prog.code⟩ else .error .ub := by
  obtain ⟨srcs, h1, hall⟩ := C70_files_partial can fs h hr
  refine ⟨srcs, h1, fun p srcs' q prog hb hne hc hP => ?_⟩
  have hbuild : build (opened fs (outFiles can base args)) fl L (!asked 'n' args) [] n srcs = .ok (some prog) := by
    unfold build
    cases srcs with
    | nil => exact absurd rfl hne
    | cons s ss =>
      dsimp only
      rw [show registered [] = [] from rfl, hb]
      dsimp only
      rw [compile_ok.2 ⟨q, hc⟩]
  obtain ⟨m, hm⟩ := C69_shown_partial fl tree q hP ho
  obtain ⟨dis, is, k3, k4, k5⟩ := C68_built (sys := []) hb (by simp) hc
  refine ⟨m, dis, k3, fun k hk => ?_⟩
  obtain ⟨t', h2, h3⟩ := hm k hk
  obtain ⟨-, -, h4, h5⟩ := hall fl L tree k n name
  split
  · rename_i hq
    rw [if_pos hq] at h3
    obtain ⟨dis', is', j1, -, -, j2⟩ := h4 prog t' _ hbuild h2 fun _ => h3
    rw [k3] at j1
    cases j1
    exact j2
  · rename_i hq
    rw [if_neg hq] at h3
    exact h5 prog t' _ hbuild h2 ha h3

/-- C70 fails: if the name of the first file has 1020 characters or more, `-d` writes behind the end of a
buffer. -/
theorem C70_overflow {base : Str} (h : 1020 ≤ base.length) (hb : isOption base = false) (hr : CanRead fs base) (rest : List Str) :
    compMain can fs fl L tree k n name (base :: str "-d" :: rest) = .error .ub := by
  obtain ⟨t, ht, hn⟩ := hr
  have h1 : base[0]? ≠ some (ch '-') := fun h => by rw [(isOption_iff base).2 h] at hb; cases hb
  have h2 := (load_new (fs := fs) (srcs := []) (path := base) (by simp)).1 t ht hn
  have h3 : fdOpen can fs base (str ".dis") = .error .ub := by
    unfold fdOpen
    rw [if_pos (by have : (str ".dis").length = 4 := by decide
                   omega)]
  unfold compMain
  dsimp only
  rw [compArgs, if_pos h1, h2]
  dsimp only
  rw [compArgs, if_neg (by decide)]
  have : (str "-d")[1]? = some (ch 'd') := by decide
  rw [this]
  unfold compOption
  rw [if_neg (by decide), if_pos rfl, h3]

/-- C70 fails: if an option comes first, the files are named after the option. -/
theorem C70_option_first (path : Str) (hp : isOption path = false) (hc : can (str "-d.dis") = true) (h0 : path ≠ str "-d.dis")
    (hr : CanRead fs path) :
    ∃ srcs, srcs.map (fun x => (x.path, x.data)) = [(path, fs path)] ∧
      ∀ prog tree', build (opened fs [str "-d.dis"]) fl L true [] n srcs = .ok (some prog) → Tree.gc k tree = .ok tree' →
        ∃ dis, listing prog = .ok dis ∧
          compMain can fs fl L tree k n name [str "-d", path] = .ok ⟨0, [], setFile fs (str "-d.dis") dis⟩ := by
  have hin : inputsOf [str "-d", path] = [path] := by
    rw [inputs_option (by decide), inputs_load hp]
    rfl
  have ha : ∀ c, asked c [str "-d", path] = (some (ch 'd') == some (ch c)) := by
    intro c
    simp only [asked, List.any_cons, hp, List.any_nil]
    rw [show isOption (str "-d") = true by decide, show (str "-d")[1]? = some (ch 'd') by decide]
    simp
  have hout : outFiles can (str "-d") [str "-d", path] = [str "-d.dis"] := by
    simp only [outFiles, outNames, ha]
    have : str "-d" ++ str ".dis" = str "-d.dis" := by decide
    simp only [this, List.filter, hc, show (some (ch 'd') == some (ch 'a')) = false from by decide,
      show (some (ch 'd') == some (ch 'b')) = false from by decide,
      show (some (ch 'd') == some (ch 'd')) = true from by decide, Bool.false_and, Bool.and_self, List.map_cons,
      List.map_nil]
  have h : PlainArgs can (str "-d") [str "-d", path] := by
    refine ⟨rfl, by decide, ?_, ?_⟩
    · rw [hin]; exact List.pairwise_singleton _ _
    · rw [hin, hout]; simpa using h0
  obtain ⟨srcs, h1, hall⟩ := C70_files_partial can fs h (by rw [hin]; simpa using hr)
  obtain ⟨-, -, h2, -⟩ := hall fl L tree k n name
  rw [hin] at h1
  refine ⟨srcs, h1, fun prog tree' hb hg => ?_⟩
  rw [hout, ha 'n'] at h2
  obtain ⟨dis, is, h3, -, -, h4⟩ := h2 prog tree' [] hb hg (fun h => absurd h (by decide))
  refine ⟨dis, h3, ?_⟩
  rw [h4]
  refine congrArg Except.ok (congrArg (CompExit.mk 0 []) (funext fun p => ?_))
  simp only [results, hout, setFile, List.mem_singleton]
  split
  · rename_i e
    subst e
    rw [if_neg (by decide), if_pos (by decide)]
  · rfl

end

/-! ### Samples -/

/-- Two files. -/
def compFs : Str → Option Str := fun p =>
  if p = str "m" then some twoText else if p = str "other" then some (str "x") else none

/-- The status, and the contents of some files. -/
def compShow (args : List Str) : Option (Int × List (Option Str)) :=
  match compMain (fun _ => true) compFs toyFl sampleLayout ⟨[], fun _ => none, []⟩ 9 5 (str "comp") args with
  | .error _ => none
  | .ok x => some (x.status, [str "m", str "other", str "m.dis", str "m.bin", str "m.ast", str "-d.dis"].map x.files)

/-- The listing and the code. -/
example : compShow [str "m", str "-d", str "-b"] =
    some (0, [some twoText, some (str "x"), outOf none ((listing (memProg twoText)).map some), some (memProg twoText).code,
      none, none]) ∧ (memProg twoText).code.length = 41 := by decide +kernel

/-- An error of the compiler, and a file that does not exist. -/
example : compShow [str "m", str "-a", str "other"] = some (1, [some twoText, some (str "x"), none, none, some [], none]) ∧
    compShow [str "m", str "-a", str "no"] = some (-2, [some twoText, some (str "x"), none, none, some [], none]) := by
  decide +kernel

theorem comp_plain : PlainArgs (fun _ => true) (str "m") [str "m", str "-a"] :=
  ⟨rfl, by decide, List.pairwise_singleton _ _, by decide⟩

theorem comp_reads : ∀ q ∈ inputsOf [str "m", str "-a"], CanRead compFs q := by
  intro q hq
  have : inputsOf [str "m", str "-a"] = [str "m"] := by decide
  rw [this] at hq
  cases List.mem_singleton.1 hq
  exact ⟨twoText, by decide, by decide⟩

/-- `C70_tree_partial` for a program and its tree. -/
example : ∃ tree q, IsP tree q ∧ ∃ srcs, srcs.map (fun x => (x.path, x.data)) = [(str "m", some twoText)] ∧
    ∀ p srcs' prog, buildSources (opened compFs [str "m.ast"]) toyFl 5 0 srcs [] [] = .ok (p, srcs') → srcs ≠ [] →
      Compiles sampleLayout true p q prog → ∃ m dis, listing prog = .ok dis ∧ ∀ k, m ≤ k →
      compMain (fun _ => true) compFs toyFl sampleLayout tree k 5 (str "comp") [str "m", str "-a"] =
        if q.all safeI then
          .ok ⟨0, [], results (fun _ => true) compFs (str "m") [str "m", str "-a"] (showP toyFl q) dis prog.code⟩
        else .error .ub := by
  obtain ⟨q, hq⟩ := mem_compiles (text := twoText) (by decide +kernel)
  obtain ⟨t, h1, h2⟩ := tree_exists q
  have ho : outFiles (fun _ => true) (str "m") [str "m", str "-a"] = [str "m.ast"] := by decide
  obtain ⟨srcs, h3, h4⟩ := C70_tree_partial (fun _ => true) compFs toyFl sampleLayout t 5 (str "comp") comp_plain
    comp_reads (by decide) h2
  rw [ho] at h4
  refine ⟨t, q, h1, srcs, h3, fun p srcs' prog hb hne hc => ?_⟩
  exact h4 p srcs' q prog hb hne hc h1

/-- The hypotheses of `C70_overflow`. -/
example : ∃ base, 1020 ≤ base.length ∧ isOption base = false ∧ CanRead (fun _ => some twoText) base :=
  ⟨ch 'm' :: List.replicate 1019 (ch 'm'), by rw [List.length_cons, List.length_replicate]; omega, rfl, twoText, rfl, by decide⟩

example : compShow [str "-d", str "m", str "-b"] = some (0, [some twoText, some (str "x"), none, none, none,
    outOf none ((listing (memProg twoText)).map some)]) := by decide +kernel

end Ccml.Props
