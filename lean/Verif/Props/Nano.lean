import Verif.Nano
import Verif.SampleProg
import Verif.Props.Build
/-!
C76: using a compiler object again.
-/
namespace Ccml.Props

/-- C76: what the parser accepts, the tree it makes, the sources it imports and the error it reports do not depend
on what lies on its two stacks when it is started, and that is still there afterwards. -/
theorem C76_stacks (fs : Str → Option Str) (cur : Source) (srcs : List Source) (ops : List Token)
    (exps : List (Expr Unit)) (toks : List Token) :
    (∀ p s, parse fs cur srcs [] toks = .ok (p, s) →
      parseItems fs cur (parseFuel toks) ⟨toks, ⟨0, 0⟩, ops, exps, srcs⟩ =
        .ok (p, { s with ops := s.ops ++ ops, exps := s.exps ++ exps })) ∧
    (∀ e, parse fs cur srcs [] toks = .error (.err e) →
      parseItems fs cur (parseFuel toks) ⟨toks, ⟨0, 0⟩, ops, exps, srcs⟩ = .error (.err e)) := by
  have h := Over.sits_items (os := ops) (es := exps) fs cur (parseFuel toks) ⟨toks, ⟨0, 0⟩, [], [], srcs⟩
  unfold parse
  constructor
  · intro p s hp
    rw [hp] at h
    exact h
  · intro e he
    rw [he] at h
    exact h

theorem nanoSources_over (fs : Str → Option Str) (fl : FloatOps) (os : List Token) (es : List (Expr Unit)) :
    ∀ (n i : Nat) (srcs : List Source) (ops : List Token) (exps : List (Expr Unit)) (acc : Prog Unit),
      match nanoSources fs fl n i srcs ops exps acc with
      | .ok p => nanoSources fs fl n i srcs (ops ++ os) (exps ++ es) acc = .ok p
      | .error (.err e) => nanoSources fs fl n i srcs (ops ++ os) (exps ++ es) acc = .error (.err e)
      | .error (.fault _) => True
  | 0, _, _, _, _, _ => trivial
  | n + 1, i, srcs, ops, exps, acc => by
    unfold nanoSources
    cases hs : srcs[i]? with
    | none => rfl
    | some src =>
      dsimp only
      cases hd : src.data with
      | none => trivial
      | some text =>
        dsimp only
        cases hl : lex fl i text with
        | error e => dsimp only; cases e.toStop <;> trivial
        | ok toks =>
          dsimp only
          have h := Over.sits_items (os := os) (es := es) fs src (parseFuel toks) ⟨toks, ⟨0, 0⟩, ops, exps, srcs⟩
          rcases hp : parseItems fs src (parseFuel toks) ⟨toks, ⟨0, 0⟩, ops, exps, srcs⟩ with (e | f) | ⟨items, s⟩
          · rw [hp] at h
            dsimp only [PState.over] at h ⊢
            rw [h]
          · trivial
          · rw [hp] at h
            dsimp only [PState.over] at h ⊢
            rw [h]
            exact nanoSources_over fs fl os es n (i + 1) s.srcs s.ops s.exps (acc ++ items)

/-- C76: a build ends in the same way whatever lies on the stacks of the parser, if it ends with a program or an
error message on empty stacks. -/
theorem C76_leftovers (fs : Str → Option Str) (fl : FloatOps) (L : Layout) (fuel : Nat) (srcs : List Source) (o : Nano)
    (r : Except CErr (Option Program))
    (h : Nano.build fs fl L fuel srcs { o with ops := [], exps := [] } = r.mapError .err) :
    Nano.build fs fl L fuel srcs o = r.mapError .err := by
  unfold Nano.build at h ⊢
  cases srcs with
  | nil => exact h
  | cons s ss =>
    dsimp only at h ⊢
    have k := nanoSources_over fs fl o.ops o.exps fuel 0 (s :: ss) [] [] o.children
    rcases hn : nanoSources fs fl fuel 0 (s :: ss) [] [] o.children with (e | f) | p
    · rw [hn] at k h
      dsimp only [List.nil_append] at k h
      rw [k]
      exact h
    · rw [hn] at h
      cases r <;> cases h
    · rw [hn] at k h
      dsimp only [List.nil_append] at k h
      rw [k]
      exact h

theorem registerAll_eq : ∀ (sys : List (Str × Option Nat)) (o : Nano),
    Nano.registerAll sys o = { o with children := o.children ++ registered sys }
  | [], o => by simp [Nano.registerAll, registered]
  | s :: ss, o => by
    rw [Nano.registerAll, registerAll_eq ss]
    simp [Nano.register, registered]

theorem nanoSources_fresh (fs : Str → Option Str) (fl : FloatOps) :
    ∀ (n i : Nat) (srcs : List Source) (exps : List (Expr Unit)) (acc : Prog Unit),
      nanoSources fs fl n i srcs [] exps acc = (buildSources fs fl n i srcs exps acc).map (·.1)
  | 0, _, _, _, _ => rfl
  | n + 1, i, srcs, exps, acc => by
    unfold nanoSources buildSources
    cases hs : srcs[i]? with
    | none => rfl
    | some src =>
      dsimp only
      cases hd : src.data with
      | none => rfl
      | some text =>
        dsimp only
        cases hl : lex fl i text with
        | error e => rfl
        | ok toks =>
          dsimp only
          obtain ⟨us, e, rfl, he, hu⟩ := C07_one_eof fl i text toks hl
          have hc := C15_parsing_ends fs src srcs exps us e he hu
          change (match parse fs src srcs exps (us ++ [e]) with | .error e => _ | .ok (items, s) => _) = _
          rcases hp : parse fs src srcs exps (us ++ [e]) with _ | ⟨items, s⟩
          · rfl
          · rw [hp] at hc
            rcases hc with ⟨p, s', h, -, ho⟩ | ⟨_, h⟩ | ⟨h, -⟩ <;> cases h
            dsimp only
            rw [ho]
            exact nanoSources_fresh fs fl n (i + 1) s.srcs s.exps (acc ++ items)

/-- C76: the build of a new compiler object on an empty program is the build that the other properties are about. -/
theorem C76_new (fs : Str → Option Str) (fl : FloatOps) (L : Layout) (opt : Bool) (sys : List (Str × Option Nat))
    (fuel : Nat) (srcs : List Source) :
    Nano.build fs fl L fuel srcs (Nano.registerAll sys { Nano.new Program.empty with optimize := opt }) =
      build fs fl L opt sys fuel srcs := by
  rw [registerAll_eq]
  unfold Nano.build build
  cases srcs with
  | nil => rfl
  | cons s ss =>
    dsimp only [Nano.new, List.nil_append]
    rw [nanoSources_fresh]
    rcases buildSources fs fl fuel 0 (s :: ss) [] (registered sys) with _ | ⟨p, q⟩
    · rfl
    · dsimp only [Except.map, compile]
      cases runSema L p with
      | error => rfl
      | ok p =>
        dsimp only
        cases runOptimize opt p with
        | error => rfl
        | ok p =>
          dsimp only [codegenOn, codegen, liftC]
          rcases pregen p Program.empty >>= fun q => genProgram p ⟨q, [], []⟩ with _ | _ <;> rfl

/-- C76: whatever was compiled before, and however that ended: after `reset`, and with the functions of the host
registered again, a compiler object makes of any sources the same program as a new one, or reports the same error.
(The builds of a new object that abort are those of C15 and C44.) -/
theorem C76_reset (fs : Str → Option Str) (fl : FloatOps) (L : Layout) (sys : List (Str × Option Nat)) (fuel : Nat)
    (srcs : List Source) (o : Nano) (r : Except CErr (Option Program))
    (h : build fs fl L o.optimize sys fuel srcs = r.mapError .err) :
    Nano.build fs fl L fuel srcs (Nano.registerAll sys o.reset) = r.mapError .err := by
  refine C76_leftovers fs fl L fuel srcs _ r ?_
  rw [← C76_new] at h
  rw [← h, registerAll_eq, registerAll_eq]
  rfl

/-! ### Cases -/

/-- A compiler object that has been used: an operator and an operand are left on the stacks, the tree and the program
of an earlier build are there. -/
def usedNano : Nano :=
  { optimize := true, ops := [⟨.ADD, [], ⟨0, 1⟩, 0⟩], exps := [.ident ⟨.IDENT, str "gone", ⟨0, 1⟩, 0⟩ ()],
    children := runTree, program := runProg }

/-- The next source for it. -/
def nextSrc : Source :=
  ⟨str "s/n", some (str "var q = 1\nfunction main(y)\n  putc(y + q * 2)\nend\n"), []⟩

/-- Its program, made by a new compiler object. -/
def nextProg : Program :=
  match build twoFs toyFl sampleLayout true [(str "putc", some 1)] 5 [nextSrc] with
  | .ok (some p) => p
  | _ => Program.empty

theorem next_builds : build twoFs toyFl sampleLayout true [(str "putc", some 1)] 5 [nextSrc] = .ok (some nextProg) := by
  have h : (match build twoFs toyFl sampleLayout true [(str "putc", some 1)] 5 [nextSrc] with
    | .ok (some _) => true | _ => false) = true := by decide +kernel
  unfold nextProg
  split at h
  · next p hp => rw [hp]
  · cases h

/-- `C76_reset`: the same program. -/
example : Nano.build twoFs toyFl sampleLayout 5 [nextSrc] (Nano.registerAll [(str "putc", some 1)] usedNano.reset) =
    .ok (some nextProg) :=
  C76_reset _ _ _ _ _ _ usedNano (.ok (some nextProg)) next_builds

/-- `C76_reset` with an error: the same message. -/
example : ∃ e, build twoFs toyFl sampleLayout true [] 5 [nextSrc] = .error (.err e) ∧
    Nano.build twoFs toyFl sampleLayout 5 [nextSrc] usedNano.reset = .error (.err e) := by
  have h : (match build twoFs toyFl sampleLayout true [] 5 [nextSrc] with
    | .error (.err _) => true | _ => false) = true := by decide +kernel
  split at h
  · next e he => exact ⟨e, he, C76_reset _ _ _ [] _ _ usedNano (.error e) he⟩
  · cases h

/-- C76: `reset` also removes the functions of the host: a source that calls one no longer compiles until it is
registered again. -/
theorem C76_forgets :
    (∃ p, Nano.build twoFs toyFl sampleLayout 5 [nextSrc]
      ((Nano.new Program.empty).register (str "putc") (some 1)) = .ok (some p)) ∧
    ∃ e, Nano.build twoFs toyFl sampleLayout 5 [nextSrc]
      ((Nano.new Program.empty).register (str "putc") (some 1)).reset = .error (.err e) := by
  constructor
  · exact ⟨nextProg, (C76_new twoFs toyFl sampleLayout true [(str "putc", some 1)] 5 [nextSrc]).trans next_builds⟩
  · have h : (match Nano.build twoFs toyFl sampleLayout 5 [nextSrc]
        ((Nano.new Program.empty).register (str "putc") (some 1)).reset with
      | .error (.err _) => true | _ => false) = true := by decide +kernel
    split at h
    · next e he => exact ⟨e, he⟩
    · cases h

/-- C76: `reset` is needed: with the tree of an earlier build still there, a source that defines `main` again is
refused. -/
theorem C76_needed : ∃ e, Nano.build twoFs toyFl sampleLayout 5 [nextSrc]
    (usedNano.register (str "putc") (some 1)) = .error (.err e) := by
  have h : (match Nano.build twoFs toyFl sampleLayout 5 [nextSrc] (usedNano.register (str "putc") (some 1)) with
    | .error (.err _) => true | _ => false) = true := by decide +kernel
  split at h
  · next e he => exact ⟨e, he⟩
  · cases h

/-- The tokens of `var x = 1 not 2`. -/
def notToks : List Token :=
  [⟨.VAR, [], ⟨0, 1⟩, 0⟩, ⟨.IDENT, str "x", ⟨0, 1⟩, 0⟩, ⟨.ASSIGN, [], ⟨0, 1⟩, 0⟩, ⟨.INT, [], ⟨0, 1⟩, 1⟩,
    ⟨.NOT, [], ⟨0, 1⟩, 0⟩, ⟨.INT, [], ⟨0, 1⟩, 2⟩, ⟨.EOF, [], ⟨0, 1⟩, 0⟩]

/-- `C76_stacks` where a parse that succeeds leaves something behind: `not` between two operands. -/
example : ∃ p s, parse twoFs nextSrc [] [] notToks = .ok (p, s) ∧ s.exps.length = 1 := by
  have h : (match parse twoFs nextSrc [] [] notToks with
    | .ok (_, s) => s.exps.length == 1 | _ => false) = true := by decide +kernel
  split at h
  · next p s hp => exact ⟨p, s, hp, by simpa using h⟩
  · cases h

end Ccml.Props
