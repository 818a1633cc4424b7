import Verif.BuildFacts
import Verif.StrFacts
import Verif.Props.EndToEnd
/-!
C58: what `nano_t::build` compiles.  C59: where the strings of a program come from.  C60: from the
texts to the machine.
-/
namespace Ccml.Props
open Gram (ReadsP)
open Sem (State handOver)

/-! ### C58: the sources -/

/-- `Texts fs fl i ss p ss'`: the sources of the list `ss` from number `i` on, and those they import
(which come behind the others), are read one after the other as the parts of the program `p`; `ss'` are
the sources afterwards.  `written`, `Readable`, `expectedTokens` say how a text is made of words (C09),
`ReadsP` is the grammar (C16). -/
inductive Texts (fs : Str → Option Str) (fl : FloatOps) : Nat → List Source → Prog Unit → List Source → Prop
  | done {i ss} : ss[i]? = none → Texts fs fl i ss [] ss
  | next {i ss src xs us e p ss1 q ss2} : ss[i]? = some src → src.data = some (written xs) → Readable xs →
      expectedTokens fl i 1 (xs.map (·.1)) = us ++ [e] → ReadsP fs src ss p ss1 us →
      Texts fs fl (i + 1) ss1 q ss2 → Texts fs fl i ss (p ++ q) ss2

theorem texts_built {fs : Str → Option Str} {fl : FloatOps} {i : Nat} {ss ss' : List Source} {p : Prog Unit}
    (h : Texts fs fl i ss p ss') : ∀ (left : List PExpr) (acc : Prog Unit),
    ∃ m, ∀ n, m ≤ n → buildSources fs fl n i ss left acc = .ok (acc ++ p, ss') := by
  induction h with
  | done hn =>
    intro left acc
    refine ⟨1, fun n hm => ?_⟩
    cases n with
    | zero => omega
    | succ n => rw [buildSources, hn, List.append_nil]
  | next h1 h2 h3 h4 h5 _ ih =>
    rename_i i ss src xs us e p ss1 q ss2 _
    intro left acc
    obtain ⟨m, hm⟩ := ih left (acc ++ p)
    refine ⟨m + 1, fun n hn => ?_⟩
    cases n with
    | zero => omega
    | succ n =>
      obtain ⟨ts, l, k1, k2⟩ := C16_text fl i xs h3 us e h4 fs src ss ss1 left p h5
      rw [buildSources, h1]
      dsimp only
      rw [h2]
      dsimp only
      rw [k1]
      dsimp only
      rw [k2]
      dsimp only
      rw [hm n (by omega), List.append_assoc]

/-- C58: if the texts of the sources and of the files they import are read by the grammar as the parts of
a program, `build` compiles just this program, with the registered system calls in front. -/
theorem C58_reads (fs : Str → Option Str) (fl : FloatOps) (L : Layout) (opt : Bool)
    (sys : List (Str × Option Nat)) {srcs srcs' : List Source} {p : Prog Unit} (hs : srcs ≠ [])
    (h : Texts fs fl 0 srcs p srcs') :
    ∃ m, ∀ n, m ≤ n → build fs fl L opt sys n srcs = (compile L opt (registered sys ++ p)).map some := by
  obtain ⟨m, hm⟩ := texts_built h [] (registered sys)
  refine ⟨m, fun n hn => ?_⟩
  cases srcs with
  | nil => exact absurd rfl hs
  | cons s ss =>
    unfold build
    dsimp only
    rw [hm n hn]
    dsimp only
    cases compile L opt (registered sys ++ p) <;> rfl

/-- C58: there is nothing to compile without sources. -/
theorem C58_nothing (fs : Str → Option Str) (fl : FloatOps) (L : Layout) (opt : Bool)
    (sys : List (Str × Option Nat)) (n : Nat) : build fs fl L opt sys n [] = .ok none := rfl

/-- The rounds of the loop one by one. -/
theorem rounds_at {fs : Str → Option Str} {fl : FloatOps} {i : Nat} {ss ss' : List Source} {left : List PExpr}
    {parts : List (Prog Unit)} (h : Rounds fs fl i ss left parts ss') (hl : Made.Es LexTok left) :
    ss <+: ss' ∧ ∀ (k : Nat) part, parts[k]? = some part → ∃ src text toks known left s,
      ss'[i + k]? = some src ∧ src.data = some text ∧ lex fl (i + k) text = .ok toks ∧ known <+: ss' ∧
      parse fs src known left toks = .ok (part, s) ∧ s.srcs <+: ss' := by
  induction h with
  | done => exact ⟨List.prefix_rfl, by simp⟩
  | next h1 h2 ih =>
    rename_i i ss left part ss1 left1 parts ss2
    obtain ⟨k1, k2, k3⟩ := h1.made hl
    obtain ⟨m1, m2⟩ := ih k3
    obtain ⟨new, hnew, _⟩ := k1.news
    have hpre : ss <+: ss1 := ⟨new, hnew.symm⟩
    refine ⟨hpre.trans m1, fun k part' hk => ?_⟩
    cases k with
    | zero =>
      simp only [List.getElem?_cons_zero, Option.some.injEq] at hk
      subst hk
      obtain ⟨src, text, toks, s, g1, g2, g3, g4, rfl, rfl⟩ := h1
      refine ⟨src, text, toks, ss, left, s, ?_, g2, g3, hpre.trans m1, g4, m1⟩
      obtain ⟨r, hr⟩ := hpre.trans m1
      rw [← hr, Nat.add_zero, List.getElem?_append_left (List.getElem?_eq_some_iff.1 g1).1]
      exact g1
    | succ k =>
      rw [List.getElem?_cons_succ] at hk
      have := m2 k part' hk
      rwa [Nat.add_right_comm] at this

/-- C58, the other direction: what `build` compiles consists of one part for every source, in their
order, and each part is what its text was lexed and parsed to.  The sources are those given, then the
imported files, each of them once and under the path it was opened with. -/
theorem C58_once {fs : Str → Option Str} {fl : FloatOps} {n : Nat} {srcs srcs' : List Source}
    {acc p : Prog Unit} (h : buildSources fs fl n 0 srcs [] acc = .ok (p, srcs')) :
    ∃ (parts : List (Prog Unit)) (new : List Source), p = acc ++ parts.flatten ∧
      srcs' = srcs ++ new ∧ parts.length = srcs'.length ∧
      (new.map (·.path)).Nodup ∧ (∀ s ∈ new, (fs s.path).isSome ∧ ∀ x ∈ srcs, x.path ≠ s.path) ∧
      ∀ (k : Nat) part, parts[k]? = some part → ∃ src text toks known left s,
        srcs'[k]? = some src ∧ src.data = some text ∧ lex fl k text = .ok toks ∧ known <+: srcs' ∧
        parse fs src known left toks = .ok (part, s) ∧ s.srcs <+: srcs' := by
  obtain ⟨parts, h1, h2⟩ := build_rounds h
  have hl : Made.Es LexTok [] := by simp only [Made.Es]
  obtain ⟨new, k1, k2, k3⟩ := (h2.made hl).1.news
  have hc := h2.count (by omega) hl
  refine ⟨parts, new, h1, k1, by omega, k2, k3, ?_⟩
  have := (rounds_at h2 hl).2
  simpa only [Nat.zero_add] using this

/-- C58: if only finitely many paths can be opened, `build` ends: one more round than there are sources
and files is enough, and more rounds change nothing. -/
theorem C58_ends_partial (fs : Str → Option Str) (fl : FloatOps) (known : List Str)
    (hk : ∀ path, (fs path).isSome → path ∈ known) (srcs : List Source) (acc : Prog Unit) (n : Nat)
    (hn : srcs.length + known.length < n) :
    buildSources fs fl n 0 srcs [] acc = buildSources fs fl (srcs.length + known.length + 1) 0 srcs [] acc ∧
      buildSources fs fl n 0 srcs [] acc ≠ .error (.fault .diverge) :=
  build_fuel (srcs.length + known.length) (by simp only [Made.Es]) (by omega) (fun _ h => h.few hk) (by omega)
    (by omega)

/-! #### A file that imports itself -/

/-- What a path means when `.` is the directory itself. -/
def dotless : Str → Str
  | [] => []
  | [c] => [c]
  | [c, d] => [c, d]
  | a :: b :: c :: t =>
    if a = ch '/' ∧ b = ch '.' ∧ c = ch '/' then dotless (c :: t) else a :: dotless (b :: c :: t)
termination_by s => s.length

/-- The text of the file. -/
def selfText : Str := str "import \"./x\""

/-- A file system with one file, `s/x`. -/
def selfFs : Str → Option Str := fun p => if dotless p = str "s/x" then some selfText else none

/-- The directory under its `k`-th name. -/
def dots : Nat → Str
  | 0 => []
  | k + 1 => ch '/' :: ch '.' :: dots k

/-- The file under its `k`-th name. -/
def selfSrc (k : Nat) : Source :=
  ⟨ch 's' :: dots k ++ str "/x", some selfText, genLines selfText⟩

theorem dotless_dots : ∀ k, dotless (dots k ++ str "/x") = str "/x"
  | 0 => by decide +kernel
  | k + 1 => by
    have h : ∃ t, dots k ++ str "/x" = ch '/' :: t := by
      cases k with
      | zero => exact ⟨_, rfl⟩
      | succ k => exact ⟨_, rfl⟩
    obtain ⟨t, ht⟩ := h
    rw [dots, List.cons_append, List.cons_append, ht, dotless, if_pos ⟨rfl, rfl, rfl⟩, ← ht]
    exact dotless_dots k

theorem selfFs_opens (k : Nat) : selfFs (selfSrc k).path = some selfText := by
  unfold selfFs
  rw [if_pos]
  have h : ∃ u v t, dots k ++ str "/x" = u :: v :: t ∧ u = ch '/' := by
    cases k with
    | zero => exact ⟨_, _, _, rfl, rfl⟩
    | succ k => exact ⟨_, _, _, rfl, rfl⟩
  obtain ⟨u, v, t, ht, rfl⟩ := h
  have := dotless_dots k
  show dotless (ch 's' :: (dots k ++ str "/x")) = _
  rw [ht] at this ⊢
  rw [dotless, if_neg (fun h => absurd h.1 (by decide)), this]
  rfl

theorem selfFs_new : ∀ {j k : Nat}, j ≤ k → pathCmp (dots j ++ str "/x") (dots (k + 1) ++ str "/x") = false
  | 0, k, _ => rfl
  | j + 1, 0, h => by omega
  | j + 1, k + 1, h => by
    have := selfFs_new (j := j) (k := k) (by omega)
    rw [dots, dots]
    simp only [List.cons_append, pathCmp, if_true]
    exact this

theorem dots_snoc : ∀ k, dots (k + 1) = dots k ++ [ch '/', ch '.']
  | 0 => rfl
  | k + 1 => by
    show ch '/' :: ch '.' :: dots (k + 1) = ch '/' :: ch '.' :: (dots k ++ [ch '/', ch '.'])
    rw [dots_snoc k]

theorem self_path (k : Nat) : cstr (importedPath (selfSrc k) (cstr (str "./x"))) = (selfSrc (k + 1)).path := by
  have h := C54_import_relative_partial (selfSrc k) (ch 's' :: dots k) (str "x") (cstr (str "./x")) (ch '/')
    (.inl rfl) rfl (by decide +kernel)
  rw [h]
  have e : ch 's' :: dots k ++ ch '/' :: cstr (str "./x") = (selfSrc (k + 1)).path := by
    show _ = ch 's' :: dots (k + 1) ++ str "/x"
    rw [dots_snoc]
    simp only [List.cons_append, List.append_assoc]
    rfl
  rw [e]
  have hz : ∀ k, ∀ b ∈ dots k, b ≠ 0 := by
    intro k
    induction k with
    | zero => intro b hb; cases hb
    | succ k ih =>
      intro b hb
      rcases List.mem_cons.1 hb with rfl | hb
      · decide
      · rcases List.mem_cons.1 hb with rfl | hb
        · decide
        · exact ih b hb
  have : ∀ s : Str, (∀ b ∈ s, b ≠ 0) → cstr s = s := by
    intro s hs
    unfold cstr
    induction s with
    | nil => rfl
    | cons c t ih =>
      rw [List.takeWhile_cons_of_pos (by simpa using hs c (by simp)), ih fun b hb => hs b (by simp [hb])]
  refine this _ fun b hb => ?_
  rcases List.mem_cons.1 hb with rfl | hb
  · decide
  · rcases List.mem_append.1 hb with hb | hb
    · exact hz _ b hb
    · exact (by decide +kernel : ∀ b ∈ str "/x", b ≠ 0) b hb

theorem self_load (i : Nat) : loadSource selfFs ((List.range (i + 1)).map selfSrc) (selfSrc (i + 1)).path =
    (true, (List.range (i + 2)).map selfSrc) := by
  unfold loadSource
  rw [if_neg]
  · unfold Source.fromFile
    rw [selfFs_opens]
    dsimp only
    rw [if_neg (by decide +kernel), List.range_succ (n := i + 1), List.map_append]
    rfl
  · intro h
    obtain ⟨s, hs, hc⟩ := List.any_eq_true.1 h
    obtain ⟨j, hj, rfl⟩ := List.mem_map.1 hs
    rw [List.mem_range] at hj
    have := selfFs_new (j := j) (k := i) (by omega)
    have e : pathCmp (selfSrc j).path (selfSrc (i + 1)).path =
        pathCmp (dots j ++ str "/x") (dots (i + 1) ++ str "/x") := by
      show pathCmp (ch 's' :: (dots j ++ str "/x")) (ch 's' :: (dots (i + 1) ++ str "/x")) = _
      rw [pathCmp, if_pos rfl]
    rw [e, this] at hc
    cases hc

theorem self_words (fl : FloatOps) (i : Nat) : lex fl i selfText =
    .ok [⟨.IMPORT, [], ⟨i, 1⟩, 0⟩, ⟨.STRING, str "./x", ⟨i, 1⟩, 0⟩, ⟨.EOF, [], ⟨i, 1⟩, 0⟩] := by
  have e : selfText = written [(.fixed (str "import") .IMPORT, str " "), (.string (str "./x"), [])] := by
    decide +kernel
  rw [e, C09_lex_written]
  · rfl
  · exact readable_of (by decide +kernel)

/-- C58 fails for a file that imports itself as `./x`: the path gets longer with every round, each time
it is taken for a file not seen before, and `build` does not end. -/
theorem C58_endless (fl : FloatOps) (n : Nat) (acc : Prog Unit) :
    buildSources selfFs fl n 0 [selfSrc 0] [] acc = .error (.fault .diverge) := by
  have : ∀ (n i : Nat) (acc : Prog Unit),
      buildSources selfFs fl n i ((List.range (i + 1)).map selfSrc) [] acc = .error (.fault .diverge) := by
    intro n
    induction n with
    | zero => intro i acc; rfl
    | succ n ih =>
      intro i acc
      have hi : ((List.range (i + 1)).map selfSrc)[i]? = some (selfSrc i) := by simp
      rw [buildSources, hi]
      dsimp only
      rw [show (selfSrc i).data = some selfText from rfl]
      dsimp only
      rw [self_words]
      dsimp only
      have hr : ReadsP selfFs (selfSrc i) ((List.range (i + 1)).map selfSrc) [] ((List.range (i + 2)).map selfSrc)
          [⟨.IMPORT, [], ⟨i, 1⟩, 0⟩, ⟨.STRING, str "./x", ⟨i, 1⟩, 0⟩] :=
        .imp rfl rfl (by rw [self_path]; exact self_load i) .nil
      obtain ⟨l, hp⟩ := C16_parse_grammar selfFs (selfSrc i) _ _ [] _ _ ⟨.EOF, [], ⟨i, 1⟩, 0⟩ rfl hr
      rw [List.cons_append, List.cons_append, List.nil_append] at hp
      rw [hp]
      dsimp only
      exact ih (i + 1) _
  exact this n 0 acc

/-! ### C59: strings -/

/-- C59: every string in the table of a compiled program is a string literal or a member name of its
source: whatever is true of these is true of the table. -/
theorem C59_strings {L : Layout} {opt : Bool} {p : Prog Unit} {prog : Program} (hc : compile L opt p = .ok prog)
    (hi : ∀ x ∈ p, x.declName ≠ initName) {W : Str → Prop} (hp : Strs.P W p) : ∀ s ∈ prog.strings, W s := by
  obtain ⟨q, hc⟩ := compile_ok.1 hc
  have hn := hc.func hi
  obtain ⟨q0, h1, h2, h3⟩ := hc
  obtain ⟨segs, es, G⟩ := codegen_generated hn h3
  exact Strs.generated_strs (Strs.runOptimize_strs (Strs.runSema_strs hp h1) h2) G

/-! ### C60: from the texts to the machine -/

theorem made_name {x : Item Unit} (h : Made.I LexTok x) : x.declName ≠ initName := by
  have key : ∀ t : Token, LexTok t → t.type = .IDENT → t.str ≠ initName := by
    intro t ht hty e
    obtain ⟨c, w, h1, h2⟩ := ht.1 hty
    rw [e] at h1
    have : c = ch '@' := by
      have : initName.head? = some c := by rw [h1]; rfl
      exact (Option.some.inj ((show initName.head? = some (ch '@') by decide +kernel).symm.trans this)).symm
    subst this
    revert h2
    decide
  cases x with
  | var t c init => exact key t h.1 h.2.1
  | func f => exact key f.name h.1 h.2.1
  | syscall n a => exact h.elim

/-- C60: no declaration in a text is called `@init`. -/
theorem C60_names {fs : Str → Option Str} {fl : FloatOps} {n : Nat} {srcs srcs' : List Source}
    {sys : List (Str × Option Nat)} {p : Prog Unit} (hsys : ∀ s ∈ sys, s.1 ≠ initName)
    (h : buildSources fs fl n 0 srcs [] (registered sys) = .ok (p, srcs')) : ∀ x ∈ p, x.declName ≠ initName := by
  obtain ⟨parts, rfl, h2⟩ := build_rounds h
  have := (h2.made (by simp only [Made.Es])).2
  intro x hx
  rcases List.mem_append.1 hx with hx | hx
  · obtain ⟨s, hs, rfl⟩ := List.mem_map.1 hx
    exact hsys s hs
  · obtain ⟨part, hp, hx⟩ := List.mem_flatten.1 hx
    exact made_name (this part hp x hx)

/-- No NUL in a string. -/
def ZeroFree (s : Str) : Prop := ∀ b ∈ s, b ≠ 0

mutual
theorem made_strsE : ∀ {e : Expr Unit}, Made.E LexTok e → Strs.E ZeroFree e
  | .str v t, h => by
    simp only [Made.E, Strs.E] at h ⊢
    obtain ⟨k, _, hk, _, rfl⟩ := h
    exact hk.2
  | .member t m _, h => by simp only [Made.E, Strs.E] at h ⊢; exact h.2.1.2
  | .arr t es, h => by simp only [Made.E, Strs.E] at h ⊢; exact made_strsEs h.2
  | .deref t l i, h => by simp only [Made.E, Strs.E] at h ⊢; exact ⟨made_strsE h.2.1, made_strsE h.2.2⟩
  | .call t c as, h => by simp only [Made.E, Strs.E] at h ⊢; exact ⟨made_strsE h.2.1, made_strsEs h.2.2⟩
  | .bin op l r, h => by simp only [Made.E, Strs.E] at h ⊢; exact ⟨made_strsE h.2.1, made_strsE h.2.2⟩
  | .un op a, h => by simp only [Made.E, Strs.E] at h ⊢; exact made_strsE h.2
  | .ident .., h => by simp only [Strs.E]
  | .int .., h => by simp only [Strs.E]
  | .float .., h => by simp only [Strs.E]
  | .none .., h => by simp only [Strs.E]
theorem made_strsEs : ∀ {es : List (Expr Unit)}, Made.Es LexTok es → Strs.Es ZeroFree es
  | [], _ => by simp only [Strs.Es]
  | e :: es, h => by simp only [Made.Es, Strs.Es] at h ⊢; exact ⟨made_strsE h.1, made_strsEs h.2⟩
end

theorem made_strsO {e : Option (Expr Unit)} (h : Made.O LexTok e) : Strs.O ZeroFree e := by
  cases e with
  | none => exact trivial
  | some e => exact made_strsE h

mutual
theorem made_strsS : ∀ {s : Stmt Unit}, Made.S LexTok s → Strs.S ZeroFree s
  | .var .., h => by simp only [Made.S, Strs.S] at h ⊢; exact made_strsO h.2.2
  | .assign .., h => by simp only [Made.S, Strs.S] at h ⊢; exact made_strsE h.2.2
  | .assignArr .., h => by simp only [Made.S, Strs.S] at h ⊢; exact ⟨made_strsE h.2.2.1, made_strsE h.2.2.2⟩
  | .assignMem .., h => by simp only [Made.S, Strs.S] at h ⊢; exact ⟨h.2.2.1.2, made_strsE h.2.2.2⟩
  | .call .., h => by simp only [Made.S, Strs.S] at h ⊢; exact ⟨made_strsE h.2.1, made_strsEs h.2.2⟩
  | .ifS .., h => by
    simp only [Made.S, Strs.S] at h ⊢
    exact ⟨made_strsE h.2.1, made_strsB h.2.2.1, made_strsB h.2.2.2.1⟩
  | .whileS .., h => by simp only [Made.S, Strs.S] at h ⊢; exact ⟨made_strsE h.2.1, made_strsB h.2.2⟩
  | .forS .., h => by
    simp only [Made.S, Strs.S] at h ⊢
    exact ⟨made_strsE h.2.2.2.1, made_strsE h.2.2.2.2.1, made_strsB h.2.2.2.2.2⟩
  | .ret .., h => by simp only [Made.S, Strs.S] at h ⊢; exact made_strsO h.2
theorem made_strsB : ∀ {ss : List (Stmt Unit)}, Made.B LexTok ss → Strs.B ZeroFree ss
  | [], _ => by simp only [Strs.B]
  | s :: ss, h => by simp only [Made.B, Strs.B] at h ⊢; exact ⟨made_strsS h.1, made_strsB h.2⟩
end

theorem made_strsI {x : Item Unit} (h : Made.I LexTok x) : Strs.I ZeroFree x := by
  cases x with
  | var t c init => exact made_strsO h.2.2
  | func f => exact made_strsB h.2.2.2.1
  | syscall n a => exact trivial

/-- C60: the strings of a program built from texts hold no NUL. -/
theorem C60_clean {fs : Str → Option Str} {fl : FloatOps} {L : Layout} {opt : Bool} {n : Nat}
    {srcs srcs' : List Source} {sys : List (Str × Option Nat)} {p : Prog Unit} {prog : Program}
    (hsys : ∀ s ∈ sys, s.1 ≠ initName)
    (h : buildSources fs fl n 0 srcs [] (registered sys) = .ok (p, srcs')) (hc : compile L opt p = .ok prog) :
    CleanProgram prog := by
  refine C59_strings hc (C60_names hsys h) (W := ZeroFree) ?_
  obtain ⟨parts, rfl, h2⟩ := build_rounds h
  have := (h2.made (by simp only [Made.Es])).2
  intro x hx
  rcases List.mem_append.1 hx with hx | hx
  · obtain ⟨s, hs, rfl⟩ := List.mem_map.1 hx
    exact trivial
  · obtain ⟨part, hp, hx⟩ := List.mem_flatten.1 hx
    exact made_strsI (this part hp x hx)

/-- C60: from the texts to the machine.  Whatever texts `build` compiles: the tree `p` made from them
(C58 says how) is what runs.  A call which by the rules of the language, applied to this tree, gives `r`
and leaves the variables and arrays as in `w`, gives the value the host sees as `r`, and leaves such
variables and arrays, on the machine with its collected heap, at whatever times it collects, unless
memory or the given number of instructions runs out.  The host functions are the built-in ones and those a
driver binds to `names`: `driverMap` for the command line driver, `sdlMap` for the graphical one. -/
theorem C60_machine_partial {fs : Str → Option Str} {fl : FloatOps} {L : Layout} {opt : Bool} {n : Nat}
    {srcs : List Source} {sys : List (Str × Option Nat)} {prog : Program} {names : List (Str × HostFn)}
    (hsys : ∀ s ∈ sys, s.1 ≠ initName) (h : build fs fl L opt sys n srcs = .ok (some prog)) :
    ∃ p srcs', buildSources fs fl n 0 srcs [] (registered sys) = .ok (p, srcs') ∧ compile L opt p = .ok prog ∧
      (ElseApart p → (opt = true → Src.PlainIfs p) → Src.Small p →
      ∀ (io : Io) (depth : Nat) (should : Heap → Bool) (ops : List HostOp) (os : List HostOut) (v : VmState Val Store)
        (name : Str) (args : List View) (vals : List Val) (k : Nat) (r : Val) (w : State),
        (∀ op ∈ ops, CleanCall op) →
        session (Env.std (resolveWith names prog) fl Mem.abs) (newVm io) ops = (os, .ok v) →
        hostVals args = some vals → (∀ x ∈ args, ∀ s, x = .str s → ∀ b ∈ s, b ≠ 0) →
        Src.call (srcCtx p prog fl names) k name vals (callState v) = .ok r w →
        ∃ F, prog.findByName name = some F ∧ ∃ m, ∀ fuel, m ≤ fuel → ∀ os' out,
          session (Env.std (resolveWith names prog) fl (Mem.gc depth should)) (newHeapVm io)
            (ops ++ [.call F args fuel]) = (os', out) →
          match out with
          | .ok v' => os' = os ++ [.returned (.value (Ccml.peek Mem.abs w.mem r))] ∧
              ∃ t, t.finished = true ∧ v'.seen (Mem.gc depth should) = (leftBy w t).seen Mem.abs
          | .error f => f = .oom ∨ f = .diverge) := by
  unfold build at h
  split at h
  · cases h
  · split at h
    · cases h
    · rename_i p srcs' h1
      split at h
      · cases h
      · rename_i prog' h2
        cases h
        refine ⟨p, srcs', h1, h2, ?_⟩
        intro ha hi hs io depth should ops os v name args vals k r w hops hv hvals hz hr
        exact C57_machine_partial h2 ⟨ha, hi, C60_names hsys h1, hs⟩ fl depth should (C60_clean hsys h1 h2) hops hv
          hvals hz hr

/-- C60 with the grammar instead of the compiler: if the texts are read as the tree `p`, `build` compiles
them, and the program does what the tree says (with the system calls in front). -/
theorem C60_text_partial {fs : Str → Option Str} {fl : FloatOps} {L : Layout} {opt : Bool}
    {srcs srcs' : List Source} {sys : List (Str × Option Nat)} {p : Prog Unit} {prog : Program}
    {names : List (Str × HostFn)} (hs : srcs ≠ [])
    (hsys : ∀ s ∈ sys, s.1 ≠ initName) (h : Texts fs fl 0 srcs p srcs')
    (hc : compile L opt (registered sys ++ p) = .ok prog) (ha : ElseApart p)
    (hi : opt = true → Src.PlainIfs (registered sys ++ p)) (hm : Src.Small (registered sys ++ p)) :
    (∃ m, ∀ n, m ≤ n → build fs fl L opt sys n srcs = .ok (some prog)) ∧
      ∀ (io : Io) (depth : Nat) (should : Heap → Bool) (ops : List HostOp) (os : List HostOut) (v : VmState Val Store)
        (name : Str) (args : List View) (vals : List Val) (k : Nat) (r : Val) (w : State),
        (∀ op ∈ ops, CleanCall op) →
        session (Env.std (resolveWith names prog) fl Mem.abs) (newVm io) ops = (os, .ok v) →
        hostVals args = some vals → (∀ x ∈ args, ∀ s, x = .str s → ∀ b ∈ s, b ≠ 0) →
        Src.call (srcCtx (registered sys ++ p) prog fl names) k name vals (callState v) = .ok r w →
        ∃ F, prog.findByName name = some F ∧ ∃ m, ∀ fuel, m ≤ fuel → ∀ os' out,
          session (Env.std (resolveWith names prog) fl (Mem.gc depth should)) (newHeapVm io)
            (ops ++ [.call F args fuel]) = (os', out) →
          match out with
          | .ok v' => os' = os ++ [.returned (.value (Ccml.peek Mem.abs w.mem r))] ∧
              ∃ t, t.finished = true ∧ v'.seen (Mem.gc depth should) = (leftBy w t).seen Mem.abs
          | .error f => f = .oom ∨ f = .diverge := by
  obtain ⟨m, hb⟩ := C58_reads fs fl L opt sys hs h
  rw [hc] at hb
  refine ⟨⟨m, hb⟩, ?_⟩
  obtain ⟨m', h'⟩ := texts_built h [] (registered sys)
  have h1 := h' m' (Nat.le_refl _)
  have ha' : ElseApart (registered sys ++ p) := by
    intro f hf
    rcases List.mem_append.1 hf with hf | hf
    · obtain ⟨s, _, hs⟩ := List.mem_map.1 hf
      cases hs
    · exact ha f hf
  intro io depth should ops os v name args vals k r w hops hv hvals hz hr
  exact C57_machine_partial hc ⟨ha', hi, C60_names hsys h1, hm⟩ fl depth should (C60_clean hsys h1 hc) hops hv
    hvals hz hr

/-! ### Examples -/

/-- Two files: `s/m` imports `s/b`. -/
def twoFs : Str → Option Str := fun p => if p = str "s/b" then some (str "const k = 2") else none

/-- The words of `s/m`. -/
def mWords : List (Lexeme × Str) :=
  [(.fixed (str "import") .IMPORT, str " "), (.string (str "b"), str " "), (.newline, []),
   (.fixed (str "var") .VAR, str " "), (.name (str "x"), str " "), (.fixed (str "=") .ASSIGN, str " "),
   (.int 1, [])]

/-- The words of `s/b`. -/
def bWords : List (Lexeme × Str) :=
  [(.fixed (str "const") .CONST, str " "), (.name (str "k"), str " "), (.fixed (str "=") .ASSIGN, str " "),
   (.int 2, [])]

/-- The sources. -/
def mSrc : Source := ⟨str "s/m", some (written mWords), []⟩
/-- The source that is imported. -/
def bSrc : Source := ⟨str "s/b", some (str "const k = 2"), genLines (str "const k = 2")⟩

/-- The tree of `s/m`. -/
def mTree : Prog Unit :=
  [.var ⟨.IDENT, str "x", ⟨0, 2⟩, 0⟩ false (some (.int 1 (some ⟨.INT, [], ⟨0, 2⟩, 1⟩) none))]
/-- The tree of `s/b`. -/
def bTree : Prog Unit :=
  [.var ⟨.IDENT, str "k", ⟨1, 1⟩, 0⟩ true (some (.int 2 (some ⟨.INT, [], ⟨1, 1⟩, 2⟩) none))]

theorem two_texts : Texts twoFs toyFl 0 [mSrc] (mTree ++ (bTree ++ [])) [mSrc, bSrc] := by
  refine .next (src := mSrc) (xs := mWords) (us := [⟨.IMPORT, [], ⟨0, 1⟩, 0⟩, ⟨.STRING, str "b", ⟨0, 1⟩, 0⟩,
    ⟨.EOL, [], ⟨0, 2⟩, 0⟩, ⟨.VAR, [], ⟨0, 2⟩, 0⟩, ⟨.IDENT, str "x", ⟨0, 2⟩, 0⟩, ⟨.ASSIGN, [], ⟨0, 2⟩, 0⟩,
    ⟨.INT, [], ⟨0, 2⟩, 1⟩]) (e := ⟨.EOF, [], ⟨0, 2⟩, 0⟩) (ss1 := [mSrc, bSrc]) rfl rfl
    (readable_of (by decide +kernel)) rfl ?_ ?_
  · refine .imp (ss1 := [mSrc, bSrc]) rfl rfl (by decide +kernel) (.eol rfl ?_)
    exact .init (v := ⟨.VAR, [], ⟨0, 2⟩, 0⟩) (name := ⟨.IDENT, str "x", ⟨0, 2⟩, 0⟩) (a := ⟨.ASSIGN, [], ⟨0, 2⟩, 0⟩)
      (ts := [⟨.INT, [], ⟨0, 2⟩, 1⟩]) (us := []) (.inl rfl) rfl rfl (.plain (.operand (.literal (.int ⟨.INT, [], ⟨0, 2⟩, 1⟩ rfl)))) .nil
  · refine .next (src := bSrc) (xs := bWords) (us := [⟨.CONST, [], ⟨1, 1⟩, 0⟩, ⟨.IDENT, str "k", ⟨1, 1⟩, 0⟩,
      ⟨.ASSIGN, [], ⟨1, 1⟩, 0⟩, ⟨.INT, [], ⟨1, 1⟩, 2⟩]) (e := ⟨.EOF, [], ⟨1, 1⟩, 0⟩) rfl (by decide +kernel)
      (readable_of (by decide +kernel)) rfl ?_ (.done rfl)
    exact .init (v := ⟨.CONST, [], ⟨1, 1⟩, 0⟩) (name := ⟨.IDENT, str "k", ⟨1, 1⟩, 0⟩) (a := ⟨.ASSIGN, [], ⟨1, 1⟩, 0⟩)
      (ts := [⟨.INT, [], ⟨1, 1⟩, 2⟩]) (us := []) (.inr rfl) rfl rfl (.plain (.operand (.literal (.int ⟨.INT, [], ⟨1, 1⟩, 2⟩ rfl)))) .nil

/-- `C58_reads` for the two files, with one system call. -/
example : ∃ m, ∀ n, m ≤ n → build twoFs toyFl sampleLayout true [(str "putc", some 1)] n [mSrc] =
    (compile sampleLayout true (.syscall (str "putc") (some 1) :: (mTree ++ bTree))).map some :=
  C58_reads twoFs toyFl sampleLayout true [(str "putc", some 1)] (by simp) two_texts

/-- `C58_once` for them: two parts. -/
example : ∃ (parts : List (Prog Unit)), mTree ++ bTree = parts.flatten ∧ parts.length = 2 := by
  obtain ⟨m, hm⟩ := texts_built two_texts [] []
  obtain ⟨parts, new, h1, _, h3, _⟩ := C58_once (hm m (Nat.le_refl _))
  exact ⟨parts, h1, h3⟩

/-- `C58_ends_partial` for them. -/
example (n : Nat) (hn : 2 < n) (acc : Prog Unit) :
    buildSources twoFs toyFl n 0 [mSrc] [] acc ≠ .error (.fault .diverge) :=
  (C58_ends_partial twoFs toyFl [str "s/b"] (fun path h => by
    unfold twoFs at h
    split at h
    · simp [*]
    · cases h) [mSrc] acc n hn).2

/-! #### A program that runs -/

/-- A text with a function. -/
def runText : Str :=
  str "import \"b\"\nvar x = k + 1\nfunction main(y)\n  var s = \"ab\"\n  x = x + y\n  if (y > k)\n    return s\n  else\n    return x\n  end\nend\n"

/-- Its source. -/
def runSrc : Source := ⟨str "s/m", some runText, []⟩

/-- What is read. -/
def runRead : Prog Unit × List Source := outOf ([], []) (buildSources twoFs toyFl 5 0 [runSrc] [] (registered []))
/-- The tree that is compiled. -/
def runTree : Prog Unit := runRead.1
/-- The program. -/
def runProg : Program := outOf Program.empty (compile sampleLayout true runTree)

theorem run_read : buildSources twoFs toyFl 5 0 [runSrc] [] (registered []) = .ok runRead := by
  have h : isOk (buildSources twoFs toyFl 5 0 [runSrc] [] (registered [])) = true := by decide +kernel
  unfold runRead
  exact outOf_ok h
theorem run_reads : buildSources twoFs toyFl 5 0 [runSrc] [] (registered []) = .ok (runTree, runRead.2) := by
  rw [run_read, runTree]
theorem run_compiles : compile sampleLayout true runTree = .ok runProg := outOf_ok (by decide +kernel)

theorem run_builds : build twoFs toyFl sampleLayout true [] 5 [runSrc] = .ok (some runProg) := by
  unfold build
  dsimp only
  rw [run_reads]
  dsimp only
  rw [run_compiles]

/-- `C59_strings` for it: the one string is `ab`. -/
example : runProg.strings = [str "ab"] ∧ ∀ s ∈ runProg.strings, ∀ b ∈ s, b ≠ 0 :=
  ⟨by decide +kernel, C60_clean (by simp) run_reads run_compiles⟩

mutual
/-- `ApartS`, computed. -/
def apartS (H : List Str) : Stmt Unit → Bool
  | .var t _ init => (t.str :: mentionO init).all fun n => !H.contains n
  | .assign t _ e => (t.str :: mentionE e).all fun n => !H.contains n
  | .assignArr t _ i e => (t.str :: (mentionE i ++ mentionE e)).all fun n => !H.contains n
  | .assignMem t _ _ e => (t.str :: mentionE e).all fun n => !H.contains n
  | .call _ c as => (mentionE c ++ mentionEs as).all fun n => !H.contains n
  | .ifS _ c thn _ els => (mentionE c).all (fun n => !H.contains n) && (apartB H thn && apartB (declared thn ++ H) els)
  | .whileS _ c body => (mentionE c).all (fun n => !H.contains n) && apartB H body
  | .forS _ n _ a b body => (n.str :: (mentionE a ++ mentionE b)).all (fun n => !H.contains n) && apartB H body
  | .ret _ e => (mentionO e).all fun n => !H.contains n
/-- `ApartB`, computed. -/
def apartB (H : List Str) : List (Stmt Unit) → Bool
  | [] => true
  | s :: ss => apartS H s && apartB H ss
end

theorem free_of {H names : List Str} (h : (names.all fun n => !H.contains n) = true) : Free H names := by
  intro n hn hh
  have := List.all_eq_true.1 h n hn
  simp [hh] at this

mutual
theorem apartS_of : ∀ {s : Stmt Unit} {H : List Str}, apartS H s = true → ApartS H s
  | .var .., H, h => free_of h
  | .assign .., H, h => free_of h
  | .assignArr .., H, h => free_of h
  | .assignMem .., H, h => free_of h
  | .call .., H, h => free_of h
  | .ret .., H, h => free_of h
  | .ifS .., H, h => by
    simp only [apartS, Bool.and_eq_true] at h
    exact ⟨free_of h.1, apartB_of h.2.1, apartB_of h.2.2⟩
  | .whileS .., H, h => by
    simp only [apartS, Bool.and_eq_true] at h
    exact ⟨free_of h.1, apartB_of h.2⟩
  | .forS .., H, h => by
    simp only [apartS, Bool.and_eq_true] at h
    exact ⟨free_of h.1, apartB_of h.2⟩
theorem apartB_of : ∀ {ss : List (Stmt Unit)} {H : List Str}, apartB H ss = true → ApartB H ss
  | [], H, h => trivial
  | s :: ss, H, h => by
    simp only [apartB, Bool.and_eq_true] at h
    exact ⟨apartS_of h.1, apartB_of h.2⟩
end

/-- The functions of a program. -/
def funcsOf (p : Prog Unit) : List (FuncDecl Unit) := p.filterMap fun x => match x with | .func f => some f | _ => none

theorem mem_funcsOf {p : Prog Unit} {f : FuncDecl Unit} (h : Item.func f ∈ p) : f ∈ funcsOf p :=
  List.mem_filterMap.2 ⟨_, h, rfl⟩

theorem run_apart : ElseApart runTree := fun f hf =>
  apartB_of (List.all_eq_true.1 (by decide +kernel : (funcsOf runTree).all (fun f => apartB [] f.body) = true) f
    (mem_funcsOf hf))

theorem run_ifs : Src.PlainIfs runTree := fun f hf e he =>
  List.all_eq_true.1 (List.all_eq_true.1 (by decide +kernel : (funcsOf runTree).all
    (fun f => (Src.condsB f.body).all (Src.plainCond runTree)) = true) f (mem_funcsOf hf)) e he

theorem run_small : Src.Small runTree := ⟨by decide +kernel, fun f hf =>
  of_decide_eq_true (List.all_eq_true.1 (by decide +kernel : (funcsOf runTree).all
    (fun f => decide (f.args.length + Src.varsB f.body < 2147483648)) = true) f (mem_funcsOf hf))⟩

/-- The reference machine after starting the program. -/
def runStarted : VmState Val Store :=
  outOf (newVm Io.fresh) (session (Env.std (driverResolve runProg) toyFl Mem.abs) (newVm Io.fresh) [.init]).2

theorem flag_of {l : List HostOut} (h : (match l with | [.flag b] => b | _ => false) = true) :
    l = [.flag true] := by
  split at h
  · rw [h]
  · cases h

/-- `C60_machine_partial` for it: `main(5)` returns the string `ab` and leaves 8 in `x`. -/
example (depth : Nat) (should : Heap → Bool) : ∃ F m, runProg.findByName (str "main") = some F ∧
    ∀ fuel, m ≤ fuel → ∀ os' v',
      session (Env.std (driverResolve runProg) toyFl (Mem.gc depth should)) (newHeapVm Io.fresh)
        [.init, .call F [.int 5] fuel] = (os', .ok v') →
      ∃ s, os' = [.flag true, .returned (.value s)] ∧ s [] = .ok (.str (str "ab")) := by
  have hv : session (Env.std (driverResolve runProg) toyFl Mem.abs) (newVm Io.fresh) [.init] =
      ((session (Env.std (driverResolve runProg) toyFl Mem.abs) (newVm Io.fresh) [.init]).1, .ok runStarted) :=
    pair_ok (by decide +kernel)
  obtain ⟨p, _, h1, _, h⟩ := C60_machine_partial (sys := []) (by simp) run_builds
  rw [run_reads] at h1
  obtain ⟨h1, _⟩ := Prod.mk.inj (Except.ok.inj h1)
  subst h1
  obtain ⟨w, hr, hw⟩ : ∃ w, Src.call (srcCtx runTree runProg toyFl) 5 (str "main") [.int 5]
      (callState runStarted) = .ok (.str (str "ab")) w ∧ (w.globals == [.int 8]) = true :=
    ok_of_check (by decide +kernel)
  obtain ⟨F, hF, m, hm⟩ := h run_apart (fun _ => run_ifs) run_small _ depth should _ _ _ _ [.int 5] _ _ _ _
    (by simp [CleanCall]) hv rfl (by simp) hr
  refine ⟨F, m, hF, fun fuel hf os' v' hs => ?_⟩
  obtain ⟨k, _⟩ := hm fuel hf os' (.ok v') hs
  rw [flag_of (l := (session (Env.std (driverResolve runProg) toyFl Mem.abs) (newVm Io.fresh) [.init]).1)
    (by decide +kernel)] at k
  exact ⟨_, k, by rw [Ccml.peek]; rfl⟩

end Ccml.Props
