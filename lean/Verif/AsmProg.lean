import Verif.AsmGen
/-!
The whole program as a sequence of segments, one per function, in the order of the text, with
`@init` at the end.
-/
set_option linter.unusedSimpArgs false
namespace Ccml

/-- The code of one function and where it stands. -/
structure Seg where
  name : Str
  pc : Nat
  si : Nat
  asm : Asm
  strs : List Str

/-- The position behind a segment. -/
def Seg.stop (s : Seg) : Nat := s.pc + widthOf s.asm

/-- `LOCALS` at the start. -/
def asmLocals (cx : GenCtx) (t : Token) : Asm :=
  if cx.size > 0 then one (.i1 .LOCALS (i32 cx.size)) (some t) else []

/-- Falling off the end. -/
def asmEnd (cx : GenCtx) (f : FuncDecl Ref) : Asm :=
  if (f.body.getLast?.map Stmt.isRet).getD false then []
  else one (.i1 .NEW_INT 0) (some f.stop) ++ one (.i1 .RET cx.space) (some f.stop)

/-- A function. -/
def asmFunc (p : Prog Ref) (sys : List Syscall) (pc si : Nat) (f : FuncDecl Ref) : Out Asm := do
  let b ← asmB (funcCtx p f) sys (pc + widthOf (asmLocals (funcCtx p f) f.name)) si f.body
  .ok (asmLocals (funcCtx p f) f.name ++ b ++ asmEnd (funcCtx p f) f)

/-- `@init`. -/
def asmInit (p : Prog Ref) (sys : List Syscall) (pc si : Nat) : Out Asm := do
  let b ← asmB (initCtx p) sys (pc + 5) si (initBody p)
  .ok (one (.i1 .GLOBALS (i32 (p.countP Item.isSlot))) none ++ b ++
    one (.i1 .NEW_INT 0) none ++ one (.i1 .RET (initCtx p).space) none)

/-- The segments of the functions of a program. -/
def segsOf (p : Prog Ref) (sys : List Syscall) : Nat → Nat → List (Item Ref) → Out (List Seg)
  | _, _, [] => .ok []
  | pc, si, .func f :: xs => do
    let a ← asmFunc p sys pc si f
    let r ← segsOf p sys (pc + widthOf a) (si + (strsB f.body).length) xs
    .ok (⟨f.name.str, pc, si, a, strsB f.body⟩ :: r)
  | pc, si, .var .. :: xs => segsOf p sys pc si xs
  | pc, si, .syscall .. :: xs => segsOf p sys pc si xs

/-- All instructions. -/
def segsAsm (l : List Seg) : Asm := l.flatMap Seg.asm

/-- All strings. -/
def segsStrs (l : List Seg) : List Str := l.flatMap Seg.strs

/-- Start and end of functions in the table. -/
def place (segs : List Seg) (f : Function) : Function :=
  match segs.find? (fun s => s.name == f.name) with
  | some s => { f with codeStart := i32 s.pc, codeEnd := i32 s.stop }
  | none => f

/-- The growth of the builder without the tables of functions and globals. -/
structure Grows (b b' : Builder) (asm : Asm) (strs : List Str) : Prop where
  code : b'.prog.code = b.prog.code ++ bytesOf (fun _ => 0) asm
  lines : b'.prog.lines = linesAt b.prog.lines b.prog.code.length asm
  strings : b'.prog.strings = b.prog.strings ++ strs
  fixups : b'.fixups = b.fixups ++ fixupsAt b.prog.code.length asm
  ok : EmitOk asm
  syscalls : b'.prog.syscalls = b.prog.syscalls

theorem Emits.grows {b b' : Builder} {a s} (h : Emits b b' a s) : Grows b b' a s :=
  ⟨h.code, h.lines, h.strings, h.fixups, h.ok, h.syscalls⟩

namespace Grows

theorem len {b b' : Builder} {asm strs} (h : Grows b b' asm strs) :
    b'.prog.code.length = b.prog.code.length + widthOf asm := by
  rw [h.code, List.length_append, bytesOf_length]

theorem slen {b b' : Builder} {asm strs} (h : Grows b b' asm strs) :
    b'.prog.strings.length = b.prog.strings.length + strs.length := by
  rw [h.strings, List.length_append]

theorem trans {b b1 b2 : Builder} {a1 a2 s1 s2} (h1 : Grows b b1 a1 s1) (h2 : Grows b1 b2 a2 s2) :
    Grows b b2 (a1 ++ a2) (s1 ++ s2) where
  code := by rw [h2.code, h1.code, bytesOf_append, List.append_assoc]
  lines := by rw [h2.lines, h1.lines, linesAt_append, h1.len]
  strings := by rw [h2.strings, h1.strings, List.append_assoc]
  fixups := by rw [h2.fixups, h1.fixups, fixupsAt_append, h1.len, List.append_assoc]
  ok := (emitOk_append _ _).2 ⟨h1.ok, h2.ok⟩
  syscalls := h2.syscalls.trans h1.syscalls

theorem same {b b' : Builder} (h1 : b'.prog.code = b.prog.code) (h2 : b'.prog.lines = b.prog.lines)
    (h3 : b'.prog.strings = b.prog.strings) (h4 : b'.fixups = b.fixups)
    (h5 : b'.prog.syscalls = b.prog.syscalls) : Grows b b' [] [] :=
  ⟨by simp [bytesOf, h1], h2, by simp [h3], by simp [fixupsAt, h4], trivial, h5⟩

end Grows

/-! ### The function table -/

theorem updFunction_ok {name : Str} {g : Function → Function} :
    ∀ {fs fs' : List Function}, (fs.map Function.name).Nodup → updFunction name g fs = .ok fs' →
      (∀ f, (g f).name = f.name) → fs' = fs.map (fun f => if f.name = name then g f else f) ∧
        fs'.map Function.name = fs.map Function.name
  | [], fs', _, h, _ => by simp [updFunction] at h
  | f :: fs, fs', hn, h, hg => by
    simp only [List.map_cons, List.nodup_cons] at hn
    unfold updFunction at h
    split at h
    · rename_i hf
      cases h
      have : ∀ x ∈ fs, ¬ x.name = name := fun x hx hc => hn.1 (by
        rw [hf, ← hc]; exact List.mem_map_of_mem hx)
      constructor
      · rw [List.map_cons, if_pos hf]
        congr 1
        exact (List.map_id' fs).symm.trans (List.map_congr_left fun x hx => by rw [if_neg (this x hx)])
      · simp [hg]
    · rename_i hf
      cases hu : updFunction name g fs with
      | error e => rw [hu] at h; cases h
      | ok fs1 =>
        rw [hu] at h
        cases h
        obtain ⟨h1, h2⟩ := updFunction_ok hn.2 hu hg
        constructor
        · rw [List.map_cons, if_neg hf, ← h1]
        · simp [h2]

/-- What a function does to the tables. -/
structure Enters (b b' : Builder) (name : Str) (pc stop : Nat) : Prop where
  functions : b'.prog.functions = b.prog.functions.map fun f =>
    if f.name = name then { f with codeStart := i32 pc, codeEnd := i32 stop } else f
  names : b'.prog.functions.map Function.name = b.prog.functions.map Function.name
  funcMap : b'.funcMap = (name, i32 pc) :: b.funcMap
  globals : b'.prog.globals = b.prog.globals
  small : stop < 2147483648

/-- A function around its code. -/
theorem around {name : Str} {b b1 b2 b' : Builder} {a s}
    (hn : (b.prog.functions.map Function.name).Nodup)
    (h1 : bEnter name b = .ok b1) (he : Emits b1 b2 a s) (h2 : bLeave name b2 = .ok b') :
    Grows b b' a s ∧ Enters b b' name b.prog.code.length (b.prog.code.length + widthOf a) := by
  unfold bEnter at h1
  obtain ⟨pc, hpc, h1⟩ := bind_ok.1 h1
  obtain ⟨b0, hb0, h1⟩ := bind_ok.1 h1
  obtain ⟨rfl, hl⟩ := bHead_ok hpc
  unfold bFunction at hb0
  obtain ⟨fs, hfs, hb0⟩ := bind_ok.1 hb0
  obtain ⟨u1, u2⟩ := updFunction_ok hn hfs (fun _ => rfl)
  unfold bLeave at h2
  obtain ⟨q, hq, h2⟩ := bind_ok.1 h2
  obtain ⟨rfl, hq⟩ := bHead_ok hq
  unfold bFunction at h2
  obtain ⟨fs2, hfs2, h2⟩ := bind_ok.1 h2
  cases hb0
  cases h1
  have hn2 : (b2.prog.functions.map Function.name).Nodup := by
    rw [he.functions]; show (fs.map _).Nodup; rw [u2]; exact hn
  obtain ⟨v1, v2⟩ := updFunction_ok hn2 hfs2 (fun _ => rfl)
  cases h2
  have hlen : b2.prog.code.length = b.prog.code.length + widthOf a := he.len
  refine ⟨⟨he.code, he.lines, he.strings, he.fixups, he.ok, he.syscalls⟩, ?_, ?_, ?_, ?_, ?_⟩
  · show fs2 = _
    rw [v1, he.functions]
    show List.map _ fs = _
    rw [u1, List.map_map]
    apply List.map_congr_left
    intro f hf
    simp only [Function.comp]
    by_cases h : f.name = name
    · simp only [h, if_true, hlen]
    · simp only [h, if_false]
  · show fs2.map _ = _
    rw [v2, he.functions]
    exact u2
  · exact he.funcMap
  · exact he.globals
  · omega

theorem genLocals_emits {cx : GenCtx} {t : Token} {b b' : Builder} (h : genLocals cx t b = .ok b') :
    Emits b b' (asmLocals cx t) [] := by
  unfold genLocals at h
  unfold asmLocals
  split at h
  · rename_i hc
    rw [if_pos hc]
    exact (bEmit_emits h).1
  · rename_i hc
    rw [if_neg hc]
    cases h
    exact Emits.refl b

theorem genEnd_emits {cx : GenCtx} {f : FuncDecl Ref} {b b' : Builder} (h : genEnd cx f b = .ok b') :
    Emits b b' (asmEnd cx f) [] := by
  unfold genEnd at h
  unfold asmEnd
  split at h
  · rename_i hc
    rw [if_pos hc]
    cases h
    exact Emits.refl b
  · rename_i hc
    rw [if_neg hc]
    obtain ⟨b1, h1, h⟩ := bind_ok.1 h
    exact (bEmit_emits h1).1.trans (bEmit_emits h).1

/-- The system calls of a program are in the table. -/
def SysIn (p : Prog Ref) (sys : List Syscall) : Prop :=
  ∀ (i : Nat) n a, p[i]? = some (.syscall n a) → ∃ j, sysIndex sys n = some j

theorem bEnter_same {name : Str} {b b' : Builder} (h : bEnter name b = .ok b') :
    b'.prog.code = b.prog.code ∧ b'.prog.strings = b.prog.strings ∧
      b'.prog.syscalls = b.prog.syscalls := by
  unfold bEnter at h
  obtain ⟨pc, hpc, h⟩ := bind_ok.1 h
  obtain ⟨b0, hb0, h⟩ := bind_ok.1 h
  unfold bFunction at hb0
  obtain ⟨fs, hfs, hb0⟩ := bind_ok.1 hb0
  cases hb0
  cases h
  exact ⟨rfl, rfl, rfl⟩

theorem genFunc_emits {p : Prog Ref} {f : FuncDecl Ref} {b b' : Builder} {sys : List Syscall}
    (hs : b.prog.syscalls = sys) (hok : SysIn p sys)
    (hn : (b.prog.functions.map Function.name).Nodup) (h : genFunc p f b = .ok b') :
    ∃ a, asmFunc p sys b.prog.code.length b.prog.strings.length f = .ok a ∧
      Grows b b' a (strsB f.body) ∧
      Enters b b' f.name.str b.prog.code.length (b.prog.code.length + widthOf a) := by
  unfold genFunc at h
  obtain ⟨b1, h1, h⟩ := bind_ok.1 h
  obtain ⟨b2, h2, h⟩ := bind_ok.1 h
  obtain ⟨b3, h3, h⟩ := bind_ok.1 h
  obtain ⟨b4, h4, h⟩ := bind_ok.1 h
  obtain ⟨s1, s2, s3⟩ := bEnter_same h1
  have e2 := genLocals_emits h2
  obtain ⟨a, ha, ea⟩ := genB_emits (cx := funcCtx p f) (sys := sys) hok f.body b2 b3
    (e2.syscalls.trans (s3.trans hs)) h3
  rw [e2.len, e2.slen, s1, s2] at ha
  simp only [List.length_nil, Nat.add_zero] at ha
  have e4 := (e2.trans ea).trans (genEnd_emits h4)
  simp only [List.nil_append, List.append_nil] at e4
  refine ⟨_, by unfold asmFunc; rw [bind_of_ok ha], around hn h1 e4 h⟩

theorem genInit_emits {p : Prog Ref} {b b' : Builder} {sys : List Syscall}
    (hs : b.prog.syscalls = sys) (hok : SysIn p sys)
    (hn : (b.prog.functions.map Function.name).Nodup) (h : genInit p b = .ok b') :
    ∃ a, asmInit p sys b.prog.code.length b.prog.strings.length = .ok a ∧
      Grows b b' a (strsB (initBody p)) ∧
      Enters b b' initName b.prog.code.length (b.prog.code.length + widthOf a) := by
  unfold genInit at h
  obtain ⟨b1, h1, h⟩ := bind_ok.1 h
  obtain ⟨b2, h2, h⟩ := bind_ok.1 h
  obtain ⟨b3, h3, h⟩ := bind_ok.1 h
  obtain ⟨b4, h4, h⟩ := bind_ok.1 h
  obtain ⟨b5, h5, h⟩ := bind_ok.1 h
  obtain ⟨s1, s2, s3⟩ := bEnter_same h1
  have e2 := (bEmit_emits h2).1
  obtain ⟨a, ha, ea⟩ := genB_emits (cx := initCtx p) (sys := sys) hok (initBody p) b2 b3
    (e2.syscalls.trans (s3.trans hs)) h3
  rw [e2.len, e2.slen, s1, s2] at ha
  simp only [List.length_nil, Nat.add_zero, one, widthOf, AIns.width, Ins.width] at ha
  have e5 := ((e2.trans ea).trans (bEmit_emits h4).1).trans (bEmit_emits h5).1
  simp only [List.nil_append, List.append_nil] at e5
  refine ⟨_, by unfold asmInit; rw [bind_of_ok ha], around hn h1 e5 h⟩

/-- The names of the functions of a program in order. -/
def funcNames {D : Type} : List (Item D) → List Str
  | [] => []
  | .func f :: xs => f.name.str :: funcNames xs
  | .var .. :: xs => funcNames xs
  | .syscall .. :: xs => funcNames xs

theorem segsOf_names {p : Prog Ref} {sys : List Syscall} : ∀ {xs : List (Item Ref)} {pc si segs},
    segsOf p sys pc si xs = .ok segs → segs.map Seg.name = funcNames xs
  | [], pc, si, segs, h => by simp only [segsOf] at h; cases h; rfl
  | .func f :: xs, pc, si, segs, h => by
    simp only [segsOf] at h
    obtain ⟨a, ha, h⟩ := bind_ok.1 h
    obtain ⟨r, hr, h⟩ := bind_ok.1 h
    cases h
    simp [funcNames, segsOf_names hr]
  | .var .. :: xs, pc, si, segs, h => by
    simp only [segsOf] at h
    simpa [funcNames] using segsOf_names h
  | .syscall .. :: xs, pc, si, segs, h => by
    simp only [segsOf] at h
    simpa [funcNames] using segsOf_names h

theorem segsOf_pc {p : Prog Ref} {sys : List Syscall} : ∀ {xs : List (Item Ref)} {pc si segs},
    segsOf p sys pc si xs = .ok segs → ∀ s ∈ segs, pc ≤ s.pc ∧ si ≤ s.si
  | [], pc, si, segs, h => by simp only [segsOf] at h; cases h; simp
  | .func f :: xs, pc, si, segs, h => by
    simp only [segsOf] at h
    obtain ⟨a, ha, h⟩ := bind_ok.1 h
    obtain ⟨r, hr, h⟩ := bind_ok.1 h
    cases h
    intro s hs
    rcases List.mem_cons.1 hs with rfl | hs
    · exact ⟨Nat.le_refl _, Nat.le_refl _⟩
    · have := segsOf_pc hr s hs
      omega
  | .var .. :: xs, pc, si, segs, h => by
    simp only [segsOf] at h
    exact segsOf_pc h
  | .syscall .. :: xs, pc, si, segs, h => by
    simp only [segsOf] at h
    exact segsOf_pc h

/-- What the children of a program do to the builder. -/
structure Builds (b b' : Builder) (segs : List Seg) : Prop where
  grows : Grows b b' (segsAsm segs) (segsStrs segs)
  functions : b'.prog.functions = b.prog.functions.map (place segs)
  names : b'.prog.functions.map Function.name = b.prog.functions.map Function.name
  funcMap : b'.funcMap = (segs.map fun s => (s.name, i32 s.pc)).reverse ++ b.funcMap
  small : ∀ s ∈ segs, s.stop < 2147483648

theorem place_nil (fs : List Function) : fs.map (place []) = fs :=
  (List.map_congr_left fun f _ => by simp [place]).trans (List.map_id' fs)

theorem Builds.refl (b : Builder) : Builds b b [] :=
  ⟨(Emits.refl b).grows, (place_nil _).symm, rfl, rfl, by simp⟩

theorem Builds.cons {b b1 b' : Builder} {s : Seg} {segs : List Seg} (hp : s.pc = b.prog.code.length)
    (hg : Grows b b1 s.asm s.strs) (he : Enters b b1 s.name s.pc s.stop) (hb : Builds b1 b' segs)
    (hn : s.name ∉ segs.map Seg.name) : Builds b b' (s :: segs) where
  grows := by simpa [segsAsm, segsStrs] using hg.trans hb.grows
  functions := by
    rw [hb.functions, he.functions, List.map_map]
    apply List.map_congr_left
    intro f hf
    simp only [Function.comp, place, List.find?_cons]
    by_cases h : f.name = s.name
    · have hno : ∀ q : Seg, q ∈ segs → (q.name == s.name) = false := by
        intro q hq
        rw [beq_eq_false_iff_ne]
        intro hc
        exact hn (hc ▸ List.mem_map_of_mem hq)
      simp only [h, if_true, beq_self_eq_true]
      have : segs.find? (fun q => q.name == s.name) = none := by
        rw [List.find?_eq_none]
        intro q hq; simp [hno q hq]
      rw [this]
    · have : (s.name == f.name) = false := by
        rw [beq_eq_false_iff_ne]; exact fun hc => h hc.symm
      simp only [h, if_false, this]
  names := hb.names.trans he.names
  funcMap := by rw [hb.funcMap, he.funcMap]; simp
  small := by
    intro q hq
    rcases List.mem_cons.1 hq with rfl | hq
    · exact he.small
    · exact hb.small q hq

/-- The offsets listed for global variables. -/
def globalIdents (p : Prog Ref) : Nat → List (Item Ref) → List Ident
  | _, [] => []
  | i, .var t _ _ :: xs => ⟨t.str, i32 (globalOffset p i)⟩ :: globalIdents p (i + 1) xs
  | i, .func _ :: xs => globalIdents p (i + 1) xs
  | i, .syscall .. :: xs => globalIdents p (i + 1) xs

theorem genItems_builds {p : Prog Ref} {sys : List Syscall} (hok : SysIn p sys) :
    ∀ (xs : List (Item Ref)) (i : Nat) (b b' : Builder), b.prog.syscalls = sys →
      (b.prog.functions.map Function.name).Nodup → (funcNames xs).Nodup →
      genItems p i xs b = .ok b' →
      ∃ segs, segsOf p sys b.prog.code.length b.prog.strings.length xs = .ok segs ∧
        Builds b b' segs ∧ b'.prog.globals = b.prog.globals ++ globalIdents p i xs
  | [], i, b, b', hs, hn, hx, h => by
    simp only [genItems] at h
    cases h
    exact ⟨[], rfl, Builds.refl b, by simp [globalIdents]⟩
  | .func f :: xs, i, b, b', hs, hn, hx, h => by
    simp only [genItems] at h
    obtain ⟨b1, h1, h⟩ := bind_ok.1 h
    obtain ⟨a, ha, hg, he⟩ := genFunc_emits hs hok hn h1
    simp only [funcNames, List.nodup_cons] at hx
    obtain ⟨segs, hseg, hb, hgl⟩ := genItems_builds hok xs (i + 1) b1 b' (hg.syscalls.trans hs)
      (by rw [he.names]; exact hn) hx.2 h
    rw [hg.len, hg.slen] at hseg
    refine ⟨⟨f.name.str, b.prog.code.length, b.prog.strings.length, a, strsB f.body⟩ :: segs, ?_, ?_, ?_⟩
    · simp only [segsOf]
      rw [bind_of_ok ha, bind_of_ok hseg]
    · exact Builds.cons rfl hg he hb (by rw [segsOf_names hseg]; exact hx.1)
    · rw [hgl, he.globals]; rfl
  | .var t c e :: xs, i, b, b', hs, hn, hx, h => by
    simp only [genItems] at h
    obtain ⟨segs, hseg, hb, hgl⟩ := genItems_builds hok xs (i + 1) (genGlobal p i t b) b' hs hn hx h
    refine ⟨segs, hseg, ⟨?_, hb.functions, hb.names, hb.funcMap, hb.small⟩, ?_⟩
    · obtain ⟨a1, a2, a3, a4, a5, a6⟩ := hb.grows
      exact ⟨a1, a2, a3, a4, a5, a6⟩
    · rw [hgl]; simp [genGlobal, globalIdents]
  | .syscall n a :: xs, i, b, b', hs, hn, hx, h => by
    simp only [genItems] at h
    obtain ⟨segs, hseg, hb, hgl⟩ := genItems_builds hok xs (i + 1) b b' hs hn hx h
    exact ⟨segs, hseg, hb, hgl⟩

/-! ### Call fixups -/

theorem applyFixups_all (m : List (Str × I32)) : ∀ (asm : Asm) (pre post : List Byte),
    applyFixups m (fixupsAt pre.length asm) (pre ++ bytesOf (fun _ => 0) asm ++ post) =
      .ok (pre ++ bytesOf (mapGet m) asm ++ post)
  | [], pre, post => by simp [fixupsAt, bytesOf, applyFixups]
  | (x, t) :: l, pre, post => by
    have key : ∀ (p1 : List Byte) (f : Str) (rest : List Byte),
        applyFixup (p1 ++ (le32 0 ++ rest)) p1.length (mapGet m f) =
          .ok (p1 ++ (le32 (mapGet m f) ++ rest)) := by
      intro p1 f rest
      unfold applyFixup
      rw [if_pos (by simp), List.take_left, ← List.drop_drop, List.drop_left]
      simp [le32]
    have ih := applyFixups_all m l
    cases x with
    | ins i =>
      have h := ih (pre ++ i.bytes) post
      simp only [List.length_append, Ins.bytes_length] at h
      simpa [fixupsAt, bytesOf, AIns.resolve, List.append_assoc] using h
    | call n f =>
      have h := ih (pre ++ (Ins.i2 .CALL n (mapGet m f)).bytes) post
      simp only [List.length_append, Ins.bytes_length, Ins.width] at h
      have hk := key (pre ++ Op.CALL.code :: le32 n) f (bytesOf (fun _ => 0) l ++ post)
      simp only [List.length_append, List.length_cons, le32_length] at hk
      simp only [fixupsAt, applyFixups, bytesOf, AIns.resolve, Ins.bytes]
      rw [show pre ++ (Op.CALL.code :: (le32 n ++ le32 0) ++ bytesOf (fun _ => 0) l) ++ post =
        pre ++ Op.CALL.code :: le32 n ++ (le32 0 ++ (bytesOf (fun _ => 0) l ++ post)) by simp]
      rw [show pre.length + 5 = pre.length + (4 + 1) from rfl, hk]
      simp only [Ins.bytes] at h
      rw [show pre ++ Op.CALL.code :: le32 n ++ (le32 (mapGet m f) ++ (bytesOf (fun _ => 0) l ++ post)) =
        pre ++ Op.CALL.code :: (le32 n ++ le32 (mapGet m f)) ++ bytesOf (fun _ => 0) l ++ post by simp]
      simp only [h]
      simp
    | fn f =>
      have h := ih (pre ++ (Ins.i1 .NEW_FUNC (mapGet m f)).bytes) post
      simp only [List.length_append, Ins.bytes_length, Ins.width] at h
      have hk := key (pre ++ [Op.NEW_FUNC.code]) f (bytesOf (fun _ => 0) l ++ post)
      simp only [List.length_append, List.length_cons, List.length_nil] at hk
      simp only [fixupsAt, applyFixups, bytesOf, AIns.resolve, Ins.bytes]
      rw [show pre ++ (Op.NEW_FUNC.code :: le32 0 ++ bytesOf (fun _ => 0) l) ++ post =
        pre ++ [Op.NEW_FUNC.code] ++ (le32 0 ++ (bytesOf (fun _ => 0) l ++ post)) by simp]
      rw [show pre.length + 1 = pre.length + (0 + 1) from rfl, hk]
      simp only [Ins.bytes] at h
      rw [show pre ++ [Op.NEW_FUNC.code] ++ (le32 (mapGet m f) ++ (bytesOf (fun _ => 0) l ++ post)) =
        pre ++ Op.NEW_FUNC.code :: le32 (mapGet m f) ++ bytesOf (fun _ => 0) l ++ post by simp]
      simp only [h]
      simp

/-! ### The tables before code generation -/

/-- The table entries of the functions. -/
def entriesOf : List (Item Ref) → Out (List Function)
  | [] => .ok []
  | .func f :: xs => do
    let e ← funcEntry f
    let r ← entriesOf xs
    .ok (e :: r)
  | .var .. :: xs => entriesOf xs
  | .syscall .. :: xs => entriesOf xs

theorem sysIndex_append {sys : List Syscall} {n : Str} {j : Nat} (h : sysIndex sys n = some j)
    (l : List Syscall) : sysIndex (sys ++ l) n = some j := by
  unfold sysIndex at *
  rw [List.findIdx?_append, h]; rfl

theorem addSyscall_spec (n : Str) (p : Program) :
    (∃ l, (addSyscall n p).2 = { p with syscalls := p.syscalls ++ l }) ∧
      ∃ j, sysIndex (addSyscall n p).2.syscalls n = some j := by
  unfold addSyscall
  cases h : sysIndex p.syscalls n with
  | some i => exact ⟨⟨[], by simp⟩, i, h⟩
  | none =>
    refine ⟨⟨[⟨n, none⟩], rfl⟩, p.syscalls.length, ?_⟩
    show sysIndex (p.syscalls ++ [⟨n, none⟩]) n = _
    unfold sysIndex at h ⊢
    rw [List.findIdx?_append, h]
    simp [List.findIdx?_cons]

theorem pregenItems_ok : ∀ (xs : List (Item Ref)) (p p' : Program), pregenItems xs p = .ok p' →
    (∃ l, p'.syscalls = p.syscalls ++ l) ∧ SysIn xs p'.syscalls ∧
    (∃ fs, entriesOf xs = .ok fs ∧ p' = { p with syscalls := p'.syscalls, functions := p.functions ++ fs })
  | [], p, p', h => by
    simp only [pregenItems] at h
    cases h
    exact ⟨⟨[], by simp⟩, fun i n a hi => by simp at hi, [], rfl, by simp⟩
  | .func f :: xs, p, p', h => by
    simp only [pregenItems] at h
    obtain ⟨e, he, h⟩ := bind_ok.1 h
    obtain ⟨h1, h2, fs, h3, h4⟩ := pregenItems_ok xs _ p' h
    refine ⟨h1, ?_, e :: fs, ?_, ?_⟩
    · intro i n a hi
      cases i with
      | zero => simp at hi
      | succ i => exact h2 i n a (by simpa using hi)
    · simp only [entriesOf]; rw [bind_of_ok he, bind_of_ok h3]
    · rw [h4]; simp
  | .var .. :: xs, p, p', h => by
    simp only [pregenItems] at h
    obtain ⟨h1, h2, fs, h3, h4⟩ := pregenItems_ok xs _ p' h
    refine ⟨h1, ?_, fs, h3, h4⟩
    intro i n a hi
    cases i with
    | zero => simp at hi
    | succ i => exact h2 i n a (by simpa using hi)
  | .syscall m k :: xs, p, p', h => by
    simp only [pregenItems] at h
    obtain ⟨⟨l, h1⟩, h2, fs, h3, h4⟩ := pregenItems_ok xs _ p' h
    obtain ⟨⟨l', hl'⟩, j, hj⟩ := addSyscall_spec m p
    refine ⟨⟨l' ++ l, ?_⟩, ?_, fs, h3, ?_⟩
    · rw [h1, hl']; simp
    · intro i n a hi
      cases i with
      | zero =>
        simp at hi
        obtain ⟨rfl, rfl⟩ := hi
        exact ⟨j, by rw [h1]; exact sysIndex_append hj l⟩
      | succ i => exact h2 i n a (by simpa using hi)
    · rw [h4, hl']

theorem funcEntry_name {f : FuncDecl Ref} {e : Function} (h : funcEntry f = .ok e) :
    e.name = f.name.str ∧ e.codeStart = 0 ∧ e.codeEnd = 0 := by
  unfold funcEntry at h
  obtain ⟨a, ha, h⟩ := bind_ok.1 h
  obtain ⟨l, hl, h⟩ := bind_ok.1 h
  cases h
  exact ⟨rfl, rfl, rfl⟩

theorem entriesOf_names : ∀ {xs : List (Item Ref)} {fs}, entriesOf xs = .ok fs →
    fs.map Function.name = funcNames xs
  | [], fs, h => by simp only [entriesOf] at h; cases h; rfl
  | .func f :: xs, fs, h => by
    simp only [entriesOf] at h
    obtain ⟨e, he, h⟩ := bind_ok.1 h
    obtain ⟨r, hr, h⟩ := bind_ok.1 h
    cases h
    simp [funcNames, (funcEntry_name he).1, entriesOf_names hr]
  | .var .. :: xs, fs, h => by
    simp only [entriesOf] at h
    simpa [funcNames] using entriesOf_names h
  | .syscall .. :: xs, fs, h => by
    simp only [entriesOf] at h
    simpa [funcNames] using entriesOf_names h

/-- The generated program in terms of its segments. -/
structure Generated (p : Prog Ref) (prog : Program) (segs : List Seg) (es : List Function) :
    Prop where
  funcs : ∃ l a i, segsOf p prog.syscalls 0 0 p = .ok l ∧
    asmInit p prog.syscalls (widthOf (segsAsm l)) (segsStrs l).length = .ok a ∧
    i = (⟨initName, widthOf (segsAsm l), (segsStrs l).length, a, strsB (initBody p)⟩ : Seg) ∧
    segs = l ++ [i]
  table : ∃ l, entriesOf p = .ok l ∧ es = l ++ [⟨initName, 0, 0, [], []⟩]
  names : (segs.map Seg.name).Nodup
  code : prog.code = bytesOf (mapGet (segs.map fun s => (s.name, i32 s.pc)).reverse) (segsAsm segs)
  lines : prog.lines = linesAt [] 0 (segsAsm segs)
  strings : prog.strings = segsStrs segs
  functions : prog.functions = es.map (place segs)
  globals : prog.globals = globalIdents p 0 p
  ok : EmitOk (segsAsm segs)
  sys : SysIn p prog.syscalls
  small : ∀ s ∈ segs, s.stop < 2147483648

theorem segsAsm_append (a b : List Seg) : segsAsm (a ++ b) = segsAsm a ++ segsAsm b := by
  simp [segsAsm]

theorem segsStrs_append (a b : List Seg) : segsStrs (a ++ b) = segsStrs a ++ segsStrs b := by
  simp [segsStrs]

theorem codegen_generated {p : Prog Ref} {prog : Program} (hn : (funcNames p ++ [initName]).Nodup)
    (h : codegen p = .ok prog) : ∃ segs entries, Generated p prog segs entries := by
  unfold codegen at h
  obtain ⟨p0, h0, h⟩ := bind_ok.1 h
  unfold pregen at h0
  obtain ⟨p1, h1, h0⟩ := bind_ok.1 h0
  obtain ⟨-, hsys, fs, hfs, hp1⟩ := pregenItems_ok p _ p1 h1
  cases h0
  unfold genProgram at h
  obtain ⟨b1, hb1, h⟩ := bind_ok.1 h
  obtain ⟨b2, hb2, h⟩ := bind_ok.1 h
  obtain ⟨code, hcode, h⟩ := bind_ok.1 h
  have hfun : p1.functions = fs := by rw [hp1]; rfl
  have hnames : ((p1.functions ++ [(⟨initName, 0, 0, [], []⟩ : Function)]).map Function.name).Nodup := by
    rw [List.map_append, hfun, entriesOf_names hfs]; exact hn
  have hn' := List.nodup_append.1 hn
  obtain ⟨segs, hseg, hb, hgl⟩ := genItems_builds (sys := p1.syscalls) hsys p 0 _ b1 rfl hnames
    hn'.1 hb1
  have hc0 : p1.code = [] := by rw [hp1]; rfl
  have hs0 : p1.strings = [] := by rw [hp1]; rfl
  have hl0 : p1.lines = [] := by rw [hp1]; rfl
  have hg0 : p1.globals = [] := by rw [hp1]; rfl
  simp only [hc0, hs0, List.length_nil] at hseg
  obtain ⟨a, ha, hg, he⟩ := genInit_emits (hb.grows.syscalls) hsys (by rw [hb.names]; exact hnames) hb2
  have hl1 := hb.grows.len
  have hl2 := hb.grows.slen
  simp only [hc0, hs0, List.length_nil, Nat.zero_add] at hl1 hl2
  rw [hl1, hl2] at ha
  let i : Seg := ⟨initName, widthOf (segsAsm segs), (segsStrs segs).length, a, strsB (initBody p)⟩
  have hini : initName ∉ segs.map Seg.name := by
    rw [segsOf_names hseg]
    intro hc
    exact hn'.2.2 _ hc _ (by simp) rfl
  have hall := hb.grows.trans hg
  have hA : segsAsm (segs ++ [i]) = segsAsm segs ++ a := by simp [segsAsm, i]
  have hS : segsStrs (segs ++ [i]) = segsStrs segs ++ strsB (initBody p) := by simp [segsStrs, i]
  have hfm : b2.funcMap = ((segs ++ [i]).map fun s => (s.name, i32 s.pc)).reverse := by
    rw [he.funcMap, hb.funcMap, hl1]; simp [i]
  rw [hall.fixups, hall.code] at hcode
  simp only [hc0, List.length_nil, List.nil_append] at hcode
  have hfix := applyFixups_all b2.funcMap (segsAsm segs ++ a) [] []
  simp only [List.length_nil, List.nil_append, List.append_nil] at hfix
  rw [hfix] at hcode
  cases hcode
  cases h
  refine ⟨segs ++ [i], fs ++ [⟨initName, 0, 0, [], []⟩], ?_⟩
  have hsy : b2.prog.syscalls = p1.syscalls := hall.syscalls
  refine ⟨⟨segs, a, i, ?_, ?_, rfl, rfl⟩, ⟨fs, hfs, rfl⟩, ?_, ?_, ?_, ?_, ?_, ?_, ?_, ?_, ?_⟩
  · simp only [hsy]; exact hseg
  · simp only [hsy]; exact ha
  · rw [List.map_append, segsOf_names hseg]; exact hn
  · show bytesOf _ _ = _
    rw [hA, hfm]
  · show b2.prog.lines = _
    rw [hall.lines, hA]; simp only [hc0, hl0, List.length_nil]
  · show b2.prog.strings = _
    rw [hall.strings, hS]; simp [hs0]
  · show b2.prog.functions = _
    rw [he.functions, hb.functions, List.map_map]
    simp only [hfun]
    apply List.map_congr_left
    intro f hf
    simp only [Function.comp]
    by_cases hfn : f.name = initName
    · have hnone : segs.find? (fun s => s.name == f.name) = none := by
        rw [List.find?_eq_none]
        intro q hq hc
        rw [hfn] at hc
        exact hini ((by simpa using hc : q.name = initName) ▸ List.mem_map_of_mem hq)
      have e1 : place segs f = f := by unfold place; rw [hnone]
      have e2 : place (segs ++ [i]) f = { f with codeStart := i32 i.pc, codeEnd := i32 i.stop } := by
        unfold place
        rw [List.find?_append, hnone, List.find?_cons, show (i.name == f.name) = true by simp [i, hfn]]
        rfl
      rw [e1, e2, if_pos hfn, hl1]
      rfl
    · have hi : (i.name == f.name) = false := by
        rw [beq_eq_false_iff_ne]; exact fun hc => hfn hc.symm
      have e2 : place (segs ++ [i]) f = place segs f := by
        unfold place
        rw [List.find?_append, List.find?_cons, hi]
        cases hs : segs.find? (fun s => s.name == f.name) <;> rfl
      have e3 : (place segs f).name = f.name := by unfold place; split <;> rfl
      rw [e2, if_neg (by rw [e3]; exact hfn)]
  · show b2.prog.globals = _
    rw [he.globals, hgl]; simp [hg0]
  · rw [hA]; exact hall.ok
  · simp only [hsy]; exact hsys
  · intro s hs
    rcases List.mem_append.1 hs with hs | hs
    · exact hb.small s hs
    · simp at hs
      subst hs
      have := he.small
      rw [hl1] at this
      exact this

end Ccml
