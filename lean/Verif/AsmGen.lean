import Verif.Asm
/-!
The code generator emits the instructions of Asm.lean.
-/
set_option linter.unusedSimpArgs false
namespace Ccml

theorem bind_ok {α β : Type} {x : Out α} {f : α → Out β} {b : β} :
    (x >>= f) = .ok b ↔ ∃ a, x = .ok a ∧ f a = .ok b := by
  cases x with
  | error e =>
    constructor
    · intro h; cases h
    · rintro ⟨a, h, _⟩; cases h
  | ok a =>
    constructor
    · intro h; exact ⟨a, rfl, h⟩
    · rintro ⟨a', h, h'⟩; cases h; exact h'

theorem bind_of_ok {α β : Type} {x : Out α} {f : α → Out β} {a : α} (h : x = .ok a) :
    (x >>= f) = f a := by rw [h]; rfl

/-- What emitting a list of instructions does to the builder. -/
structure Emits (b b' : Builder) (asm : Asm) (strs : List Str) : Prop where
  code : b'.prog.code = b.prog.code ++ bytesOf (fun _ => 0) asm
  lines : b'.prog.lines = linesAt b.prog.lines b.prog.code.length asm
  strings : b'.prog.strings = b.prog.strings ++ strs
  fixups : b'.fixups = b.fixups ++ fixupsAt b.prog.code.length asm
  ok : EmitOk asm
  syscalls : b'.prog.syscalls = b.prog.syscalls
  functions : b'.prog.functions = b.prog.functions
  globals : b'.prog.globals = b.prog.globals
  funcMap : b'.funcMap = b.funcMap

namespace Emits

theorem refl (b : Builder) : Emits b b [] [] :=
  ⟨by simp [bytesOf], rfl, by simp, by simp [fixupsAt], trivial, rfl, rfl, rfl, rfl⟩

theorem cast {b b' : Builder} {a strs} (a' : Asm) (h : Emits b b' a strs) (ha : a = a') :
    Emits b b' a' strs := ha ▸ h

theorem len {b b' : Builder} {asm strs} (h : Emits b b' asm strs) :
    b'.prog.code.length = b.prog.code.length + widthOf asm := by
  rw [h.code, List.length_append, bytesOf_length]

theorem slen {b b' : Builder} {asm strs} (h : Emits b b' asm strs) :
    b'.prog.strings.length = b.prog.strings.length + strs.length := by
  rw [h.strings, List.length_append]

theorem trans {b b1 b2 : Builder} {a1 a2 s1 s2} (h1 : Emits b b1 a1 s1) (h2 : Emits b1 b2 a2 s2) :
    Emits b b2 (a1 ++ a2) (s1 ++ s2) where
  code := by rw [h2.code, h1.code, bytesOf_append, List.append_assoc]
  lines := by rw [h2.lines, h1.lines, linesAt_append, h1.len]
  strings := by rw [h2.strings, h1.strings, List.append_assoc]
  fixups := by rw [h2.fixups, h1.fixups, fixupsAt_append, h1.len, List.append_assoc]
  ok := (emitOk_append _ _).2 ⟨h1.ok, h2.ok⟩
  syscalls := h2.syscalls.trans h1.syscalls
  functions := h2.functions.trans h1.functions
  globals := h2.globals.trans h1.globals
  funcMap := h2.funcMap.trans h1.funcMap

end Emits

theorem bHead_ok {b : Builder} {n : Nat} (h : bHead b = .ok n) :
    n = b.prog.code.length ∧ b.prog.code.length < 2147483648 := by
  unfold bHead at h
  split at h
  · cases h; exact ⟨rfl, by assumption⟩
  · cases h

theorem bEmit_emits {i : Ins} {t : Option Token} {b b' : Builder} (h : bEmit i t b = .ok b') :
    Emits b b' (one i t) [] ∧ b.prog.code.length < 2147483648 := by
  unfold bEmit at h
  obtain ⟨n, hn, h⟩ := bind_ok.1 h
  obtain ⟨bs, hb, h⟩ := bind_ok.1 h
  obtain ⟨rfl, hl⟩ := bHead_ok hn
  have := emitIns_bytes hb
  subst this
  cases h
  refine ⟨⟨?_, rfl, by simp, ?_, ⟨⟨_, hb⟩, trivial⟩, rfl, rfl, rfl, rfl⟩, hl⟩
  · simp [one, bytesOf, AIns.resolve]
  · simp [one, fixupsAt]

theorem bFixup_ok {b : Builder} {n : Nat} (h : bFixup b = .ok n) :
    n = b.prog.code.length - 4 ∧ 4 ≤ b.prog.code.length ∧ b.prog.code.length < 2147483648 := by
  unfold bFixup at h
  obtain ⟨m, hm, h⟩ := bind_ok.1 h
  have := bHead_ok hm
  unfold getFixup at h
  split at h
  · cases h; exact ⟨rfl, by assumption, this.2⟩
  · cases h

/-- Writing the target into a jump. -/
theorem Emits.patch {b b' b'' : Builder} {a1 a2 : Asm} {o : Op} {t : Option Token} {strs : List Str}
    {idx v : Nat} {w : I32} (h : Emits b b' (a1 ++ one (.i1 o w) t ++ a2) strs)
    (hi : idx = b.prog.code.length + widthOf a1 + 1) (hb : bApply idx v b' = .ok b'') :
    Emits b b'' (a1 ++ one (.i1 o (i32 v)) t ++ a2) strs := by
  unfold bApply at hb
  obtain ⟨code, hc, hb⟩ := bind_ok.1 hb
  cases hb
  unfold applyFixup at hc
  split at hc
  · cases hc
    have hok := (emitOk_append _ _).1 h.ok
    have hok1 := (emitOk_append _ _).1 hok.1
    have hp : (b.prog.code ++ bytesOf (fun _ => 0) a1 ++ [o.code]).length = idx := by
      simp [bytesOf_length, hi, Nat.add_assoc]
    have hcode : b'.prog.code = (b.prog.code ++ bytesOf (fun _ => 0) a1 ++ [o.code]) ++
        (le32 w ++ bytesOf (fun _ => 0) a2) := by
      rw [h.code]
      simp [bytesOf_append, one, bytesOf, AIns.resolve, Ins.bytes]
    refine ⟨?_, ?_, h.strings, ?_, ?_, h.syscalls, h.functions, h.globals, h.funcMap⟩
    · show List.take idx b'.prog.code ++ le32 (BitVec.ofNat 32 v) ++ List.drop (idx + 4) b'.prog.code = _
      rw [hcode, ← hp, List.take_left, ← List.drop_drop, List.drop_left]
      simp [bytesOf_append, one, bytesOf, AIns.resolve, Ins.bytes, i32, le32]
    · rw [h.lines]
      simp [linesAt_append, one, linesAt, AIns.width, Ins.width, widthOf_append, widthOf]
    · rw [h.fixups]
      simp [fixupsAt_append, one, fixupsAt, Ins.width, widthOf_append, widthOf, AIns.width]
    · refine (emitOk_append _ _).2 ⟨(emitOk_append _ _).2 ⟨hok1.1, ?_, trivial⟩, hok.2⟩
      obtain ⟨bs, hbs⟩ := hok1.2.1
      simp only [AIns.resolve, emitIns, emit1] at hbs ⊢
      split at hbs
      · rename_i ho
        exact ⟨_, by rw [if_pos ho]⟩
      · cases hbs
  · cases hc

/-- The system calls of the program are in the table. -/
def SysOk (cx : GenCtx) (sys : List Syscall) : Prop :=
  ∀ (i : Nat) n a, cx.prog[i]? = some (.syscall n a) → ∃ j, sysIndex sys n = some j

theorem genGet_emits {cx : GenCtx} {r : Ref} {t} {b b' : Builder} (h : genGet cx r t b = .ok b') :
    ∃ asm, asmGet cx r t = .ok asm ∧ Emits b b' asm [] ∧ widthOf asm = 5 := by
  unfold genGet at h
  obtain ⟨⟨g, s, o⟩, hp, h⟩ := bind_ok.1 h
  exact ⟨_, by unfold asmGet; rw [bind_of_ok hp], (bEmit_emits h).1, rfl⟩

theorem genSet_emits {cx : GenCtx} {r : Ref} {t} {b b' : Builder} (h : genSet cx r t b = .ok b') :
    ∃ asm, asmSet cx r t = .ok asm ∧ Emits b b' asm [] ∧ widthOf asm = 5 := by
  unfold genSet at h
  obtain ⟨⟨g, s, o⟩, hp, h⟩ := bind_ok.1 h
  exact ⟨_, by unfold asmSet; rw [bind_of_ok hp], (bEmit_emits h).1, rfl⟩

theorem emits_call {b b1 b' : Builder} {t : Option Token} {n : I32} {f : Str}
    (h1 : bEmit (.i2 .CALL n 0) t b = .ok b1) (h2 : addFixup f b1 = .ok b') :
    Emits b b' [(.call n f, t)] [] := by
  obtain ⟨h1, -⟩ := bEmit_emits h1
  unfold addFixup at h2
  obtain ⟨k, hk, h2⟩ := bind_ok.1 h2
  obtain ⟨rfl, -, -⟩ := bFixup_ok hk
  cases h2
  have hl := h1.len
  refine ⟨h1.code, h1.lines, h1.strings, ?_, ⟨⟨_, rfl⟩, trivial⟩, h1.syscalls, h1.functions,
    h1.globals, h1.funcMap⟩
  simp only [h1.fixups, hl, one, fixupsAt, widthOf, AIns.width, Ins.width]
  simp

theorem emits_fn {b b1 b' : Builder} {t : Option Token} {f : Str}
    (h1 : bEmit (.i1 .NEW_FUNC 0) t b = .ok b1) (h2 : addFixup f b1 = .ok b') :
    Emits b b' [(.fn f, t)] [] := by
  obtain ⟨h1, -⟩ := bEmit_emits h1
  unfold addFixup at h2
  obtain ⟨k, hk, h2⟩ := bind_ok.1 h2
  obtain ⟨rfl, -, -⟩ := bFixup_ok hk
  cases h2
  have hl := h1.len
  refine ⟨h1.code, h1.lines, h1.strings, ?_, ⟨⟨_, rfl⟩, trivial⟩, h1.syscalls, h1.functions,
    h1.globals, h1.funcMap⟩
  simp only [h1.fixups, hl, one, fixupsAt, widthOf, AIns.width, Ins.width]
  simp

theorem genIdent_emits {cx : GenCtx} {t : Token} {r : Ref} {b b' : Builder}
    (h : genIdent cx t r b = .ok b') :
    ∃ asm, asmIdent cx b.prog.syscalls t r = .ok asm ∧ Emits b b' asm [] := by
  have hg : genGet cx r (some t) b = .ok b' →
      ∃ asm, asmGet cx r (some t) = .ok asm ∧ Emits b b' asm [] := fun h => by
    obtain ⟨asm, h1, h2, -⟩ := genGet_emits h
    exact ⟨asm, h1, h2⟩
  unfold genIdent at h
  unfold asmIdent
  cases r with
  | item i =>
    dsimp only at h ⊢
    cases hi : cx.prog[i]? with
    | none => rw [hi] at h; exact hg h
    | some x =>
      rw [hi] at h
      cases x with
      | var => exact hg h
      | func f =>
        dsimp only at h ⊢
        obtain ⟨b1, h1, h2⟩ := bind_ok.1 h
        exact ⟨_, rfl, emits_fn h1 h2⟩
      | syscall n a =>
        dsimp only at h ⊢
        cases hs : sysIndex b.prog.syscalls n with
        | none => rw [hs] at h; cases h
        | some j =>
          rw [hs] at h
          exact ⟨_, rfl, (bEmit_emits h).1⟩
  | arg i => exact hg h
  | loc i => exact hg h

theorem genInvoke_emits {cx : GenCtx} {t : Token} {c : Expr Ref} {n : Nat}
    {callee : Builder → Out Builder} {ca : Out Asm} {b b' : Builder} {sys : List Syscall}
    (hsys : b.prog.syscalls = sys) (hok : SysOk cx sys)
    (hc : ∀ b', callee b = .ok b' → ∃ asm, ca = .ok asm ∧ Emits b b' asm (strsE c))
    (h : genInvoke cx t c n callee b = .ok b') :
    ∃ asm, asmInvoke cx sys t c n ca = .ok asm ∧ Emits b b' asm (strsE c) := by
  have hind : ((do let b ← callee b; bEmit (.i1 .ICALL (i32 n)) (some t) b) = .ok b') →
      ∃ asm, (do let a ← ca; .ok (a ++ one (.i1 .ICALL (i32 n)) (some t)) : Out Asm) = .ok asm ∧
        Emits b b' asm (strsE c) := by
    intro h
    obtain ⟨b1, h1, h2⟩ := bind_ok.1 h
    obtain ⟨a, ha, he⟩ := hc _ h1
    refine ⟨_, by rw [bind_of_ok ha], ?_⟩
    have := he.trans (bEmit_emits h2).1
    simpa using this
  unfold genInvoke at h
  unfold asmInvoke
  cases c with
  | ident name r =>
    cases r with
    | item i =>
      dsimp only at h ⊢
      cases hi : cx.prog[i]? with
      | none => rw [hi] at h; exact hind h
      | some x =>
        rw [hi] at h
        cases x with
        | var => exact hind h
        | func f =>
          dsimp only at h ⊢
          split at h
          · rename_i hn
            obtain ⟨b1, h1, h2⟩ := bind_ok.1 h
            exact ⟨_, by rw [if_pos hn], emits_call h1 h2⟩
          · cases h
        | syscall s a =>
          dsimp only at h ⊢
          split at h
          · rename_i hn
            obtain ⟨j, hj⟩ := hok _ _ _ hi
            have hadd : addSyscall s b.prog = (j, b.prog) := by
              unfold addSyscall; rw [hsys, hj]
            rw [hadd] at h
            exact ⟨_, by rw [if_pos hn, hj], (bEmit_emits h).1⟩
          · cases h
    | arg i => exact hind h
    | loc i => exact hind h
  | _ => exact hind h

theorem bString_emits (s : Str) (b : Builder) : Emits b (bString s b).2 [] [s] :=
  ⟨by simp [bytesOf, bString], rfl, rfl, by simp [fixupsAt, bString], trivial, rfl, rfl, rfl, rfl⟩

mutual

theorem genE_emits {cx : GenCtx} {sys : List Syscall} (hok : SysOk cx sys) :
    ∀ (e : Expr Ref) (b b' : Builder), b.prog.syscalls = sys → genE cx e b = .ok b' →
      ∃ asm, asmE cx sys b.prog.strings.length e = .ok asm ∧ Emits b b' asm (strsE e)
  | .ident t r, b, b', hs, h => by
    simp only [genE] at h
    simp only [asmE, strsE, ← hs]
    exact genIdent_emits h
  | .int v t c, b, b', hs, h => by
    simp only [genE] at h
    simp only [asmE, strsE]
    exact ⟨_, rfl, (bEmit_emits h).1⟩
  | .float v t, b, b', hs, h => by
    simp only [genE] at h
    simp only [asmE, strsE]
    exact ⟨_, rfl, (bEmit_emits h).1⟩
  | .str s t, b, b', hs, h => by
    simp only [genE] at h
    simp only [asmE, strsE]
    exact ⟨_, rfl, (bString_emits s b).trans (bEmit_emits h).1⟩
  | .none t, b, b', hs, h => by
    simp only [genE] at h
    simp only [asmE, strsE]
    exact ⟨_, rfl, (bEmit_emits h).1⟩
  | .member t m r, b, b', hs, h => by
    simp only [genE] at h
    obtain ⟨b1, h1, h⟩ := bind_ok.1 h
    obtain ⟨g, hg, eg, -⟩ := genGet_emits h1
    simp only [asmE, strsE]
    refine ⟨_, bind_of_ok hg, ?_⟩
    exact ((bString_emits m.str b).trans eg).trans (bEmit_emits h).1
  | .arr t es, b, b', hs, h => by
    simp only [genE] at h
    obtain ⟨b1, h1, h⟩ := bind_ok.1 h
    obtain ⟨a, ha, ea⟩ := genEs_emits hok es b b1 hs h1
    simp only [asmE, strsE]
    split at h
    · cases h
    · rename_i hn
      refine ⟨_, by rw [bind_of_ok ha, if_neg hn], ?_⟩
      simpa using ea.trans (bEmit_emits h).1
  | .deref t l i, b, b', hs, h => by
    simp only [genE] at h
    obtain ⟨b1, h1, h⟩ := bind_ok.1 h
    obtain ⟨b2, h2, h⟩ := bind_ok.1 h
    obtain ⟨a, ha, ea⟩ := genE_emits hok i b b1 hs h1
    obtain ⟨c, hc, ec⟩ := genE_emits hok l b1 b2 (ea.syscalls.trans hs) h2
    rw [ea.slen] at hc
    simp only [asmE, strsE]
    refine ⟨_, by rw [bind_of_ok ha, bind_of_ok hc], ?_⟩
    simpa using (ea.trans ec).trans (bEmit_emits h).1
  | .call t c as, b, b', hs, h => by
    simp only [genE] at h
    obtain ⟨b1, h1, h⟩ := bind_ok.1 h
    obtain ⟨a, ha, ea⟩ := genEs_emits hok as b b1 hs h1
    obtain ⟨i, hi, ei⟩ := genInvoke_emits (ea.syscalls.trans hs) hok (fun b2 hb2 => by
      have := genE_emits hok c b1 b2 (ea.syscalls.trans hs) hb2
      rw [ea.slen] at this
      exact this) h
    simp only [asmE, strsE]
    refine ⟨_, by rw [bind_of_ok ha, bind_of_ok hi], ?_⟩
    exact ea.trans ei
  | .bin op l r, b, b', hs, h => by
    simp only [genE] at h
    obtain ⟨b1, h1, h⟩ := bind_ok.1 h
    obtain ⟨b2, h2, h⟩ := bind_ok.1 h
    obtain ⟨o, ho, h⟩ := bind_ok.1 h
    obtain ⟨a, ha, ea⟩ := genE_emits hok l b b1 hs h1
    obtain ⟨c, hc, ec⟩ := genE_emits hok r b1 b2 (ea.syscalls.trans hs) h2
    rw [ea.slen] at hc
    simp only [asmE, strsE]
    refine ⟨_, by rw [bind_of_ok ha, bind_of_ok hc, bind_of_ok ho], ?_⟩
    simpa using (ea.trans ec).trans (bEmit_emits h).1
  | .un op x, b, b', hs, h => by
    simp only [genE] at h
    obtain ⟨b1, h1, h⟩ := bind_ok.1 h
    obtain ⟨a, ha, ea⟩ := genE_emits hok x b b1 hs h1
    simp only [asmE, strsE]
    rw [bind_of_ok ha]
    have hE : ∀ o, bEmit (.i0 o) (some op) b1 = .ok b' →
        Emits b b' (a ++ one (.i0 o) (some op)) (strsE x) := fun o h => by
      simpa using ea.trans (bEmit_emits h).1
    cases hty : op.type <;> rw [hty] at h <;> dsimp only at h ⊢
    case SUB => exact ⟨_, rfl, hE _ h⟩
    case NOT => exact ⟨_, rfl, hE _ h⟩
    all_goals (cases h; exact ⟨_, rfl, ea⟩)

theorem genEs_emits {cx : GenCtx} {sys : List Syscall} (hok : SysOk cx sys) :
    ∀ (es : List (Expr Ref)) (b b' : Builder), b.prog.syscalls = sys → genEs cx es b = .ok b' →
      ∃ asm, asmEs cx sys b.prog.strings.length es = .ok asm ∧ Emits b b' asm (strsEs es)
  | [], b, b', hs, h => by
    simp only [genEs] at h
    cases h
    simp only [asmEs, strsEs]
    exact ⟨_, rfl, Emits.refl b⟩
  | e :: es, b, b', hs, h => by
    simp only [genEs] at h
    obtain ⟨b1, h1, h⟩ := bind_ok.1 h
    obtain ⟨a, ha, ea⟩ := genE_emits hok e b b1 hs h1
    obtain ⟨c, hc, ec⟩ := genEs_emits hok es b1 b' (ea.syscalls.trans hs) h
    rw [ea.slen] at hc
    simp only [asmEs, strsEs]
    exact ⟨_, by rw [bind_of_ok ha, bind_of_ok hc], ea.trans ec⟩

end

/-! ### Statements -/

mutual

theorem genS_emits {cx : GenCtx} {sys : List Syscall} (hok : SysOk cx sys) :
    ∀ (s : Stmt Ref) (b b' : Builder), b.prog.syscalls = sys → genS cx s b = .ok b' →
      ∃ asm, asmS cx sys b.prog.code.length b.prog.strings.length s = .ok asm ∧
        Emits b b' asm (strsS s)
  | .var t r none, b, b', hs, h => by
    simp only [genS] at h
    cases h
    simp only [asmS, strsS]
    exact ⟨_, rfl, Emits.refl b⟩
  | .var t r (some e), b, b', hs, h => by
    simp only [genS] at h
    obtain ⟨b1, h1, h⟩ := bind_ok.1 h
    obtain ⟨a, ha, ea⟩ := genE_emits hok e b b1 hs h1
    simp only [asmS, strsS]
    refine ⟨_, by rw [bind_of_ok ha], ?_⟩
    simpa using ea.trans (bEmit_emits h).1
  | .assign t r e, b, b', hs, h => by
    simp only [genS] at h
    obtain ⟨b1, h1, h⟩ := bind_ok.1 h
    obtain ⟨a, ha, ea⟩ := genE_emits hok e b b1 hs h1
    obtain ⟨s, hst, est, -⟩ := genSet_emits h
    simp only [asmS, strsS]
    refine ⟨_, by rw [bind_of_ok ha, bind_of_ok hst], ?_⟩
    simpa using ea.trans est
  | .assignArr t r i e, b, b', hs, h => by
    simp only [genS] at h
    obtain ⟨b1, h1, h⟩ := bind_ok.1 h
    obtain ⟨b2, h2, h⟩ := bind_ok.1 h
    obtain ⟨b3, h3, h⟩ := bind_ok.1 h
    obtain ⟨a, ha, ea⟩ := genE_emits hok e b b1 hs h1
    obtain ⟨c, hc, ec⟩ := genE_emits hok i b1 b2 (ea.syscalls.trans hs) h2
    obtain ⟨g, hg, eg, -⟩ := genGet_emits h3
    rw [ea.slen] at hc
    simp only [asmS, strsS]
    refine ⟨_, by rw [bind_of_ok ha, bind_of_ok hc, bind_of_ok hg], ?_⟩
    simpa using ((ea.trans ec).trans eg).trans (bEmit_emits h).1
  | .assignMem t m r e, b, b', hs, h => by
    simp only [genS] at h
    obtain ⟨b1, h1, h⟩ := bind_ok.1 h
    obtain ⟨b2, h2, h⟩ := bind_ok.1 h
    obtain ⟨a, ha, ea⟩ := genE_emits hok e b b1 hs h1
    obtain ⟨g, hg, eg, -⟩ := genGet_emits h2
    have hl : (bString m.str b2).1 = b.prog.strings.length + (strsE e).length := by
      show b2.prog.strings.length = _
      rw [eg.slen, ea.slen]; rfl
    rw [hl] at h
    simp only [asmS, strsS]
    refine ⟨_, by rw [bind_of_ok ha, bind_of_ok hg], ?_⟩
    have := ((ea.trans eg).trans (bString_emits m.str b2)).trans (bEmit_emits h).1
    simpa using this
  | .call t c as, b, b', hs, h => by
    simp only [genS] at h
    obtain ⟨b1, h1, h⟩ := bind_ok.1 h
    obtain ⟨b2, h2, h⟩ := bind_ok.1 h
    obtain ⟨a, ha, ea⟩ := genEs_emits hok as b b1 hs h1
    obtain ⟨i, hi, ei⟩ := genInvoke_emits (ea.syscalls.trans hs) hok (fun b3 hb3 => by
      have := genE_emits hok c b1 b3 (ea.syscalls.trans hs) hb3
      rw [ea.slen] at this
      exact this) h2
    simp only [asmS, strsS]
    refine ⟨_, by rw [bind_of_ok ha, bind_of_ok hi], ?_⟩
    simpa using (ea.trans ei).trans (bEmit_emits h).1
  | .ifS t c thn hasElse els, b, b', hs, h => by
    simp only [genS] at h
    obtain ⟨b1, h1, h⟩ := bind_ok.1 h
    obtain ⟨b2, h2, h⟩ := bind_ok.1 h
    obtain ⟨f0, hf0, h⟩ := bind_ok.1 h
    obtain ⟨b3, h3, h⟩ := bind_ok.1 h
    obtain ⟨a, ha, ea⟩ := genE_emits hok c b b1 hs h1
    have e2 := ea.trans (bEmit_emits h2).1
    obtain ⟨d, hd, ed⟩ := genB_emits hok thn b2 b3 (e2.syscalls.trans hs) h3
    have hl2 := e2.len
    simp only [widthOf_append, one, widthOf, AIns.width, Ins.width, ← Nat.add_assoc] at hl2
    rw [hl2, e2.slen] at hd
    simp only [List.append_nil] at hd
    have e3 := e2.trans ed
    have hl3 := e3.len
    simp only [widthOf_append, one, widthOf, AIns.width, Ins.width, ← Nat.add_assoc, Nat.add_zero] at hl3
    have hf0' : f0 = b.prog.code.length + widthOf a + 1 := by
      have := (bFixup_ok hf0).1
      omega
    simp only [asmS, strsS]
    rw [bind_of_ok ha, bind_of_ok hd]
    cases hasElse with
    | false =>
      dsimp only at h ⊢
      obtain ⟨l0, hl0, h⟩ := bind_ok.1 h
      obtain ⟨rfl, -⟩ := bHead_ok hl0
      refine ⟨_, rfl, ?_⟩
      have := e3.patch hf0' h
      rw [hl3] at this
      simpa [Nat.add_assoc] using this
    | true =>
      dsimp only at h ⊢
      obtain ⟨b4, h4, h⟩ := bind_ok.1 h
      obtain ⟨f1, hf1, h⟩ := bind_ok.1 h
      obtain ⟨l0, hl0, h⟩ := bind_ok.1 h
      obtain ⟨b5, h5, h⟩ := bind_ok.1 h
      obtain ⟨l1, hl1, h⟩ := bind_ok.1 h
      obtain ⟨b6, h6, hlast⟩ := bind_ok.1 h
      obtain ⟨rfl, -⟩ := bHead_ok hl0
      obtain ⟨rfl, -⟩ := bHead_ok hl1
      have e4 := e3.trans (bEmit_emits h4).1
      have hl4 := e4.len
      simp only [widthOf_append, one, widthOf, AIns.width, Ins.width, ← Nat.add_assoc, Nat.add_zero] at hl4
      obtain ⟨z, hz, ez⟩ := genB_emits hok els b4 b5 (e4.syscalls.trans hs) h5
      rw [hl4, e4.slen] at hz
      simp only [List.append_nil, List.length_append, ← Nat.add_assoc] at hz
      have e5 := e4.trans ez
      have hl5 := e5.len
      simp only [widthOf_append, one, widthOf, AIns.width, Ins.width, ← Nat.add_assoc, Nat.add_zero] at hl5
      have hf1' : f1 = b.prog.code.length + widthOf a + 5 + widthOf d + 1 := by
        have := (bFixup_ok hf1).1
        omega
      rw [bind_of_ok hz]
      refine ⟨_, rfl, ?_⟩
      have e5' := e5.cast (a ++ one (.i1 .FJMP 0) (some t) ++ (d ++ one (.i1 .JMP 0) none ++ z))
        (by simp only [List.append_assoc])
      have e6 := e5'.patch hf0' h6
      have e6' := e6.cast ((a ++ one (.i1 .FJMP (i32 b4.prog.code.length)) (some t) ++ d) ++
          one (.i1 .JMP 0) none ++ z) (by simp only [List.append_assoc])
      have e7 := e6'.patch (by
        rw [hf1']
        simp only [widthOf_append, one, widthOf, AIns.width, Ins.width]
        omega) hlast
      rw [hl4, hl5] at e7
      simpa [Nat.add_assoc] using e7
  | .whileS t c body, b, b', hs, h => by
    simp only [genS] at h
    obtain ⟨b1, h1, h⟩ := bind_ok.1 h
    obtain ⟨f1, hf1, h⟩ := bind_ok.1 h
    obtain ⟨l0, hl0, h⟩ := bind_ok.1 h
    obtain ⟨b2, h2, h⟩ := bind_ok.1 h
    obtain ⟨l1, hl1, h⟩ := bind_ok.1 h
    obtain ⟨b3, h3, h⟩ := bind_ok.1 h
    obtain ⟨b4, h4, h⟩ := bind_ok.1 h
    obtain ⟨f0, hf0, h⟩ := bind_ok.1 h
    obtain ⟨b5, h5, hlast⟩ := bind_ok.1 h
    obtain ⟨rfl, -⟩ := bHead_ok hl0
    obtain ⟨rfl, -⟩ := bHead_ok hl1
    have e1 := (bEmit_emits h1).1
    have hw1 := e1.len
    simp only [one, widthOf, AIns.width, Ins.width, Nat.add_zero] at hw1
    obtain ⟨d, hd, ed⟩ := genB_emits hok body b1 b2 (e1.syscalls.trans hs) h2
    rw [hw1, e1.slen] at hd
    have e2 := e1.trans ed
    have hw2 := e2.len
    simp only [widthOf_append, one, widthOf, AIns.width, Ins.width, ← Nat.add_assoc, Nat.add_zero] at hw2
    obtain ⟨a, ha, ea⟩ := genE_emits hok c b2 b3 (e2.syscalls.trans hs) h3
    rw [e2.slen] at ha
    have e3 := e2.trans ea
    have e4 := e3.trans (bEmit_emits h4).1
    have hw4 := e4.len
    simp only [widthOf_append, one, widthOf, AIns.width, Ins.width, ← Nat.add_assoc, Nat.add_zero] at hw4
    have hf0' := (bFixup_ok hf0).1
    have hf1' := (bFixup_ok hf1).1
    simp only [asmS, strsS]
    simp only [List.length_nil, Nat.add_zero, List.nil_append] at hd ha
    rw [bind_of_ok hd, bind_of_ok ha]
    refine ⟨_, rfl, ?_⟩
    have e4' := e4.cast (one (.i1 .JMP 0) (some t) ++ d ++ a ++ one (.i1 .TJMP 0) (some t) ++ [])
      (List.append_nil _).symm
    have e5 := e4'.patch (by
      rw [hf0']; simp only [widthOf_append, one, widthOf, AIns.width, Ins.width]; omega) h5
    have e5' := e5.cast ([] ++ one (.i1 .JMP 0) (some t) ++
        (d ++ a ++ one (.i1 .TJMP (i32 b1.prog.code.length)) (some t)))
      (by simp only [List.append_assoc, List.append_nil, List.nil_append])
    have e6 := e5'.patch (by rw [hf1', hw1]; simp only [widthOf]; omega) hlast
    rw [hw1, hw2] at e6
    simpa using e6
  | .forS t n r start stop body, b, b', hs, h => by
    simp only [genS] at h
    obtain ⟨b1, h1, h⟩ := bind_ok.1 h
    obtain ⟨b2, h2, h⟩ := bind_ok.1 h
    obtain ⟨b3, h3, h⟩ := bind_ok.1 h
    obtain ⟨f1, hf1, h⟩ := bind_ok.1 h
    obtain ⟨l0, hl0, h⟩ := bind_ok.1 h
    obtain ⟨b4, h4, h⟩ := bind_ok.1 h
    obtain ⟨b5, h5, h⟩ := bind_ok.1 h
    obtain ⟨b6, h6, h⟩ := bind_ok.1 h
    obtain ⟨b7, h7, h⟩ := bind_ok.1 h
    obtain ⟨b8, h8, h⟩ := bind_ok.1 h
    obtain ⟨l1, hl1, h⟩ := bind_ok.1 h
    obtain ⟨b9, h9, h⟩ := bind_ok.1 h
    obtain ⟨b10, h10, h⟩ := bind_ok.1 h
    obtain ⟨b11, h11, h⟩ := bind_ok.1 h
    obtain ⟨b12, h12, h⟩ := bind_ok.1 h
    obtain ⟨f0, hf0, h⟩ := bind_ok.1 h
    obtain ⟨b13, h13, hlast⟩ := bind_ok.1 h
    obtain ⟨rfl, -⟩ := bHead_ok hl0
    obtain ⟨rfl, -⟩ := bHead_ok hl1
    obtain ⟨a, ha, ea⟩ := genE_emits hok start b b1 hs h1
    obtain ⟨s0, hs0, es0, ws0⟩ := genSet_emits h2
    have e3 := (ea.trans es0).trans (bEmit_emits h3).1
    have hw3 := e3.len
    simp only [widthOf_append, one, widthOf, AIns.width, Ins.width, ws0, ← Nat.add_assoc, Nat.add_zero] at hw3
    obtain ⟨d, hd, ed⟩ := genB_emits hok body b3 b4 (e3.syscalls.trans hs) h4
    rw [show b3.prog.code.length = b.prog.code.length + widthOf a + 10 by omega, e3.slen] at hd
    obtain ⟨g, hg, eg, wg⟩ := genGet_emits h5
    obtain ⟨s1, hs1, es1, ws1⟩ := genSet_emits h8
    obtain ⟨g', hg', eg', -⟩ := genGet_emits h9
    obtain rfl : g' = g := by rw [hg] at hg'; cases hg'; rfl
    have e8 := ((((e3.trans ed).trans eg).trans (bEmit_emits h6).1).trans (bEmit_emits h7).1).trans es1
    have hw8 := e8.len
    simp only [widthOf_append, one, widthOf, AIns.width, Ins.width, ws0, wg, ws1, ← Nat.add_assoc, Nat.add_zero] at hw8
    have e9 := e8.trans eg'
    obtain ⟨z, hz, ez⟩ := genE_emits hok stop b9 b10 (e9.syscalls.trans hs) h10
    rw [e9.slen] at hz
    have e12 := ((e9.trans ez).trans (bEmit_emits h11).1).trans (bEmit_emits h12).1
    have hw12 := e12.len
    simp only [widthOf_append, one, widthOf, AIns.width, Ins.width, ws0, wg, ws1, ← Nat.add_assoc, Nat.add_zero] at hw12
    have hf0' := (bFixup_ok hf0).1
    have hf1' := (bFixup_ok hf1).1
    simp only [asmS, strsS]
    simp only [List.length_nil, Nat.add_zero, List.nil_append, List.append_nil, List.length_append, ← Nat.add_assoc] at hd hz
    rw [bind_of_ok ha, bind_of_ok hs0, bind_of_ok hd, bind_of_ok hg, bind_of_ok hs1, bind_of_ok hz]
    refine ⟨_, rfl, ?_⟩
    have e12' := e12.cast (_ ++ one (.i1 .TJMP 0) (some t) ++ []) (List.append_nil _).symm
    have e13 := e12'.patch (by
      rw [hf0']; simp only [widthOf_append, one, widthOf, AIns.width, Ins.width, ws0, ws1, wg]; omega) h13
    have e13' := e13.cast ((a ++ s0) ++ one (.i1 .JMP 0) (some t) ++
        (d ++ g' ++ one (.i1 .NEW_INT 1) (some t) ++ one (.i0 .ADD) (some t) ++ s1 ++ g' ++ z ++
          one (.i0 .LT) (some t) ++ one (.i1 .TJMP (i32 b3.prog.code.length)) (some t)))
      (by simp only [List.append_assoc, List.append_nil, List.nil_append])
    have e14 := e13'.patch (by rw [hf1']; simp only [widthOf_append, ws0]; omega) hlast
    rw [show b3.prog.code.length = b.prog.code.length + widthOf a + 10 by omega,
      show b8.prog.code.length = b.prog.code.length + widthOf a + 10 + widthOf d + 16 by omega] at e14
    simpa using e14
  | .ret t none, b, b', hs, h => by
    simp only [genS] at h
    obtain ⟨b1, h1, h⟩ := bind_ok.1 h
    simp only [asmS, strsS]
    exact ⟨_, rfl, (bEmit_emits h1).1.trans (bEmit_emits h).1⟩
  | .ret t (some e), b, b', hs, h => by
    simp only [genS] at h
    obtain ⟨b1, h1, h⟩ := bind_ok.1 h
    obtain ⟨a, ha, ea⟩ := genE_emits hok e b b1 hs h1
    simp only [asmS, strsS]
    refine ⟨_, by rw [bind_of_ok ha], ?_⟩
    simpa using ea.trans (bEmit_emits h).1

theorem genB_emits {cx : GenCtx} {sys : List Syscall} (hok : SysOk cx sys) :
    ∀ (ss : List (Stmt Ref)) (b b' : Builder), b.prog.syscalls = sys → genB cx ss b = .ok b' →
      ∃ asm, asmB cx sys b.prog.code.length b.prog.strings.length ss = .ok asm ∧
        Emits b b' asm (strsB ss)
  | [], b, b', hs, h => by
    simp only [genB] at h
    cases h
    simp only [asmB, strsB]
    exact ⟨_, rfl, Emits.refl b⟩
  | s :: ss, b, b', hs, h => by
    simp only [genB] at h
    obtain ⟨b1, h1, h⟩ := bind_ok.1 h
    obtain ⟨a, ha, ea⟩ := genS_emits hok s b b1 hs h1
    obtain ⟨c, hc, ec⟩ := genB_emits hok ss b1 b' (ea.syscalls.trans hs) h
    rw [ea.slen, ea.len] at hc
    simp only [asmB, strsB]
    exact ⟨_, by rw [bind_of_ok ha, bind_of_ok hc], ea.trans ec⟩

end

end Ccml
