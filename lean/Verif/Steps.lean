import Verif.Sem
import Verif.AsmProg
import Verif.Props.Moves
/-!
Runs of the machine and how they follow an evaluation (proof infrastructure).
-/
set_option linter.unusedSimpArgs false
namespace Ccml
open Sem (State Res)

/-- The state in which the next instruction runs: `thread_t::resume` clears the flag that a
breakpoint sets, lib_vm/thread.cpp:869. -/
def awake (s : St Val Store) : St Val Store := { s with th := { s.th with halted := false } }

/-- The thread has neither finished nor failed. -/
def Going (s : St Val Store) : Prop := s.th.finished = false ∧ s.th.error = .success

/-- `k` instructions, each from a thread that goes on. -/
inductive Steps (e : Env Val Store) : Nat → St Val Store → St Val Store → Prop
  | zero (s) : Steps e 0 s s
  | succ {k s s1 s2} : Going s → stepImp e (awake s) = .ok ((), s1) → Steps e k s1 s2 →
      Steps e (k + 1) s s2

namespace Steps
variable {e : Env Val Store}

theorem one {s s1 : St Val Store} (h : Going s) (h1 : stepImp e (awake s) = .ok ((), s1)) :
    Steps e 1 s s1 := .succ h h1 (.zero _)

theorem trans {a b : Nat} {s s1 s2 : St Val Store} (h : Steps e a s s1) (k : Steps e b s1 s2) :
    Steps e (a + b) s s2 := by
  induction h with
  | zero s => simpa using k
  | succ hf h1 _ ih =>
    rw [Nat.add_right_comm]
    exact .succ hf h1 (ih k)

theorem take {a b : Nat} {s s1 : St Val Store} (h : Steps e a s s1) (hb : b ≤ a) :
    ∃ s2, Steps e b s s2 := by
  induction h generalizing b with
  | zero s => obtain rfl : b = 0 := by omega
              exact ⟨s, .zero s⟩
  | succ hf h1 _ ih =>
    cases b with
    | zero => exact ⟨_, .zero _⟩
    | succ b =>
      obtain ⟨s2, h2⟩ := ih (Nat.le_of_succ_le_succ hb)
      exact ⟨s2, .succ hf h1 h2⟩

theorem det {a : Nat} {s s1 s2 : St Val Store} (h : Steps e a s s1) (k : Steps e a s s2) : s1 = s2 := by
  induction h generalizing s2 with
  | zero s => cases k; rfl
  | succ hf h1 _ ih =>
    cases k with
    | succ hf' h1' k =>
      rw [h1] at h1'
      cases h1'
      exact ih k

end Steps

/-- The part of a machine state that an evaluation sees. -/
def stOf (s : St Val Store) : State := ⟨s.mem, s.globals, s.before, s.after, s.th.waits, s.io⟩

/-- The thread is at `pc` with the given stack and frames, and goes on. -/
structure At (s : St Val Store) (pc : Nat) (stk : List Val) (frs : List Frame) (w : State) : Prop where
  pc : s.th.pc = pc
  stack : s.th.stack = stk
  frames : s.th.frames = frs
  state : stOf s = w
  finished : s.th.finished = false
  error : s.th.error = .success

/-- The thread has ended with an error. -/
structure Failed (s : St Val Store) (x : TErr) (w : State) : Prop where
  error : s.th.error = x
  finished : s.th.finished = true
  state : stOf s = w

/-- The run from `s` follows an evaluation; a timeout means at least `n` instructions. -/
def Follows {α : Type} (e : Env Val Store) (n : Nat) (s : St Val Store)
    (good : α → State → St Val Store → Prop) : Res α → Prop
  | .ok a w => ∃ k s', Steps e k s s' ∧ good a w s'
  | .err x w => ∃ k s', Steps e k s s' ∧ Failed s' x w
  | .fault f => ∃ k s', Steps e k s s' ∧ Going s' ∧ stepImp e (awake s') = .error f
  | .timeout => ∃ s', Steps e n s s'
  | .undef => True

namespace Follows
variable {α β : Type} {e : Env Val Store}

theorem pre {n k : Nat} {s s1 : St Val Store} {good : α → State → St Val Store → Prop} {r : Res α}
    (h : Steps e k s s1) (hr : Follows e n s1 good r) : Follows e n s good r := by
  cases r with
  | ok a w =>
    obtain ⟨k', s', h1, h2⟩ := hr
    exact ⟨_, s', h.trans h1, h2⟩
  | err x w =>
    obtain ⟨k', s', h1, h2⟩ := hr
    exact ⟨_, s', h.trans h1, h2⟩
  | fault f =>
    obtain ⟨k', s', h1, h2⟩ := hr
    exact ⟨_, s', h.trans h1, h2⟩
  | timeout =>
    obtain ⟨s', h1⟩ := hr
    exact (h.trans h1).take (Nat.le_add_left _ _)
  | undef => trivial

/-- One more instruction in front allows for a larger bound. -/
theorem preSucc {n : Nat} {s s1 : St Val Store} {good : α → State → St Val Store → Prop} {r : Res α}
    (h : Steps e 1 s s1) (hr : Follows e n s1 good r) : Follows e (n + 1) s good r := by
  cases r with
  | timeout =>
    obtain ⟨s', h1⟩ := hr
    have := h.trans h1
    rw [Nat.add_comm] at this
    exact ⟨s', this⟩
  | ok a w => exact (pre h hr : Follows e n s good (.ok a w))
  | err x w => exact (pre h hr : Follows e n s good (.err x w))
  | fault f => exact (pre h hr : Follows e n s good (.fault f))
  | undef => trivial

theorem weaken {n m : Nat} {s : St Val Store} {good : α → State → St Val Store → Prop} {r : Res α}
    (hr : Follows e n s good r) (h : m ≤ n) : Follows e m s good r := by
  cases r with
  | timeout =>
    obtain ⟨s', h1⟩ := hr
    exact h1.take h
  | _ => exact hr

theorem imp {n : Nat} {s : St Val Store} {good good' : α → State → St Val Store → Prop} {r : Res α}
    (hr : Follows e n s good r) (h : ∀ a w s', good a w s' → good' a w s') : Follows e n s good' r := by
  cases r with
  | ok a w =>
    obtain ⟨k', s', h1, h2⟩ := hr
    exact ⟨_, s', h1, h _ _ _ h2⟩
  | _ => exact hr

theorem bind {n : Nat} {s : St Val Store} {good : α → State → St Val Store → Prop}
    {good' : β → State → St Val Store → Prop} {r : Res α} {f : α → State → Res β}
    (hr : Follows e n s good r) (hf : ∀ a w s', good a w s' → Follows e n s' good' (f a w)) :
    Follows e n s good' (r.bind f) := by
  cases r with
  | ok a w =>
    obtain ⟨k', s', h1, h2⟩ := hr
    exact pre h1 (hf _ _ _ h2)
  | err x w => exact hr
  | fault f => exact hr
  | timeout => exact hr
  | undef => trivial

theorem ret {n : Nat} {s : St Val Store} {good : α → State → St Val Store → Prop} {a : α} {w : State}
    (h : good a w s) : Follows e n s good (.ok a w) := ⟨0, s, .zero _, h⟩

end Follows

/-! ### Code in memory -/

/-- The instructions at a position of the code. -/
def CodeAt (e : Env Val Store) (fa : Str → I32) (pc : Nat) (asm : Asm) : Prop :=
  ∃ pre post, e.prog.code = pre ++ (bytesOf fa asm ++ post) ∧ pre.length = pc

theorem CodeAt.append {e : Env Val Store} {fa : Str → I32} {pc : Nat} {a b : Asm} :
    CodeAt e fa pc (a ++ b) → CodeAt e fa pc a ∧ CodeAt e fa (pc + widthOf a) b := by
  rintro ⟨pre, post, h, hl⟩
  rw [bytesOf_append] at h
  refine ⟨⟨pre, bytesOf fa b ++ post, by simpa using h, hl⟩,
    pre ++ bytesOf fa a, post, by simpa using h, ?_⟩
  rw [List.length_append, bytesOf_length, hl]

theorem CodeAt.le {e : Env Val Store} {fa : Str → I32} {pc : Nat} {a : Asm} (h : CodeAt e fa pc a) :
    pc + widthOf a ≤ e.prog.code.length := by
  obtain ⟨pre, post, h, hl⟩ := h
  rw [h, List.length_append, List.length_append, bytesOf_length]
  omega

/-- Strings in the table from an index on. -/
def StrAt (e : Env Val Store) (si : Nat) (strs : List Str) : Prop :=
  ∃ pre post, e.prog.strings = pre ++ (strs ++ post) ∧ pre.length = si

theorem StrAt.append {e : Env Val Store} {si : Nat} {a b : List Str} :
    StrAt e si (a ++ b) → StrAt e si a ∧ StrAt e (si + a.length) b := by
  rintro ⟨pre, post, h, hl⟩
  exact ⟨⟨pre, b ++ post, by simpa using h, hl⟩, pre ++ a, post, by simpa using h, by simp [hl]⟩

theorem StrAt.get {e : Env Val Store} {si : Nat} {s : Str} {l : List Str} (h : StrAt e si (s :: l)) :
    e.prog.strings[si]? = some s := by
  obtain ⟨pre, post, h, hl⟩ := h
  rw [h, List.getElem?_append_right (by omega)]
  simp [hl]

/-! ### One instruction -/

/-- The bookkeeping at the end of a step. -/
def bump (e : Env Val Store) (s : St Val Store) : St Val Store :=
  { s with th := { checkBreak e s.th with cycles := (checkBreak e s.th).cycles + 1 } }

theorem checkBreak_same (e : Env Val Store) (t : Thread Val) :
    (checkBreak e t).pc = t.pc ∧ (checkBreak e t).stack = t.stack ∧
    (checkBreak e t).frames = t.frames ∧ (checkBreak e t).finished = t.finished ∧
    (checkBreak e t).error = t.error ∧ (checkBreak e t).waits = t.waits := by
  unfold checkBreak
  split <;> simp

theorem At.bump {e : Env Val Store} {s : St Val Store} {pc stk frs w} (h : At s pc stk frs w) :
    At (bump e s) pc stk frs w := by
  obtain ⟨h1, h2, h3, h4, h5, h6⟩ := checkBreak_same e s.th
  refine ⟨h1.trans h.pc, h2.trans h.stack, h3.trans h.frames, ?_, h4.trans h.finished,
    h5.trans h.error⟩
  rw [← h.state]
  simp [stOf, Ccml.bump, h6]

theorem Failed.bump {e : Env Val Store} {s : St Val Store} {x w} (h : Failed s x w) :
    Failed (bump e s) x w := by
  obtain ⟨h1, h2, h3, h4, h5, h6⟩ := checkBreak_same e s.th
  refine ⟨h5.trans h.error, h4.trans h.finished, ?_⟩
  rw [← h.state]
  simp [stOf, Ccml.bump, h6]

/-- The state after the opcode has been read. -/
def fetched (s : St Val Store) : St Val Store := { s with th := { s.th with pc := s.th.pc + 1 } }

theorem step_eq {e : Env Val Store} {s : St Val Store} {pc stk frs w} {o : Op}
    (h : At s pc stk frs w) (hc : e.prog.code[pc]? = some o.code) (hl : 4 < e.prog.code.length) :
    stepImp e s = match exec e (some o) (fetched s) with
      | .ok (_, s1) => .ok ((), bump e s1)
      | .error f => .error f := by
  have hr : readOpcode e s = .ok (o.code, fetched s) := by
    unfold readOpcode
    rw [if_neg (by simpa using hl), h.pc, if_neg (by omega)]
    simp only [Int.toNat_natCast, hc, fetched, h.pc]
  unfold stepImp
  rw [vm_bind_ok hr, ofByte_code, vm_bind]
  cases exec e (some o) (fetched s) with
  | error f => rfl
  | ok r => obtain ⟨_, s1⟩ := r; rfl

theorem code_get {e : Env Val Store} {fa : Str → I32} {pc : Nat} {x : AIns × Option Token} {l : Asm}
    {o : Op} {bs : List Byte} (h : CodeAt e fa pc (x :: l)) (hb : (x.1.resolve fa).bytes = o.code :: bs) :
    e.prog.code[pc]? = some o.code := by
  obtain ⟨pre, post, h, hl⟩ := h
  rw [h, List.getElem?_append_right (by omega)]
  simp [bytesOf, hb, hl]

/-- The operand of a fetched instruction. -/
theorem operand_eq {e : Env Val Store} {fa : Str → I32} {s : St Val Store} {pc : Nat}
    {x : AIns × Option Token} {l : Asm} {o : Op} {v : I32} (h : CodeAt e fa pc (x :: l))
    (hb : x.1.resolve fa = .i1 o v) (hp : s.th.pc = pc) (hl : 4 < e.prog.code.length) :
    ∀ st, readOperand e ((fetched s).withStack st) =
      .ok (v, ({ s with th := { s.th with pc := (pc + 5 : Nat) } } : St Val Store).withStack st) := by
  intro st
  obtain ⟨pre, post, h, hpre⟩ := h
  have := Props.C55_operand e ((fetched s).withStack st) (pre ++ [o.code]) (bytesOf fa l ++ post) v
    (by rw [h]; simp [bytesOf, hb, Ins.bytes]) (by simp [fetched, St.withStack, hp, hpre]) hl
  rw [this]
  simp only [fetched, St.withStack, hp]
  congr 3

theorem operand_eq' {e : Env Val Store} {fa : Str → I32} {s : St Val Store} {pc : Nat}
    {x : AIns × Option Token} {l : Asm} {o : Op} {v : I32} (h : CodeAt e fa pc (x :: l))
    (hb : x.1.resolve fa = .i1 o v) (hp : s.th.pc = pc) (hl : 4 < e.prog.code.length) :
    readOperand e (fetched s) =
      .ok (v, { s with th := { s.th with pc := (pc + 5 : Nat) } }) :=
  operand_eq h hb hp hl s.th.stack

theorem operands_eq {e : Env Val Store} {fa : Str → I32} {s : St Val Store} {pc : Nat}
    {x : AIns × Option Token} {l : Asm} {o : Op} {v u : I32} (h : CodeAt e fa pc (x :: l))
    (hb : x.1.resolve fa = .i2 o v u) (hp : s.th.pc = pc) (hl : 4 < e.prog.code.length) :
    ∃ s1, readOperand e (fetched s) = .ok (v, s1) ∧
      readOperand e s1 = .ok (u, { s with th := { s.th with pc := (pc + 9 : Nat) } }) := by
  obtain ⟨pre, post, h, hpre⟩ := h
  have h1 := Props.C55_operand e (fetched s) (pre ++ [o.code]) (le32 u ++ (bytesOf fa l ++ post)) v
    (by rw [h]; simp [bytesOf, hb, Ins.bytes]) (by simp [fetched, hp, hpre]) hl
  refine ⟨_, h1, ?_⟩
  have h2 := Props.C55_operand e
    { fetched s with th := { (fetched s).th with pc := (fetched s).th.pc + 4 } }
    (pre ++ [o.code] ++ le32 v) (bytesOf fa l ++ post) u
    (by rw [h]; simp [bytesOf, hb, Ins.bytes]) (by simp [fetched, hp, hpre]; omega) hl
  rw [h2]
  simp only [fetched, hp]
  congr 3

/-- One instruction follows an evaluation. -/
def Once {α : Type} (e : Env Val Store) (s : St Val Store) (good : α → State → St Val Store → Prop) :
    Res α → Prop
  | .ok a w => ∃ s', stepImp e s = .ok ((), s') ∧ good a w s'
  | .err x w => ∃ s', stepImp e s = .ok ((), s') ∧ Failed s' x w
  | .fault f => stepImp e s = .error f
  | .timeout => False
  | .undef => True

theorem Once.follows {α : Type} {n : Nat} {e : Env Val Store} {s : St Val Store}
    {good : α → State → St Val Store → Prop} {r : Res α} (hg : Going s) (h : Once e (awake s) good r) :
    Follows e n s good r := by
  cases r with
  | ok a w =>
    obtain ⟨s', h1, h2⟩ := h
    exact ⟨1, s', Steps.one hg h1, h2⟩
  | err x w =>
    obtain ⟨s', h1, h2⟩ := h
    exact ⟨1, s', Steps.one hg h1, h2⟩
  | fault f => exact ⟨0, s, .zero _, hg, h⟩
  | timeout => exact h.elim
  | undef => trivial

theorem Steps.ofOne {e : Env Val Store} {s : St Val Store} {Q : St Val Store → Prop} (hg : Going s)
    (h : ∃ s', stepImp e (awake s) = .ok ((), s') ∧ Q s') : ∃ s', Steps e 1 s s' ∧ Q s' := by
  obtain ⟨s', h1, h2⟩ := h
  exact ⟨s', Steps.one hg h1, h2⟩

theorem At.awake {s : St Val Store} {pc stk frs w} (h : At s pc stk frs w) : At (awake s) pc stk frs w :=
  ⟨h.pc, h.stack, h.frames, h.state, h.finished, h.error⟩

theorem At.going {s : St Val Store} {pc stk frs w} (h : At s pc stk frs w) : Going s := ⟨h.finished, h.error⟩

/-- An instruction that succeeds. -/
theorem step_ok {e : Env Val Store} {fa : Str → I32} {s s1 : St Val Store} {pc stk frs w}
    {x : AIns × Option Token} {l : Asm} {o : Op} {bs : List Byte} (h : At s pc stk frs w)
    (hc : CodeAt e fa pc (x :: l)) (hb : (x.1.resolve fa).bytes = o.code :: bs)
    (hl : 4 < e.prog.code.length) (hx : exec e (some o) (fetched s) = .ok ((), s1)) :
    stepImp e s = .ok ((), bump e s1) := by
  rw [step_eq h (code_get hc hb) hl, hx]

/-- An instruction that ends abnormally. -/
theorem step_fault {e : Env Val Store} {fa : Str → I32} {s : St Val Store} {pc stk frs w} {f : Fault}
    {x : AIns × Option Token} {l : Asm} {o : Op} {bs : List Byte} (h : At s pc stk frs w)
    (hc : CodeAt e fa pc (x :: l)) (hb : (x.1.resolve fa).bytes = o.code :: bs)
    (hl : 4 < e.prog.code.length) (hx : exec e (some o) (fetched s) = .error f) :
    stepImp e s = .error f := by
  rw [step_eq h (code_get hc hb) hl, hx]

/-- What one instruction has to do to follow an evaluation. -/
def Does {α : Type} (e : Env Val Store) (o : Op) (s : St Val Store)
    (good : α → State → St Val Store → Prop) : Res α → Prop
  | .ok a w => ∃ s1, exec e (some o) (fetched s) = .ok ((), s1) ∧ good a w s1
  | .err x w => ∃ s1, exec e (some o) (fetched s) = .ok ((), s1) ∧ Failed s1 x w
  | .fault f => exec e (some o) (fetched s) = .error f
  | .timeout => False
  | .undef => True

theorem Once.instr {α : Type} {e : Env Val Store} {fa : Str → I32} {s : St Val Store}
    {pc stk frs w} {x : AIns × Option Token} {l : Asm} {o : Op} {bs : List Byte}
    {good : α → State → St Val Store → Prop} {r : Res α}
    (h : At s pc stk frs w) (hc : CodeAt e fa pc (x :: l))
    (hb : (x.1.resolve fa).bytes = o.code :: bs) (hl : 4 < e.prog.code.length)
    (hg : ∀ a w s1, good a w s1 → good a w (bump e s1)) (hx : Does e o s good r) :
    Once e s good r := by
  cases r with
  | ok a w' =>
    obtain ⟨s1, h1, h2⟩ := hx
    exact ⟨_, step_ok h hc hb hl h1, hg _ _ _ h2⟩
  | err y w' =>
    obtain ⟨s1, h1, h2⟩ := hx
    exact ⟨_, step_ok h hc hb hl h1, h2.bump⟩
  | fault f => exact step_fault h hc hb hl hx
  | timeout => exact hx.elim
  | undef => trivial

/-! ### The machine that runs a program -/

/-- A host function behaves as its specification says, whatever is below its arguments. -/
def HostOk (e : Env Val Store) (host : FnPtr → List Val → State → Res Val) : Prop :=
  ∀ (fn : FnPtr) (args rest : List Val) (s : St Val Store), args.length < 2147483648 →
    s.th.stack = args.reverse ++ rest → s.th.finished = false → s.th.error = .success →
    match host fn args (stOf s) with
    | .ok v w => ∃ s', e.native fn (i32 args.length) s = .ok ((), s') ∧ s'.th.stack = v :: rest ∧
        s'.th.pc = s.th.pc ∧ s'.th.frames = s.th.frames ∧ s'.th.finished = false ∧
        s'.th.error = .success ∧ stOf s' = w
    | .err x w => ∃ s', e.native fn (i32 args.length) s = .ok ((), s') ∧ Failed s' x w
    | .fault f => e.native fn (i32 args.length) s = .error f
    | .timeout => False
    | .undef => True

/-- The machine: reference memory, no handlers, host functions as specified. -/
structure Mach (e : Env Val Store) (cx : Sem.Ctx) : Prop where
  mem : e.mem = Mem.abs
  fl : e.fl = cx.fl
  handlers : e.handlers = {}
  table : e.prog.syscalls = cx.table
  host : HostOk e cx.host
  code : 4 < e.prog.code.length
  small : e.prog.code.length < 2147483648

end Ccml
