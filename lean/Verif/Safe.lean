import Verif.Heights
/-!
Every instruction of generated code finds its operands: an invariant of the machine (proof
infrastructure).
-/
set_option linter.unusedSimpArgs false
namespace Ccml
open Sem (State Res)

/-! ### How a step may end abnormally -/

/-- The opcode of the next instruction. -/
def OpAt (e : Env Val Store) (s : St Val Store) (o : Op) : Prop :=
  e.prog.code[s.th.pc.toNat]? = some o.code

/-- The mathematical result that an instruction on two integers has to represent; for the remainder
C++ asks for the quotient to be representable. -/
inductive Wanted (a b : Int) : Op → Int → Prop
  | add : Wanted a b .ADD (a + b)
  | sub : Wanted a b .SUB (a - b)
  | mul : Wanted a b .MUL (a * b)
  | div : b ≠ 0 → Wanted a b .DIV (a.tdiv b)
  | mod : b ≠ 0 → Wanted a b .MOD (a.tdiv b)

/-- Values that `to_string` of the machine does not know (lib_vm/thread.cpp:35-56). -/
def NoText : Val → Prop
  | .arr _ => True
  | .syscall _ => True
  | _ => False

/-- The errors a program can stop with: a wrong number of arguments of an indirect call, a global
before the globals exist, division by zero, arrays, types, arguments of built-ins and members; and
accesses to a variable whose declaration the optimiser removed.  The others (lib_vm/thread.h) would be
errors of the compiler. -/
def TErr.usual : TErr → Bool
  | .bad_getv | .bad_setv
  | .bad_num_args | .bad_get_global | .bad_set_global | .bad_divide_by_zero | .bad_array_bounds
  | .bad_array_index | .bad_array_object | .bad_type_operation | .bad_argument | .bad_member_access => true
  | _ => false

/-- The names of the functions of the graphical driver, driver_sdl/driver.cpp:339-348. -/
def Sdl.Fn.name : Sdl.Fn → Str
  | .cls => str "cls"
  | .rand => str "rand"
  | .video => str "video"
  | .plot => str "plot"
  | .flip => str "flip"
  | .setrgb => str "setrgb"
  | .circle => str "circle"
  | .line => str "line"
  | .sleep => str "sleep"
  | .keydown => str "keydown"

/-- What values look like, one by one; the lengths of arrays are left open. -/
inductive LookLike : List Val → List View → Prop
  | nil : LookLike [] []
  | cons {m : Store} {v : Val} {x : View} {vs : List Val} {xs : List View} : v.view m = .ok x → LookLike vs xs →
      LookLike (v :: vs) (x :: xs)

/-- The ways in which a host function may end abnormally (lib_builtins/builtin.cpp,
driver/driver.cpp:26-75): `-INT_MIN`, a float cut off to an integer that does not fit, an array handed
to another thread, `none` printed, a line read at the end of the input; and a function of the graphical
driver (see C65, C66 and C79 for when that is). -/
inductive HostFault (fl : FloatOps) (io : Io) : Str → List Val → Fault → Prop
  | abs {a : I32} : a.toInt = -2147483648 → HostFault fl io (str "abs") [.int a] .ub
  | wait {x : F32} : fl.toInt x = none → HostFault fl io (str "wait") [.float x] .ub
  | new_array {x : F32} : fl.toInt x = none → HostFault fl io (str "new_array") [.float x] .ub
  | new_thread {a : I32} {args : List Val} {l : Nat} : .arr l ∈ args →
      HostFault fl io (str "new_thread") (.func a :: args) .assert
  | putc : HostFault fl io (str "putc") [.none] .assert
  | puts : HostFault fl io (str "puts") [.none] .assert
  | print : HostFault fl io (str "print") [.none] .assert
  | gets : io.input = [] → HostFault fl io (str "gets") [] .ub
  | graphics {fn : Sdl.Fn} {args : List Val} {xs : List View} {f : Fault} : LookLike args xs →
      fn.call fl (io.outside io.asked) xs { io.sdl with halted := false } = .error f → HostFault fl io fn.name args f

/-- The ways in which a step may end abnormally. -/
inductive Cause (e : Env Val Store) (s : St Val Store) : Fault → Prop
  /-- the result of integer arithmetic does not fit -/
  | overflow {o : Op} {a b : I32} {rest : List Val} {z : Int} : OpAt e s o →
      s.th.stack = .int b :: .int a :: rest → Wanted a.toInt b.toInt o z →
      ¬ (-2147483648 ≤ z ∧ z ≤ 2147483647) → Cause e s .ub
  /-- the least integer is negated -/
  | negate {a : I32} {rest : List Val} : OpAt e s .NEG → s.th.stack = .int a :: rest →
      a.toInt = -2147483648 → Cause e s .ub
  /-- text is added to a value that has no text -/
  | text {a b : Val} {rest : List Val} {t : Str} : OpAt e s .ADD → s.th.stack = b :: a :: rest →
      (a = .str t ∧ NoText b ∨ b = .str t ∧ NoText a) → Cause e s .assert
  /-- `none` is called -/
  | callNone {rest : List Val} : OpAt e s .ICALL → s.th.stack = .none :: rest → Cause e s .assert
  /-- a host function that is called ends abnormally -/
  | host {j : Nat} {y : Syscall} {args rest : List Val} {f : Fault} : e.prog.syscalls[j]? = some y →
      read32 e.prog.code (s.th.pc.toNat + 1) = some (i32 args.length) →
      (OpAt e s .SCALL ∧ read32 e.prog.code (s.th.pc.toNat + 5) = some (i32 j) ∧
          s.th.stack = args.reverse ++ rest ∨
        OpAt e s .ICALL ∧ s.th.stack = .syscall (i32 j) :: (args.reverse ++ rest)) →
      HostFault e.fl s.io y.name args f → Cause e s f

/-! ### The invariant -/

/-- A function in the code: its address, its arguments, its local slots and its instructions. -/
structure Fn where
  pc : Nat
  nargs : Nat
  loc : Nat
  asm : Asm

/-- A program and how it was laid out. -/
structure Lay where
  q : Prog Ref
  sys : List Syscall
  fa : Str → I32
  fns : List Fn

/-- A value: arrays exist, functions are functions of the program, built-in functions as values take
any number of arguments. -/
def ValOk (K : Lay) (n : Nat) : Val → Prop
  | .arr l => l < n
  | .func a => ∃ G ∈ K.fns, a = i32 G.pc
  | .syscall v => ∃ s j, Item.syscall s none ∈ K.q ∧ sysIndex K.sys s = some j ∧ v = i32 j
  | _ => True

/-- A list of values. -/
def ValsOk (K : Lay) (n : Nat) (l : List Val) : Prop := ∀ v ∈ l, ValOk K n v

/-- The frames fit the stack: in each the code has the height that belongs to its position. -/
def Stk (K : Lay) : List Frame → Int → Nat → Prop
  | [], _, _ => False
  | fr :: outer, pc, len => ∃ F ∈ K.fns, ∃ pre x post, F.asm = pre ++ x :: post ∧
      pc = (F.pc + widthOf pre : Nat) ∧ len = fr.sp + heightAt 0 pre ∧ F.nargs ≤ fr.sp ∧
      (fr.terminal = true ∨ outer = [] ∨ Stk K outer fr.ret (fr.sp - F.nargs + 1))

/-- A thread has ended, or goes on in good order. -/
def ThreadOk (K : Lay) (n : Nat) (t : Thread Val) : Prop :=
  (t.finished = true ∧ (t.error = .success → t.stack ≠ [] ∧ ValsOk K n t.stack) ∧
    (t.error ≠ .success → t.error.usual = true)) ∨
  (t.finished = false ∧ t.error = .success ∧ ValsOk K n t.stack ∧ Stk K t.frames t.pc t.stack.length)

/-- Everything outside the running thread. -/
structure StateOk (K : Lay) (w : State) : Prop where
  mem : ∀ xs ∈ w.mem, ValsOk K w.mem.length xs
  globals : ValsOk K w.mem.length w.globals
  before : ∀ t ∈ w.before, ThreadOk K w.mem.length t
  after : ∀ t ∈ w.after, ThreadOk K w.mem.length t

/-- The whole state. -/
structure Steady (K : Lay) (s : St Val Store) : Prop where
  th : ThreadOk K s.mem.length s.th
  rest : StateOk K (stOf s)

/-- A step keeps the invariant or has one of the causes. -/
def StepOk (K : Lay) (e : Env Val Store) (s : St Val Store) : Prop :=
  (∃ s', stepImp e s = .ok ((), s') ∧ Steady K s' ∧ s.mem.length ≤ s'.mem.length) ∨
  (∃ f, stepImp e s = .error f ∧ Cause e s f)

/-- The index of a string. -/
def TextOk (e : Env Val Store) : AIns → Prop
  | .ins (.i1 o v) => o.isText = true → ∃ i s, v = i32 i ∧ i < 2147483648 ∧ e.prog.strings[i]? = some s
  | _ => True

/-- A function is in the code as its heights ask for. -/
structure FnOk (K : Lay) (e : Env Val Store) (F : Fn) : Prop where
  code : CodeAt e K.fa F.pc F.asm
  fit : AllFit K.q K.sys F.loc (F.nargs + F.loc) (Spot F.pc 0 F.asm) 0 F.asm
  ends : EndsRet F.asm
  small : F.nargs + F.loc < 2147483648
  text : ∀ x ∈ F.asm, TextOk e x.1

/-- The program is in the machine. -/
structure InPlace (K : Lay) (e : Env Val Store) : Prop where
  ok : ∀ F ∈ K.fns, FnOk K e F
  call : ∀ f, Item.func f ∈ K.q → ∃ G ∈ K.fns, K.fa f.name.str = i32 G.pc ∧ G.nargs = f.args.length
  find : ∀ G ∈ K.fns, ∃ P, e.prog.findByPc (i32 G.pc) = some P ∧ P.numArgs = G.nargs
  table : ∀ P ∈ e.prog.functions, ∃ G ∈ K.fns, P.codeStart = i32 G.pc ∧ P.numArgs = G.nargs
  slots : K.q.countP Item.isSlot < 2147483648
  sys : K.sys.length < 2147483648

/-- The host functions keep the invariant and answer when they are called as registered. -/
structure HostSound (K : Lay) (cx : Sem.Ctx) : Prop where
  ok : ∀ fn args w v w', ValsOk K w.mem.length args → StateOk K w → cx.host fn args w = .ok v w' →
    StateOk K w' ∧ ValOk K w'.mem.length v ∧ w.mem.length ≤ w'.mem.length
  err : ∀ fn args w x w', ValsOk K w.mem.length args → StateOk K w → cx.host fn args w = .err x w' →
    StateOk K w' ∧ x.usual = true ∧ w.mem.length ≤ w'.mem.length
  answers : ∀ s a j (args : List Val) w, Item.syscall s a ∈ K.q → sysIndex K.sys s = some j →
    (a = none ∨ a = some args.length) → hostCall cx (i32 j) args w ≠ .undef
  faults : ∀ s a j (args : List Val) w f, Item.syscall s a ∈ K.q → sysIndex K.sys s = some j →
    (a = none ∨ a = some args.length) → ValsOk K w.mem.length args → hostCall cx (i32 j) args w = .fault f →
    ∃ y, cx.table[j]? = some y ∧ HostFault cx.fl w.io y.name args f

section
variable {K : Lay} {e : Env Val Store} {cx : Sem.Ctx} {s : St Val Store} {n : Nat}

theorem ValOk.mono {k : Nat} {v : Val} (h : ValOk K n v) (hk : n ≤ k) : ValOk K k v := by
  cases v <;> try exact h
  exact Nat.lt_of_lt_of_le h hk

theorem ValsOk.mono {k : Nat} {l : List Val} (h : ValsOk K n l) (hk : n ≤ k) : ValsOk K k l :=
  fun v hv => (h v hv).mono hk

theorem ValsOk.nil : ValsOk K n [] := fun _ h => by cases h
theorem ValsOk.cons {v : Val} {l : List Val} (hv : ValOk K n v) (h : ValsOk K n l) : ValsOk K n (v :: l) :=
  fun x hx => by
    rcases List.mem_cons.1 hx with rfl | hx
    · exact hv
    · exact h x hx
theorem ValsOk.head {v : Val} {l : List Val} (h : ValsOk K n (v :: l)) : ValOk K n v :=
  h v (List.mem_cons_self ..)
theorem ValsOk.tail {v : Val} {l : List Val} (h : ValsOk K n (v :: l)) : ValsOk K n l :=
  fun x hx => h x (List.mem_cons_of_mem _ hx)
theorem ValsOk.set {l : List Val} (h : ValsOk K n l) (i : Nat) {v : Val} (hv : ValOk K n v) :
    ValsOk K n (l.set i v) := fun x hx => by
  rcases List.mem_or_eq_of_mem_set hx with hx | rfl
  · exact h x hx
  · exact hv
theorem ValsOk.append {a b : List Val} (ha : ValsOk K n a) (hb : ValsOk K n b) : ValsOk K n (a ++ b) :=
  fun x hx => (List.mem_append.1 hx).elim (ha x) (hb x)
theorem ValsOk.left {a b : List Val} (h : ValsOk K n (a ++ b)) : ValsOk K n a :=
  fun x hx => h x (List.mem_append_left _ hx)
theorem ValsOk.right {a b : List Val} (h : ValsOk K n (a ++ b)) : ValsOk K n b :=
  fun x hx => h x (List.mem_append_right _ hx)
theorem ValsOk.reverse {l : List Val} (h : ValsOk K n l) : ValsOk K n l.reverse :=
  fun x hx => h x (List.mem_reverse.1 hx)
theorem ValsOk.replicate (k : Nat) : ValsOk K n (List.replicate k .none) := fun x hx => by
  rw [List.eq_of_mem_replicate hx]; trivial

theorem ThreadOk.mono {k : Nat} {t : Thread Val} (h : ThreadOk K n t) (hk : n ≤ k) : ThreadOk K k t := by
  rcases h with ⟨h1, h2, h3⟩ | ⟨h1, h2, h3, h4⟩
  · exact .inl ⟨h1, fun h => ⟨(h2 h).1, (h2 h).2.mono hk⟩, h3⟩
  · exact .inr ⟨h1, h2, h3.mono hk, h4⟩

/-- The state with another store. -/
theorem StateOk.store {w : State} (h : StateOk K w) {m : Store} (hl : w.mem.length ≤ m.length)
    (hm : ∀ xs ∈ m, ValsOk K m.length xs) : StateOk K { w with mem := m } :=
  ⟨hm, h.globals.mono hl, fun t ht => (h.before t ht).mono hl, fun t ht => (h.after t ht).mono hl⟩

/-- Values that refer to nothing. -/
def Scalar : Val → Prop
  | .arr _ => False
  | .func _ => False
  | .syscall _ => False
  | _ => True

theorem Scalar.ok {v : Val} (h : Scalar v) : ValOk K n v := by cases v <;> first | trivial | exact h.elim

/-- Reading a value. -/
theorem view_some {m : Store} {v : Val} (h : ValOk K m.length v) : ∃ x, v.view m = .ok x := by
  cases v <;> try exact ⟨_, rfl⟩
  rename_i l
  have h : l < m.length := h
  exact ⟨_, by simp only [Val.view]; rw [List.getElem?_eq_getElem h]⟩

theorem StepOk.good {s' : St Val Store} (h : stepImp e s = .ok ((), s')) (hs : Steady K s')
    (hn : s.mem.length ≤ s'.mem.length) : StepOk K e s := .inl ⟨s', h, hs, hn⟩

theorem failed_sound {s' : St Val Store} {x : TErr} {w : State} (h : Failed s' x w) (hx : x.usual = true)
    (hw : StateOk K w) : Steady K s' := by
  refine ⟨.inl ⟨h.finished, fun k => ?_, fun _ => by rw [h.error]; exact hx⟩, ?_⟩
  · rw [h.error] at k; rw [k] at hx; cases hx
  rw [h.state]; exact hw

theorem at_sound {s' : St Val Store} {pc : Nat} {stk frs w} (h : At s' pc stk frs w)
    (hw : StateOk K w) (hv : ValsOk K w.mem.length stk) (hs : Stk K frs pc stk.length) : Steady K s' := by
  have hm : s'.mem = w.mem := by rw [← h.state]; rfl
  refine ⟨.inr ⟨h.finished, h.error, ?_, ?_⟩, ?_⟩
  · rw [hm, h.stack]; exact hv
  · rw [h.frames, h.pc, h.stack]; exact hs
  · rw [h.state]; exact hw

/-- What a single step needs: its results are in order and its abnormal ends have a cause. -/
theorem Once.stepOk {α : Type} {good : α → State → St Val Store → Prop} {r : Res α} (h : Once e s good r)
    (h1 : ∀ a w s', r = .ok a w → good a w s' → Steady K s' ∧ s.mem.length ≤ s'.mem.length)
    (h2 : ∀ x w, r = .err x w → StateOk K w ∧ x.usual = true ∧ s.mem.length ≤ w.mem.length)
    (h3 : ∀ f, r = .fault f → Cause e s f) (h4 : r ≠ .undef) : StepOk K e s := by
  cases r with
  | ok a w =>
    obtain ⟨s', hs, hg⟩ := h
    obtain ⟨ha, hb⟩ := h1 a w s' rfl hg
    exact .inl ⟨s', hs, ha, hb⟩
  | err x w =>
    obtain ⟨s', hs, hg⟩ := h
    obtain ⟨ha, hb, hc⟩ := h2 x w rfl
    refine .inl ⟨s', hs, failed_sound hg hb ha, ?_⟩
    have hm : s'.mem = w.mem := by rw [← hg.state]; rfl
    rw [hm]; exact hc
  | fault f => exact .inr ⟨f, h, h3 f rfl⟩
  | timeout => exact h.elim
  | undef => exact absurd rfl h4

/-! ### Operators -/

theorem exact_ends {z : Int} {f : Fault} (h : Sem.exact z = .fault f) :
    f = .ub ∧ ¬ (-2147483648 ≤ z ∧ z ≤ 2147483647) := by
  unfold Sem.exact at h
  split at h
  · cases h
  · cases h; exact ⟨rfl, ‹_›⟩

theorem exact_val {z : Int} {v : Val} (h : Sem.exact z = .val v) : Scalar v := by
  unfold Sem.exact at h
  split at h <;> cases h
  trivial

theorem exact_err {z : Int} {x : TErr} (h : Sem.exact z = .err x) : False := by
  unfold Sem.exact at h
  split at h <;> cases h

theorem exact_undef {z : Int} (h : Sem.exact z = .undef) : False := by
  unfold Sem.exact at h
  split at h <;> cases h

/-- An answer is in order. -/
def AnsOk (P : Fault → Prop) : Sem.Ans → Prop
  | .val v => Scalar v
  | .err x => x.usual = true
  | .fault f => P f
  | .undef => False

theorem exact_ok {P : Fault → Prop} {z : Int} (h : ¬ (-2147483648 ≤ z ∧ z ≤ 2147483647) → P .ub) :
    AnsOk P (Sem.exact z) := by
  unfold Sem.exact
  split
  · trivial
  · exact h ‹_›

theorem bool_ok {P : Fault → Prop} (b : Bool) : AnsOk P (Sem.bool b) := trivial

theorem arith_ok {P : Fault → Prop} {fl : FloatOps} {i : Int → Int → Sem.Ans} {f : F32 → F32 → Val}
    {other : Sem.Ans} {l r : View} (hi : ∀ a b, l = .int a → r = .int b → AnsOk P (i a.toInt b.toInt))
    (hf : ∀ a b, Scalar (f a b)) (ho : AnsOk P other) : AnsOk P (Sem.arith fl i f other l r) := by
  unfold Sem.arith
  split
  · exact hi _ _ rfl rfl
  · split
    · exact hf _ _
    · exact ho

theorem view_int {m : Store} {v : Val} {a : I32} (h : v.view m = .ok (.int a)) : v = .int a := by
  cases v <;> simp [Val.view] at h
  · rw [h]
  · split at h <;> cases h

theorem view_str {m : Store} {v : Val} {a : Str} (h : v.view m = .ok (.str a)) : v = .str a := by
  cases v <;> simp [Val.view] at h
  · rw [h]
  · split at h <;> cases h

theorem view_noText {m : Store} {v : Val} {x : View} {fl : FloatOps} {f : Fault} (h : v.view m = .ok x)
    (hx : x.toBuf fl = .error f) : f = .assert ∧ NoText v := by
  cases x <;> simp [View.toBuf] at hx
  · subst hx
    cases v <;> simp [Val.view] at h
    exact ⟨rfl, trivial⟩
  · subst hx
    cases v <;> simp [Val.view] at h
    · split at h <;> cases h
    · exact ⟨rfl, trivial⟩

theorem concat_ok {P : Fault → Prop} {a b : Out Str} (ha : ∀ f, a = .error f → P f)
    (hb : ∀ f, b = .error f → P f) : AnsOk P (Sem.concat a b) := by
  cases a with
  | error f => cases b <;> exact ha f rfl
  | ok x =>
    cases b with
    | error f => exact hb f rfl
    | ok y => trivial

/-- The operators answer or have a cause. -/
theorem binary_ok {fl : FloatOps} {tok : Tok} {o : Op} (ho : opIns tok = some o) {a b : Val} {m : Store}
    {l r : View} (hl : a.view m = .ok l) (hr : b.view m = .ok r) {rest : List Val}
    (hop : OpAt e s o) (hs : s.th.stack = b :: a :: rest) :
    AnsOk (Cause e s) (Sem.binary fl tok l r) := by
  have hint : ∀ x y, l = .int x → r = .int y → s.th.stack = .int y :: .int x :: rest := by
    rintro x y rfl rfl
    rw [hs, view_int hl, view_int hr]
  have e1 : TErr.bad_type_operation.usual = true := by decide
  have e2 : TErr.bad_divide_by_zero.usual = true := by decide
  have cmp : ∀ (i : Int → Int → Bool) (f : F32 → F32 → Bool),
      AnsOk (Cause e s) (Sem.compare fl i f l r) := by
    intro i f
    unfold Sem.compare
    exact arith_ok (fun _ _ _ _ => bool_ok _) (fun _ _ => trivial) e1
  cases tok <;> cases ho <;> unfold Sem.binary <;> dsimp only
  case ADD =>
    refine arith_ok (fun x y hx hy => exact_ok fun hz => .overflow hop (hint x y hx hy) .add hz)
      (fun _ _ => trivial) ?_
    unfold Sem.addOther
    split
    · refine concat_ok (fun f h => by cases h) fun f h => ?_
      obtain ⟨rfl, hn⟩ := view_noText hr h
      exact .text hop hs (.inl ⟨view_str hl, hn⟩)
    · refine concat_ok (fun f h => ?_) fun f h => by cases h
      obtain ⟨rfl, hn⟩ := view_noText hl h
      exact .text hop hs (.inr ⟨view_str hr, hn⟩)
    · exact e1
  case SUB =>
    exact arith_ok (fun x y hx hy => exact_ok fun hz => .overflow hop (hint x y hx hy) .sub hz)
      (fun _ _ => trivial) e1
  case MUL =>
    exact arith_ok (fun x y hx hy => exact_ok fun hz => .overflow hop (hint x y hx hy) .mul hz)
      (fun _ _ => trivial) e1
  case DIV =>
    refine arith_ok (fun x y hx hy => ?_) (fun _ _ => trivial) e1
    split
    · exact e2
    · exact exact_ok fun hz => .overflow hop (hint x y hx hy) (.div ‹_›) hz
  case MOD =>
    split
    · split
      · exact e2
      · split
        · trivial
        · exact .overflow hop (hint _ _ rfl rfl) (.mod ‹_›) ‹_›
    · exact e1
  case EQ =>
    unfold Sem.equal
    split <;> first
      | exact bool_ok _
      | exact arith_ok (fun _ _ _ _ => bool_ok _) (fun _ _ => trivial) e1
  case AND => exact bool_ok _
  case OR => exact bool_ok _
  all_goals exact cmp _ _

theorem unary_ok {fl : FloatOps} {a : Val} {m : Store} {v : View} (hv : a.view m = .ok v)
    {rest : List Val} (hs : s.th.stack = a :: rest) :
    (OpAt e s .NEG → AnsOk (Cause e s) (Sem.unary fl .SUB v)) ∧
      AnsOk (Cause e s) (Sem.unary fl .NOT v) := by
  refine ⟨fun hop => ?_, bool_ok _⟩
  unfold Sem.unary
  dsimp only
  split
  · rename_i x
    refine exact_ok fun hz => .negate hop (by rw [hs, view_int hv]) ?_
    have h1 : x.toInt < 2147483648 := by have := BitVec.toInt_lt (x := x); simpa using this
    have h2 : -2147483648 ≤ x.toInt := by have := BitVec.le_toInt (x := x); simpa using this
    omega
  · exact (by decide : TErr.bad_type_operation.usual = true)

/-! ### Positions -/

/-- The innermost frame and its position. -/
structure Here (K : Lay) (F : Fn) (fr : Frame) (outer : List Frame) (pre : Asm) (x : AIns × Option Token)
    (post : Asm) : Prop where
  mem : F ∈ K.fns
  asm : F.asm = pre ++ x :: post
  args : F.nargs ≤ fr.sp
  back : fr.terminal = true ∨ outer = [] ∨ Stk K outer fr.ret (fr.sp - F.nargs + 1)

variable {F : Fn} {fr : Frame} {outer : List Frame} {pre post : Asm} {x : AIns × Option Token}

theorem allFit_at {q : Prog Ref} {sys : List Syscall} {loc sp : Nat} {T : Nat → Nat → Prop} :
    ∀ {pre : Asm} {h : Nat} {x : AIns × Option Token} {post : Asm},
      AllFit q sys loc sp T h (pre ++ x :: post) → Needs q sys loc sp T (heightAt h pre) x.1
  | [], _, _, _, hf => hf.1
  | y :: l, h, x, post, hf => allFit_at (pre := l) (h := y.1.after h) (x := x) (post := post) hf.2

theorem Here.code (L : InPlace K e) (H : Here K F fr outer pre x post) :
    CodeAt e K.fa (F.pc + widthOf pre) (x :: post) := by
  have := (L.ok F H.mem).code
  rw [H.asm] at this
  exact this.append.2

theorem Here.needs (L : InPlace K e) (H : Here K F fr outer pre x post) :
    Needs K.q K.sys F.loc (F.nargs + F.loc) (Spot F.pc 0 F.asm) (heightAt 0 pre) x.1 := by
  have := (L.ok F H.mem).fit
  rw [H.asm] at this ⊢
  exact allFit_at this

theorem Here.next (L : InPlace K e) (H : Here K F fr outer pre x post)
    (hx : ∀ v, x.1 ≠ .ins (.i1 .RET v)) {pc len : Nat} (hpc : pc = F.pc + widthOf pre + x.1.width)
    (hl : len = fr.sp + x.1.after (heightAt 0 pre)) : Stk K (fr :: outer) pc len := by
  obtain ⟨p, v, t, hp⟩ := (L.ok F H.mem).ends
  cases post with
  | nil =>
    have := H.asm.symm.trans hp
    obtain ⟨h1, h2⟩ := List.append_inj' this rfl
    cases h2
    exact absurd rfl (hx v)
  | cons y post =>
    refine ⟨F, H.mem, pre ++ [x], y, post, by rw [H.asm]; simp, ?_, ?_, H.args, H.back⟩
    · rw [hpc, widthOf_append]
      simp only [widthOf]
      omega
    · rw [hl, heightAt_append]
      rfl

theorem Here.jump (H : Here K F fr outer pre x post) {p k len : Nat} (hs : Spot F.pc 0 F.asm p k)
    (hl : len = fr.sp + k) : Stk K (fr :: outer) p len := by
  obtain ⟨pre', y, post', h1, h2, h3⟩ := hs
  exact ⟨F, H.mem, pre', y, post', h1, by rw [h2], by rw [hl, h3], H.args, H.back⟩

theorem spot_small (M : Mach e cx) (L : InPlace K e) (hF : F ∈ K.fns) {p k : Nat}
    (hs : Spot F.pc 0 F.asm p k) : p < 2147483648 := by
  obtain ⟨pre', y, post', h1, h2, h3⟩ := hs
  have := (L.ok F hF).code.le
  rw [h1, widthOf_append] at this
  have := M.small
  omega

/-- The entry of a function. -/
theorem enter_stk (L : InPlace K e) {G : Fn} (hG : G ∈ K.fns) {len : Nat} {ret callee : Int}
    {frs : List Frame} {term : Bool} (hn : G.nargs ≤ len)
    (hb : term = true ∨ frs = [] ∨ Stk K frs ret (len - G.nargs + 1)) :
    Stk K (⟨len, ret, callee, term⟩ :: frs) G.pc len := by
  obtain ⟨p, v, t, hp⟩ := (L.ok G hG).ends
  cases ha : G.asm with
  | nil => rw [ha] at hp; simp at hp
  | cons y l => exact ⟨G, hG, [], y, l, ha, by simp [widthOf], rfl, hn, hb⟩

theorem cons2 {l : List Val} {n : Nat} (h : n + 2 ≤ l.length) : ∃ b a r, l = b :: a :: r := by
  match l, h with
  | b :: a :: r, _ => exact ⟨b, a, r, rfl⟩

theorem cons1 {l : List Val} {n : Nat} (h : n + 1 ≤ l.length) : ∃ a r, l = a :: r := by
  match l, h with
  | a :: r, _ => exact ⟨a, r, rfl⟩

theorem cons3 {l : List Val} {n : Nat} (h : n + 3 ≤ l.length) : ∃ c b a r, l = c :: b :: a :: r := by
  match l, h with
  | c :: b :: a :: r, _ => exact ⟨c, b, a, r, rfl⟩

theorem splitTop {l : List Val} {n : Nat} (h : n ≤ l.length) :
    ∃ vs r : List Val, l = vs.reverse ++ r ∧ vs.length = n := by
  refine ⟨(l.take n).reverse, l.drop n, by simp, by simp; omega⟩

theorem opAt_of {fa : Str → I32} {pc : Nat} {stk frs w} {l : Asm} {o : Op} {bs : List Byte}
    (h : At s pc stk frs w) (hc : CodeAt e fa pc (x :: l)) (hb : (x.1.resolve fa).bytes = o.code :: bs) :
    OpAt e s o := by
  unfold OpAt
  rw [h.pc, Int.toNat_natCast]
  exact code_get hc hb

theorem At.memEq {pc : Nat} {stk frs w} (h : At s pc stk frs w) : s.mem = w.mem := by rw [← h.state]; rfl
theorem At.ioEq {pc : Nat} {stk frs w} (h : At s pc stk frs w) : s.io = w.io := by rw [← h.state]; rfl

/-- An instruction that pushes the answer of an operator. -/
theorem answer_ok {pc : Nat} {rest frs} {w : State} {a : Sem.Ans} (hm : s.mem = w.mem)
    (ho : Once e s (Pushed pc rest frs) (a.res w)) (ha : AnsOk (Cause e s) a) (hw : StateOk K w)
    (hv : ValsOk K w.mem.length rest) (hs : Stk K frs pc (rest.length + 1)) : StepOk K e s := by
  refine ho.stepOk ?_ ?_ ?_ ?_
  · intro v w' s' hr hg
    cases a <;> cases hr
    have hg : At s' pc (_ :: rest) frs w := hg
    exact ⟨at_sound hg hw (.cons ha.ok hv) hs, by rw [hm, hg.memEq]; exact Nat.le_refl _⟩
  · intro x w' hr
    cases a <;> cases hr
    exact ⟨hw, ha, by rw [hm]; exact Nat.le_refl _⟩
  · intro f hr
    cases a <;> cases hr
    exact ha
  · intro hr
    cases a <;> cases hr
    exact ha

/-- A step that certainly succeeds and goes on. -/
theorem moved_ok {pc : Nat} {stk frs} {w : State} (hm : s.mem.length ≤ w.mem.length)
    (ho : ∃ s', stepImp e s = .ok ((), s') ∧ At s' pc stk frs w) (hw : StateOk K w)
    (hv : ValsOk K w.mem.length stk) (hs : Stk K frs pc stk.length) : StepOk K e s := by
  obtain ⟨s', h1, h2⟩ := ho
  exact .inl ⟨s', h1, at_sound h2 hw hv hs, by rw [h2.memEq]; exact hm⟩

end
end Ccml
