import Verif.SafeFacts
import Verif.SampleProg
import Verif.Props.Refine
/-!
C25 (code is balanced) and C56 (compiled programs do not go wrong except for listed causes).

Both are about all states that a machine with a compiled program gets to (`Arises`, Verif/SafeRun.lean:
single instructions of any thread in any order, new threads, changes to scheduling fields), so they
hold on every schedule and for every sequence of calls of the host.

Both need two restrictions on the program (`plainP`, Verif/SafeProg.lean), without which they are
false of the code: no binary `not` (which the parser makes from `a not b`, and from `not a and b`
through its handling of precedence), and no built-in function with a fixed number of arguments used as
a value (the machine does not check the number of arguments of such a call).
-/
set_option linter.unusedVariables false
namespace Ccml.Props

/-- The program declares only functions of the standard library and of the driver, each with its own
number of arguments (`builtins_register`, lib_builtins/builtin.cpp:246-271; driver/driver.cpp:155-161;
driver_sdl/driver.cpp:338-348). -/
def StandardHost (p : Prog Unit) (own : List (Str × Int × HostFn) := driverOwn) : Prop := ∀ n a,
  Item.syscall n a ∈ p → (n, countOf a) ∈ builtinsRegister ++ own.map fun x => (x.1, x.2.1)

/-- What compiling gives. -/
theorem placed {L : Layout} {opt : Bool} {p : Prog Unit} {q : Prog Ref} {prog : Program}
    {names : List (Str × HostFn)} {own : List (Str × Int × HostFn)} (fl : FloatOps)
    (hc : Compiles L opt p q prog) (hi : ∀ x ∈ p, x.declName ≠ initName) (hl : Fits q prog) (hp : plainP q)
    (hd : IsDriver names own) (hr : StandardHost p own) :
    ∃ K : Lay, K.q = q ∧ K.sys = prog.syscalls ∧
      Mach (Env.std (resolveWith names prog) fl Mem.abs) (stdCtx q prog fl names) ∧
      InPlace K (Env.std (resolveWith names prog) fl Mem.abs) ∧ Located K prog ∧
      HostSound K (stdCtx q prog fl names) := by
  have R := std_running (names := names) fl hl
  have hn := hc.func hi
  obtain ⟨q0, h1, h2, h3⟩ := hc
  obtain ⟨segs, es, G⟩ := codegen_generated hn h3
  obtain ⟨K, k1, k2, k3, k4⟩ := Compiles.inPlace ⟨q0, h1, h2, h3⟩ hi hl hp R.program
  have hcode : (Env.std (resolveWith names prog) fl Mem.abs).prog.code = prog.code := rfl
  refine ⟨K, k1, k2, ⟨R.mem, R.fl, R.handlers, by rw [R.program], R.host, by rw [hcode]; exact G.codeLength.1,
    by rw [hcode]; exact G.codeLength.2⟩, k3, k4, ?_⟩
  refine std_sound hd k3 (by rw [hcode]; exact G.codeLength.2) rfl k1 k2 hl.table ?_
  intro n a h
  exact hr n a (Compiles.syscall ⟨q0, h1, h2, h3⟩ h)

/-! ### C25 -/

/-- The code of one function, at address `a`, keeps its stack balanced: whenever a thread is about to
execute the first instruction of the code of an expression, and whenever a thread is about to execute
the instruction behind it, the heights above the start of the respective frame differ by exactly one;
for a statement they are the same; the arguments of a call add their number and the call itself
replaces them by one value. -/
structure Balanced (e : Env Val Store) (g : GenCtx) (sys : List Syscall) (a : Nat) (code : Asm) : Prop where
  expr : ∀ pre c x post si ex, code = pre ++ (c ++ x :: post) → asmE g sys si ex = .ok c → plainE g.prog ex →
    ∀ t1 f1 t2 f2, AtCode e t1 f1 (a + widthOf pre) → AtCode e t2 f2 (a + widthOf pre + widthOf c) →
      t2.stack.length + f1.sp = t1.stack.length + f2.sp + 1
  stmt : ∀ pre c x post pc si st, code = pre ++ (c ++ x :: post) → asmS g sys pc si st = .ok c →
    plainS g.prog st →
    ∀ t1 f1 t2 f2, AtCode e t1 f1 (a + widthOf pre) → AtCode e t2 f2 (a + widthOf pre + widthOf c) →
      t2.stack.length + f1.sp = t1.stack.length + f2.sp
  call : ∀ pre as inv x post si sj tok c args, code = pre ++ (as ++ (inv ++ x :: post)) →
    asmEs g sys si args = .ok as → asmInvoke g sys tok c args.length (asmE g sys sj c) = .ok inv →
    plainEs g.prog args → direct g.prog c ∨ plainE g.prog c →
    ∀ t1 f1 t2 f2 t3 f3, AtCode e t1 f1 (a + widthOf pre) → AtCode e t2 f2 (a + widthOf pre + widthOf as) →
      AtCode e t3 f3 (a + widthOf pre + widthOf as + widthOf inv) →
      t2.stack.length + f1.sp = t1.stack.length + f2.sp + args.length ∧
      t3.stack.length + f1.sp = t1.stack.length + f3.sp + 1

theorem cons_of (c : Asm) (x : AIns × Option Token) (post : Asm) : ∃ y r, c ++ x :: post = y :: r := by
  cases c with
  | nil => exact ⟨x, post, rfl⟩
  | cons y c => exact ⟨y, _, rfl⟩

theorem width_le : ∀ {es : List (Expr Ref)} {g : GenCtx} {sys : List Syscall} {si : Nat} {a : Asm},
    asmEs g sys si es = .ok a → plainEs g.prog es → widthOf a < 2147483648 → es.length ≤ widthOf a
  | [], g, sys, si, a, h, _, _ => Nat.zero_le _
  | ex :: es, g, sys, si, a, h, hp, hw => by
    obtain ⟨b, h1, h⟩ := bind_ok.1 h
    obtain ⟨d, h2, h⟩ := bind_ok.1 h
    cases h
    rw [widthOf_append] at hw ⊢
    have := width_le h2 hp.2 (by omega)
    have hb := asmE_height (q := g.prog) rfl h1 hp.1 (by omega) 0
    cases b with
    | nil => simp [heightAt] at hb
    | cons y b =>
      have := width_pos y.1
      simp only [widthOf, List.length_cons]
      omega

theorem balanced {K : Lay} {e : Env Val Store} {cx : Sem.Ctx} {prog : Program} (M : Mach e cx)
    (L : InPlace K e) (HS : HostSound K cx) (D : Located K prog) {F : Fn} (hF : F ∈ K.fns) {g : GenCtx}
    {sys : List Syscall} : Balanced e g sys F.pc F.asm := by
  have small : widthOf F.asm < 2147483648 := by
    have h1 := (L.ok F hF).code.le
    have h2 := M.small
    omega
  constructor
  · intro pre c x post si ex ha hc hp t1 f1 t2 f2 h1 h2
    obtain ⟨y, r, hy⟩ := cons_of c x post
    have e1 := h1.height M L HS D hF (ha.trans (by rw [hy]))
    have e2 := AtCode.height M L HS D hF (pre := pre ++ c) (x := x) (post := post) (by rw [ha]; simp)
      (t := t2) (fr := f2) (by rw [widthOf_append]; rw [← Nat.add_assoc]; exact h2)
    rw [ha] at small
    simp only [widthOf_append] at small
    rw [heightAt_append, asmE_height rfl hc hp (by omega)] at e2
    omega
  · intro pre c x post pc si st ha hc hp t1 f1 t2 f2 h1 h2
    obtain ⟨y, r, hy⟩ := cons_of c x post
    have e1 := h1.height M L HS D hF (ha.trans (by rw [hy]))
    have e2 := AtCode.height M L HS D hF (pre := pre ++ c) (x := x) (post := post) (by rw [ha]; simp)
      (t := t2) (fr := f2) (by rw [widthOf_append]; rw [← Nat.add_assoc]; exact h2)
    rw [ha] at small
    simp only [widthOf_append] at small
    rw [heightAt_append, asmS_height rfl st pc si c _ hc hp (by omega)] at e2
    omega
  · intro pre as inv x post si sj tok c args ha hc hv hp hq t1 f1 t2 f2 t3 f3 h1 h2 h3
    obtain ⟨y, r, hy⟩ := cons_of inv x post
    obtain ⟨y', r', hy'⟩ := cons_of as y r
    have e1 := h1.height M L HS D hF (ha.trans (by rw [hy, hy']))
    have e2 := AtCode.height M L HS D hF (pre := pre ++ as) (x := y) (post := r) (by rw [ha, hy]; simp)
      (t := t2) (fr := f2) (by rw [widthOf_append]; rw [← Nat.add_assoc]; exact h2)
    have e3 := AtCode.height M L HS D hF (pre := pre ++ (as ++ inv)) (x := x) (post := post) (by rw [ha]; simp)
      (t := t3) (fr := f3) (by simp only [widthOf_append]; simp only [← Nat.add_assoc]; exact h3)
    rw [ha] at small
    simp only [widthOf_append] at small
    have hl := width_le hc hp (by omega)
    rw [heightAt_append, asmEs_height rfl hc hp (by omega)] at e2
    rw [heightAt_append, heightAt_append, asmEs_height rfl hc hp (by omega),
      asmInvoke_height rfl hv hq (by omega) (by omega)] at e3
    omega

/-- C25 for programs without binary `not` and without fixed-count built-ins as values: the code of
every function of a compiled program, and that of the generated initialisation function, is balanced
in all states the machine gets to.  `code` is the code of the function, as the function table locates it. -/
theorem C25_balanced_partial {L : Layout} {opt : Bool} {p : Prog Unit} {q : Prog Ref} {prog : Program}
    {names : List (Str × HostFn)} {own : List (Str × Int × HostFn)}
    (fl : FloatOps) (hc : Compiles L opt p q prog) (hi : ∀ x ∈ p, x.declName ≠ initName) (hl : Fits q prog)
    (hp : plainP q) (hd : IsDriver names own) (hr : StandardHost p own) :
    (∀ f, Item.func f ∈ q → ∃ P ∈ prog.functions, P.name = f.name.str ∧ ∃ fa si code,
      asmFunc q prog.syscalls P.codeStart.toNat si f = .ok code ∧
      bytesOf fa code <+: prog.code.drop P.codeStart.toNat ∧
      Balanced (Env.std (resolveWith names prog) fl Mem.abs) (funcCtx q f) prog.syscalls P.codeStart.toNat code) ∧
    (∃ P ∈ prog.functions, P.name = initName ∧ ∃ fa si code,
      asmInit q prog.syscalls P.codeStart.toNat si = .ok code ∧
      bytesOf fa code <+: prog.code.drop P.codeStart.toNat ∧
      Balanced (Env.std (resolveWith names prog) fl Mem.abs) (initCtx q) prog.syscalls P.codeStart.toNat code) := by
  obtain ⟨K, k1, k2, M, L, D, HS⟩ := placed fl hc hi hl hp hd hr
  have key : ∀ F ∈ K.fns, (i32 F.pc).toNat = F.pc ∧ bytesOf K.fa F.asm <+: prog.code.drop F.pc := by
    intro F hF
    have h1 := (L.ok F hF).code.le
    have h2 := M.small
    refine ⟨toNat_i32 (by omega), ?_⟩
    obtain ⟨pre, post, h3, h4⟩ := (L.ok F hF).code
    have h3 : prog.code = pre ++ (bytesOf K.fa F.asm ++ post) := h3
    rw [h3, ← h4, List.drop_left]
    exact List.prefix_append ..
  constructor
  · intro f hf
    obtain ⟨P, h1, h2, F, hF, h3, si, h4⟩ := D.func f (by rw [k1]; exact hf)
    obtain ⟨h5, h6⟩ := key F hF
    rw [k1, k2] at h4
    refine ⟨P, h1, h2, K.fa, si, F.asm, ?_⟩
    rw [h3, h5]
    exact ⟨h4, h6, balanced M L HS D hF⟩
  · obtain ⟨P, h1, h2, F, hF, h3, si, h4⟩ := D.init
    obtain ⟨h5, h6⟩ := key F hF
    rw [k1, k2] at h4
    refine ⟨P, h1, h2, K.fa, si, F.asm, ?_⟩
    rw [h3, h5]
    exact ⟨h4, h6, balanced M L HS D hF⟩

/-! ### C56 -/

/-- C56: an instruction of a thread of a compiled program, in any state the machine gets to, takes the
machine to such a state again — it never reads outside the code, the stack, the frames, the string
table or the heap — or ends abnormally for one of the listed causes: integer arithmetic that does not
fit, text plus a value without text, calling `none`, or a host function that ends abnormally. -/
theorem C56_steps_partial {L : Layout} {opt : Bool} {p : Prog Unit} {q : Prog Ref} {prog : Program}
    {names : List (Str × HostFn)} {own : List (Str × Int × HostFn)}
    (fl : FloatOps) (hc : Compiles L opt p q prog) (hi : ∀ x ∈ p, x.declName ≠ initName) (hl : Fits q prog)
    (hp : plainP q) (hd : IsDriver names own) (hr : StandardHost p own) (s : St Val Store)
    (h : Arises (Env.std (resolveWith names prog) fl Mem.abs) s.whole) (hf : s.th.finished = false) :
    (∃ s', stepImp (Env.std (resolveWith names prog) fl Mem.abs) s = .ok ((), s') ∧
      Arises (Env.std (resolveWith names prog) fl Mem.abs) s'.whole) ∨
    ∃ f, stepImp (Env.std (resolveWith names prog) fl Mem.abs) s = .error f ∧
      Cause (Env.std (resolveWith names prog) fl Mem.abs) s f := by
  obtain ⟨K, -, -, M, L, -, HS⟩ := placed fl hc hi hl hp hd hr
  rcases step_steady M L HS (reach_ok M L HS h).steady hf with ⟨s', h1, -⟩ | ⟨f, h1, h2⟩
  · exact .inl ⟨s', h1, h.step hf h1⟩
  · exact .inr ⟨f, h1, h2⟩

/-- C56: whatever the host asks for — initialising, starting threads, resuming them for some cycles,
calling functions, stepping, breakpoints, in any order — ends normally in a state the machine gets to,
or with one of the listed causes in such a state (or the thread's waiting time cannot be counted down,
or the bound the model puts on unbounded loops is reached). -/
theorem C56_sessions_partial {L : Layout} {opt : Bool} {p : Prog Unit} {q : Prog Ref} {prog : Program}
    {names : List (Str × HostFn)} {own : List (Str × Int × HostFn)}
    (fl : FloatOps) (hc : Compiles L opt p q prog) (hi : ∀ x ∈ p, x.declName ≠ initName) (hl : Fits q prog)
    (hp : plainP q) (hd : IsDriver names own) (hr : StandardHost p own) (io : Io) (ops : List HostOp)
    (ho : AsksOk (Env.std (resolveWith names prog) fl Mem.abs) (newVm io) ops) :
    match (session (Env.std (resolveWith names prog) fl Mem.abs) (newVm io) ops).2 with
    | .ok v => Arises (Env.std (resolveWith names prog) fl Mem.abs) v
    | .error f => Ends (Env.std (resolveWith names prog) fl Mem.abs) f := by
  obtain ⟨K, -, -, M, L, -, HS⟩ := placed fl hc hi hl hp hd hr
  rcases tame_session M L HS ops .new ho with ⟨v, h1, h2⟩ | ⟨f, h1, h2⟩
  · have h1 : (session (Env.std (resolveWith names prog) fl Mem.abs) (newVm io) ops).2 = _ := h1
    rw [h1]; exact h2
  · have h1 : (session (Env.std (resolveWith names prog) fl Mem.abs) (newVm io) ops).2 = _ := h1
    rw [h1]; exact h2

/-- C56: a thread that stops with an error stops with one of the errors a program can have: never
with a bad opcode, a stack underflow, a bad host function or a bad number of values to pop. -/
theorem C56_errors_partial {L : Layout} {opt : Bool} {p : Prog Unit} {q : Prog Ref} {prog : Program}
    {names : List (Str × HostFn)} {own : List (Str × Int × HostFn)}
    (fl : FloatOps) (hc : Compiles L opt p q prog) (hi : ∀ x ∈ p, x.declName ≠ initName) (hl : Fits q prog)
    (hp : plainP q) (hd : IsDriver names own) (hr : StandardHost p own) (v : VmState Val Store)
    (h : Arises (Env.std (resolveWith names prog) fl Mem.abs) v) (t : Thread Val) (ht : t ∈ v.threads) :
    t.error = .success ∨ t.error ∈ [.bad_num_args, .bad_get_global, .bad_set_global, .bad_divide_by_zero,
      .bad_array_bounds, .bad_array_index, .bad_array_object, .bad_type_operation, .bad_argument,
      .bad_member_access, .bad_getv, .bad_setv] := by
  obtain ⟨K, -, -, M, L, -, HS⟩ := placed fl hc hi hl hp hd hr
  rcases (reach_ok M L HS h).after t ht with ⟨-, -, h2⟩ | ⟨-, h2, -⟩
  · by_cases he : t.error = .success
    · exact .inl he
    · have := h2 he
      refine .inr ?_
      cases k : t.error <;> simp_all [TErr.usual]
  · exact .inl h2

/-- C56: a thread that goes on is about to execute the first byte of an instruction of a function of
the program, and its frame starts inside its stack with the arguments below it. -/
theorem C56_position_partial {L : Layout} {opt : Bool} {p : Prog Unit} {q : Prog Ref} {prog : Program}
    {names : List (Str × HostFn)} {own : List (Str × Int × HostFn)}
    (fl : FloatOps) (hc : Compiles L opt p q prog) (hi : ∀ x ∈ p, x.declName ≠ initName) (hl : Fits q prog)
    (hp : plainP q) (hd : IsDriver names own) (hr : StandardHost p own) (v : VmState Val Store)
    (h : Arises (Env.std (resolveWith names prog) fl Mem.abs) v) (t : Thread Val) (ht : t ∈ v.threads)
    (hf : t.finished = false) :
    ∃ fr outer F, t.frames = fr :: outer ∧ F ∈ prog.functions ∧
      F.numArgs ≤ fr.sp ∧ fr.sp ≤ t.stack.length ∧
      ∃ fa pre x post, bytesOf fa (pre ++ x :: post) <+: prog.code.drop F.codeStart.toNat ∧
        t.pc = (F.codeStart.toNat + widthOf pre : Nat) := by
  obtain ⟨K, -, -, M, L, D, HS⟩ := placed fl hc hi hl hp hd hr
  rcases (reach_ok M L HS h).after t ht with ⟨k, -⟩ | ⟨-, -, -, k⟩
  · rw [hf] at k; cases k
  · cases hfr : t.frames with
    | nil => rw [hfr] at k; exact k.elim
    | cons fr outer =>
      rw [hfr] at k
      obtain ⟨F, hF, pre, x, post, k1, k2, k3, k4, -⟩ := k
      obtain ⟨P, hP1, hs, hn⟩ := D.own F hF
      have h1 := (L.ok F hF).code.le
      have h2 := M.small
      obtain ⟨b, r, h3, h4⟩ := (L.ok F hF).code
      have h3 : prog.code = b ++ (bytesOf K.fa F.asm ++ r) := h3
      refine ⟨fr, outer, P, rfl, hP1, by omega, by omega, K.fa, pre, x, post, ?_, ?_⟩
      · rw [hs, toNat_i32 (by omega), h3, ← h4, List.drop_left, ← k1]
        exact List.prefix_append ..
      · rw [hs, toNat_i32 (by omega)]
        omega

/-- C56 on the machine with the collected heap: whatever the host asks for ends normally, or memory or
native stack runs out, or the abnormal end has one of the listed causes. -/
theorem C56_heap_partial {L : Layout} {opt : Bool} {p : Prog Unit} {q : Prog Ref} {prog : Program}
    {names : List (Str × HostFn)} {own : List (Str × Int × HostFn)}
    (fl : FloatOps) (depth : Nat) (should : Heap → Bool) (hc : Compiles L opt p q prog)
    (hi : ∀ x ∈ p, x.declName ≠ initName) (hl : Fits q prog) (hp : plainP q) (hd : IsDriver names own) (hr : StandardHost p own)
    (hs : CleanProgram prog) (io : Io) (ops ops' : List HostOp) (hops : SameCalls ops ops')
    (hcl : ∀ op ∈ ops, CleanCall op)
    (ho : AsksOk (Env.std (resolveWith names prog) fl Mem.abs) (newVm io) ops') (f : Fault)
    (h : (session (Env.std (resolveWith names prog) fl (Mem.gc depth should)) (newHeapVm io) ops).2 = .error f) :
    f = .oom ∨ f = .diverge ∨ Ends (Env.std (resolveWith names prog) fl Mem.abs) f := by
  have h1 := C45_collections_unobservable (io := io) (resolveWith names prog) fl depth should hs ops ops' hops hcl
  have h2 := C56_sessions_partial fl hc hi hl hp hd hr io ops' ho
  dsimp only at h1
  rw [h] at h1
  rcases h1 with ⟨-, h1⟩ | ⟨h1 | h1, -⟩
  · rw [h1] at h2; exact .inr (.inr h2)
  · exact .inl h1
  · exact .inr (.inl h1)

/-! ### Violations -/

/-- `function main(a, b) return a not b end` -/
def notTree : Prog Unit :=
  [.func { name := nm "main", args := [nm "a", nm "b"],
           body := [.ret (tk .RETURN "return") (some (.bin (tk .NOT "not") (ix "a") (ix "b")))],
           stop := tk .END "end" }]

/-- Running to the end of the expression of `notTree`. -/
def notCheck : Bool :=
  match (treeOf notTree)[0]?, (codeOf notTree).functions with
  | some (Item.func f), P :: _ =>
    match f.body with
    | [.ret _ (some ex)] =>
      match asmE (funcCtx (treeOf notTree) f) (codeOf notTree).syscalls 0 ex,
          runN (envOf notTree) 3 (called P [.int 1, .int 2]) with
      | .ok c, some s =>
        decide (P.numArgs = 2) && (decide (s.th.pc = P.codeStart.toInt + widthOf c) &&
        (decide (s.th.stack.length = (called P [.int 1, .int 2]).th.stack.length + 2) &&
        (!s.th.finished && decide (s.th.frames = (called P [.int 1, .int 2]).th.frames))))
      | _, _ => false
    | _ => false
  | _, _ => false

/-- C25 is violated by `a not b`, which the parser accepts: a thread in `return a not b` is at the first
instruction of the expression with some height and three instructions later, in the same frame, at the
instruction behind it, with two more values. -/
theorem C25_violated : Compiles sampleLayout true notTree (treeOf notTree) (codeOf notTree) ∧
    ∃ (f : FuncDecl Ref) (P : Function) (t : Token) (ex : Expr Ref) (c : Asm) (s1 s2 : St Val Store),
      Item.func f ∈ treeOf notTree ∧ P ∈ (codeOf notTree).functions ∧ f.body = [.ret t (some ex)] ∧
      asmE (funcCtx (treeOf notTree) f) (codeOf notTree).syscalls 0 ex = .ok c ∧
      Arises (envOf notTree) s1.whole ∧ Arises (envOf notTree) s2.whole ∧
      runN (envOf notTree) 3 s1 = some s2 ∧ s2.th.finished = false ∧
      s1.th.pc = P.codeStart.toInt ∧ s2.th.pc = s1.th.pc + widthOf c ∧ s2.th.frames = s1.th.frames ∧
      s2.th.stack.length = s1.th.stack.length + 2 := by
  refine ⟨(compiled (by decide +kernel)).1, ?_⟩
  have h : notCheck = true := by decide +kernel
  unfold notCheck at h
  split at h
  · rename_i f P ps hf hP
    split at h
    · rename_i t ex hb
      split at h
      · rename_i c s hc hs
        simp only [Bool.and_eq_true, decide_eq_true_eq, Bool.not_eq_true'] at h
        obtain ⟨h1, h2, h3, h4, h5⟩ := h
        have hPm : P ∈ (codeOf notTree).functions := by rw [hP]; exact List.mem_cons_self ..
        have hr := called_reach (e := envOf notTree) rfl (f := P) hPm (args := [.int 1, .int 2]) h1
          (by intro x hx; simp at hx; rcases hx with rfl | rfl <;> trivial)
        exact ⟨f, P, t, ex, c, _, s, List.mem_of_getElem? hf, hPm, hb, hc, hr, runN_reach hr hs, hs, h4, rfl, h2,
          h5, h3⟩
      · cases h
    · cases h
  · cases h

/-- `min`, called through a variable without arguments:
`function g(f) return f() end  function main() return g(min) end` -/
def minTree : Prog Unit :=
  [.syscall (str "min") (some 2),
   .func { name := nm "g", args := [nm "f"],
           body := [.ret (tk .RETURN "return") (some (.call (nm "f") (ix "f") []))], stop := tk .END "end" },
   .func { name := nm "main", args := [],
           body := [.ret (tk .RETURN "return") (some (.call (nm "g") (ix "g") [ix "min"]))],
           stop := tk .END "end" }]

/-- Running `main` up to the call of `f`. -/
def minCheck : Bool :=
  match (codeOf minTree).functions with
  | _ :: P :: _ =>
    match runN (envOf minTree) 3 (called P []) with
    | some s =>
      decide (P.numArgs = 0) && (!s.th.finished &&
      ((match stepImp (envOf minTree) s with | .error .assert => true | _ => false) &&
      (decide ((envOf minTree).prog.code[s.th.pc.toNat]? = some Op.ICALL.code) &&
      ((match s.th.stack with | .syscall _ :: _ => true | _ => false) &&
      decide ((envOf minTree).prog.syscalls.map Syscall.name = [str "min"])))))
    | none => false
  | _ => false

/-- C56 is violated by a host function used as a value: the machine does not check the number of
arguments when it is called, so `min` takes its arguments from the frame of the caller and then from
an empty stack — in a state the machine gets to, and for none of the listed causes. -/
theorem C56_violated : Compiles sampleLayout true minTree (treeOf minTree) (codeOf minTree) ∧
    StandardHost minTree ∧
    ∃ s : St Val Store, Arises (envOf minTree) s.whole ∧ s.th.finished = false ∧
      stepImp (envOf minTree) s = .error .assert ∧ ∀ f, ¬ Cause (envOf minTree) s f := by
  refine ⟨(compiled (by decide +kernel)).1, ?_, ?_⟩
  · intro n a h
    simp only [minTree, List.mem_cons, reduceCtorEq, Item.syscall.injEq, List.not_mem_nil, or_false] at h
    obtain ⟨rfl, rfl⟩ := h
    decide
  have h : minCheck = true := by decide +kernel
  unfold minCheck at h
  split at h
  · rename_i P0 P ps hP
    split at h
    · rename_i s hs
      simp only [Bool.and_eq_true, decide_eq_true_eq, Bool.not_eq_true'] at h
      obtain ⟨h1, h2, h3, h4, h5, h6⟩ := h
      have hr := called_reach (e := envOf minTree) rfl (f := P)
        (show P ∈ (codeOf minTree).functions by rw [hP]; simp) (args := []) h1 (fun _ h => (by cases h))
      refine ⟨s, runN_reach hr hs, h2, ?_, ?_⟩
      · split at h3
        · assumption
        · cases h3
      · have op : ∀ o, OpAt (envOf minTree) s o → o = .ICALL := by
          intro o ho
          unfold OpAt at ho
          rw [h4] at ho
          have : Op.ICALL.code = o.code := by simpa using ho
          revert this
          cases o <;> decide
        intro f hf
        cases hf with
        | overflow k1 k2 => rw [k2] at h5; cases h5
        | negate k1 k2 => rw [k2] at h5; cases h5
        | text k1 => cases op _ k1
        | callNone k1 k2 => rw [k2] at h5; cases h5
        | @host j y args rest _ k1 k2 k3 k4 =>
          have hy : y.name = str "min" := by
            have : y.name ∈ (envOf minTree).prog.syscalls.map Syscall.name :=
              List.mem_map_of_mem (List.mem_of_getElem? k1)
            rw [h6] at this
            simpa using this
          rw [hy] at k4
          generalize hm : str "min" = n at k4
          cases k4 with
          | @graphics fn => revert hm; cases fn <;> decide
          | _ => revert hm; decide
    · cases h
  · cases h

/-- `function main() if (0) var x = 1 else return x end end` -/
def lostTree : Prog Unit :=
  [.func { name := nm "main", args := [],
           body := [.ifS (tk .IF "if") (lit 0) [.var (nm "x") () (some (lit 1))] true
             [.ret (tk .RETURN "return") (some (ix "x"))]],
           stop := tk .END "end" }]

/-- Running `main` of `lostTree` up to its error. -/
def lostCheck : Bool :=
  match (codeOf lostTree).functions with
  | P :: _ =>
    match runN (envOf lostTree) 3 (called P []) with
    | some s => decide (P.numArgs = 0) && decide (s.th.error = .bad_getv)
    | none => false
  | _ => false

/-- The errors `bad_getv` and `bad_setv` cannot be left out of `C56_errors_partial`: the branches of an
`if` share one scope and the optimiser removes the branch with the declaration, so the variable has no
slot any more. -/
theorem C56_lost_slot : Compiles sampleLayout true lostTree (treeOf lostTree) (codeOf lostTree) ∧
    plainP (treeOf lostTree) ∧
    ∃ s : St Val Store, Arises (envOf lostTree) s.whole ∧ s.th.error = .bad_getv := by
  refine ⟨(compiled (by decide +kernel)).1, plainPB_ok (by decide +kernel), ?_⟩
  have h : lostCheck = true := by decide +kernel
  unfold lostCheck at h
  split at h
  · rename_i P ps hP
    split at h
    · rename_i s hs
      simp only [Bool.and_eq_true, decide_eq_true_eq] at h
      have hr := called_reach (e := envOf lostTree) rfl (f := P)
        (show P ∈ (codeOf lostTree).functions by rw [hP]; simp) (args := []) h.1 (fun _ h => (by cases h))
      exact ⟨s, runN_reach hr hs, h.2⟩
    · cases h
  · cases h

/-! ### The hypotheses are met -/

theorem sample_plain : plainP sampleQ := plainPB_ok (by decide +kernel)

theorem sample_host : StandardHost sampleTree := by
  intro n a h
  simp only [sampleTree, List.mem_cons, reduceCtorEq, Item.syscall.injEq, List.not_mem_nil, or_false] at h
  obtain ⟨rfl, rfl⟩ := h
  decide

/-- The sample program is balanced (C25). -/
example := C25_balanced_partial toyFl sample_compiles sample_names sample_fits sample_plain .cmd sample_host

/-- Every state of a run of `main` of the sample program is one of those the theorems speak of, and the
run is not over after 10 instructions. -/
def sampleCheck : Bool :=
  match (sampleEnv).prog.findByName (str "main") with
  | some P =>
    match runN sampleEnv 10 (called P [.int 3]) with
    | some s => decide (P.numArgs = 1) && !s.th.finished
    | none => false
  | none => false

example : ∃ s : St Val Store, Arises sampleEnv s.whole ∧ s.th.finished = false ∧
    ((∃ s', stepImp sampleEnv s = .ok ((), s') ∧ Arises sampleEnv s'.whole) ∨
      ∃ f, stepImp sampleEnv s = .error f ∧ Cause sampleEnv s f) := by
  have h : sampleCheck = true := by decide +kernel
  unfold sampleCheck at h
  split at h
  · rename_i P hP
    split at h
    · rename_i s hs
      simp only [Bool.and_eq_true, decide_eq_true_eq, Bool.not_eq_true'] at h
      have hr : Arises sampleEnv s.whole := runN_reach (called_reach (args := [.int 3]) rfl
        (List.mem_of_find?_eq_some hP) h.1 (by intro x hx; simp at hx; subst hx; trivial)) hs
      exact ⟨s, hr, h.2,
        C56_steps_partial toyFl sample_compiles sample_names sample_fits sample_plain .cmd sample_host s hr h.2⟩
    · cases h
  · cases h

/-- The host initialises the program and goes on twice. -/
example := C56_sessions_partial toyFl sample_compiles sample_names sample_fits sample_plain .cmd sample_host
  Io.fresh [.init, .resume 100, .resume 100]
  ⟨trivial, fun _ _ _ => ⟨(by decide : (0 : Int) ≤ _), fun _ _ _ => ⟨(by decide : (0 : Int) ≤ _), fun _ _ _ => trivial⟩⟩⟩

end Ccml.Props
