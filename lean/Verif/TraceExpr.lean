import Verif.Trace
/-!
The code of expressions follows the evaluator (proof infrastructure).
-/
set_option linter.unusedSimpArgs false
namespace Ccml
open Sem (State Res Vars CallF evalE evalEs)

/-- The functions of the program are where the machine looks for them. -/
structure Linked (e : Env Val Store) (cx : Sem.Ctx) (fa : Str → I32) (sys : List Syscall) : Prop where
  mach : Mach e cx
  sys : ∀ n, sysIndex sys n = cx.hostIndex n
  tableSmall : cx.table.length < 2147483648
  slots : cx.slot cx.prog.length < 2147483648
  strs : e.prog.strings.length < 2147483648
  funs : ∀ i f, cx.prog[i]? = some (.func f) → fa f.name.str = cx.funAddr i ∧
    0 ≤ (cx.funAddr i).toInt ∧ cx.funAt (cx.funAddr i) = some i ∧
    ∃ F, e.prog.findByPc (cx.funAddr i) = some F ∧ F.numArgs = f.args.length

/-- Calls of script functions behave as `callF` says; a timeout means at least `N` instructions. -/
def CallOk (e : Env Val Store) (cx : Sem.Ctx) (N : Nat) (callF : CallF) : Prop :=
  ∀ i f args below s fr outer w, cx.prog[i]? = some (.func f) → args.length = f.args.length →
    At s (cx.funAddr i).toInt.toNat (args.reverse ++ below) (fr :: outer) w →
    fr.sp = args.length + below.length →
    Follows e N s (Returned fr outer below) (callF i args w)

/-- Assigned variables are found on the stack. -/
def Vis (g : GenCtx) (ρ : Vars) (fr : Frame) (stk : List Val) : Prop :=
  ∀ r v a b o, ρ r = .val v → (∀ i, r ≠ .item i) → varPlace g r = .ok (a, b, o) →
    stackAt stk (fr.sp + o.toInt) = some v

theorem stackAt_push {stk : List Val} {i : Int} {v x : Val} (h : stackAt stk i = some v) :
    stackAt (x :: stk) i = some v := by
  unfold stackAt at h ⊢
  split at h
  · rename_i hi
    rw [if_pos hi, List.reverse_cons, List.getElem?_append_left (List.getElem?_eq_some_iff.1 h).1]
    exact h
  · cases h

theorem Vis.push {g : GenCtx} {ρ : Vars} {fr : Frame} {stk : List Val} {x : Val}
    (h : Vis g ρ fr stk) : Vis g ρ fr (x :: stk) :=
  fun r v a b o h1 h2 h3 => stackAt_push (h r v a b o h1 h2 h3)

/-! ### Sizes -/

theorem asmInvoke_size {g : GenCtx} {sys : List Syscall} (t : Token) (c : Expr Ref) (n : Nat)
    (callee : Out Asm) (asm : Asm)
    (hc : ∀ b, callee = .ok b → (strsE c).length + 1 ≤ widthOf b)
    (h : asmInvoke g sys t c n callee = .ok asm) : (strsE c).length + 1 ≤ widthOf asm := by
  have hind : (do let a ← callee; .ok (a ++ one (.i1 .ICALL (i32 n)) (some t)) : Out Asm) = .ok asm →
      (strsE c).length + 1 ≤ widthOf asm := by
    intro h
    obtain ⟨a, h1, h⟩ := bind_ok.1 h
    cases h
    have := hc a h1
    simp only [widthOf_append]; omega
  unfold asmInvoke at h
  dsimp only at h
  split at h
  · split at h
    · split at h
      · cases h; simp [strsE, widthOf, AIns.width]
      · cases h
    · split at h
      · split at h
        · cases h; simp [strsE, one, widthOf, AIns.width, Ins.width]
        · cases h
      · cases h
    · exact hind h
  · exact hind h

mutual

theorem asmE_size {g : GenCtx} {sys : List Syscall} : ∀ (ex : Expr Ref) (si : Nat) (asm : Asm),
    asmE g sys si ex = .ok asm → (strsE ex).length + 1 ≤ widthOf asm
  | .ident t r, si, asm, h => by
    have hget : ∀ asm, asmGet g r (some t) = .ok asm → 1 ≤ widthOf asm := by
      intro asm h
      obtain ⟨x, -, h⟩ := bind_ok.1 h
      cases h
      simp [one, widthOf, AIns.width, Ins.width]
    simp only [strsE, List.length_nil, Nat.zero_add]
    simp only [asmE, asmIdent] at h
    split at h
    · split at h
      · cases h; simp [widthOf, AIns.width]
      · split at h
        · cases h; simp [one, widthOf, AIns.width, Ins.width]
        · cases h
      · exact hget _ h
    · exact hget _ h
  | .int v t c, si, asm, h => by cases h; simp [strsE, one, widthOf, AIns.width, Ins.width]
  | .float v t, si, asm, h => by cases h; simp [strsE, one, widthOf, AIns.width, Ins.width]
  | .str s t, si, asm, h => by cases h; simp [strsE, one, widthOf, AIns.width, Ins.width]
  | .none t, si, asm, h => by cases h; simp [strsE, one, widthOf, AIns.width, Ins.width]
  | .member t m r, si, asm, h => by
    obtain ⟨a, -, h⟩ := bind_ok.1 h
    cases h
    simp [strsE, widthOf_append, one, widthOf, AIns.width, Ins.width]
  | .arr t es, si, asm, h => by
    obtain ⟨a, h1, h⟩ := bind_ok.1 h
    split at h
    · cases h
    · cases h
      have := asmEs_size es si a h1
      simp only [strsE, widthOf_append, one, widthOf, AIns.width, Ins.width]; omega
  | .deref t l i, si, asm, h => by
    obtain ⟨a, h1, h⟩ := bind_ok.1 h
    obtain ⟨b, h2, h⟩ := bind_ok.1 h
    cases h
    have := asmE_size i _ a h1
    have := asmE_size l _ b h2
    simp only [strsE, widthOf_append, one, widthOf, AIns.width, Ins.width, List.length_append]; omega
  | .call t c as, si, asm, h => by
    obtain ⟨a, h1, h⟩ := bind_ok.1 h
    obtain ⟨b, h2, h⟩ := bind_ok.1 h
    cases h
    have := asmEs_size as _ a h1
    have := asmInvoke_size t c as.length _ b (fun b hb => asmE_size c _ b hb) h2
    simp only [strsE, widthOf_append, List.length_append]; omega
  | .bin op l r, si, asm, h => by
    obtain ⟨a, h1, h⟩ := bind_ok.1 h
    obtain ⟨b, h2, h⟩ := bind_ok.1 h
    obtain ⟨o, -, h⟩ := bind_ok.1 h
    cases h
    have := asmE_size l _ a h1
    have := asmE_size r _ b h2
    simp only [strsE, widthOf_append, one, widthOf, AIns.width, Ins.width, List.length_append]; omega
  | .un op x, si, asm, h => by
    obtain ⟨a, h1, h⟩ := bind_ok.1 h
    have := asmE_size x _ a h1
    split at h <;> cases h <;> simp only [strsE, widthOf_append] <;> omega

theorem asmEs_size {g : GenCtx} {sys : List Syscall} : ∀ (es : List (Expr Ref)) (si : Nat) (asm : Asm),
    asmEs g sys si es = .ok asm → (strsEs es).length + es.length ≤ widthOf asm
  | [], si, asm, h => by cases h; simp [strsEs, widthOf]
  | ex :: es, si, asm, h => by
    obtain ⟨a, h1, h⟩ := bind_ok.1 h
    obtain ⟨b, h2, h⟩ := bind_ok.1 h
    cases h
    have := asmE_size ex _ a h1
    have := asmEs_size es _ b h2
    simp only [strsEs, widthOf_append, List.length_append, List.length_cons]; omega

end

/-! ### Names -/

theorem slot_eq (cx : Sem.Ctx) (i : Nat) : (cx.prog.take i).countP Item.isSlot = cx.slot i := by
  unfold Sem.Ctx.slot
  rw [List.countP_eq_length_filter]
  congr 2
  funext x
  cases x with
  | var t c x => cases c <;> rfl
  | _ => rfl

theorem slot_le (cx : Sem.Ctx) (i : Nat) : cx.slot i ≤ cx.slot cx.prog.length := by
  rw [← slot_eq, ← slot_eq, List.take_length]
  exact (List.take_sublist i _).countP_le

section
variable {e : Env Val Store} {cx : Sem.Ctx} {fa : Str → I32} {sys : List Syscall} {g : GenCtx}
  {s : St Val Store} {pc n : Nat} {stk : List Val} {fr : Frame} {outer : List Frame} {w : State}
  {ρ : Vars} {callF : CallF} {l : Asm}

theorem follow_get (L : Linked e cx fa sys) (hp : g.prog = cx.prog) {r : Ref} {t : Option Token}
    {asm : Asm} (ha : asmGet g r t = .ok asm) (hc : CodeAt e fa pc asm)
    (h : At s pc stk (fr :: outer) w) (hv : Vis g ρ fr stk) :
    widthOf asm = 5 ∧ Follows e n s (Pushed (pc + 5) stk (fr :: outer)) (cx.get ρ r w) := by
  obtain ⟨⟨a, b, o⟩, h1, h2⟩ := bind_ok.1 ha
  cases h2
  refine ⟨rfl, ?_⟩
  have loc : (∀ i, r ≠ .item i) → a = .GETV → Follows e n s (Pushed (pc + 5) stk (fr :: outer))
      (match ρ r with | .val v => .ok v w | _ => .undef) := by
    rintro hr rfl
    cases hx : ρ r with
    | val v => exact Follows.of (run_getv L.mach hc h (hv r v _ _ _ hx hr h1))
    | _ => trivial
  cases r with
  | item i =>
    simp only [varPlace, hp] at h1
    unfold Sem.Ctx.get
    simp only
    split at h1
    · rename_i hi
      simp only [hi, Sem.Ctx.ident]
      obtain ⟨rfl, rfl, rfl⟩ : _ ∧ _ ∧ _ := by simpa using h1
      have hg : globalOffset cx.prog i = cx.slot i := by
        simp only [globalOffset, hi, slot_eq]
      rw [← hg]
      refine run_getg L.mach ?_ hc h
      have := slot_le cx i
      have := L.slots
      omega
    · cases h1
  | arg i =>
    have := loc (by simp) (by cases h1; rfl)
    exact this
  | loc k =>
    have := loc (by simp) (by cases h1; rfl)
    exact this

theorem ident_get {r : Ref} (h : ∀ i, r = .item i → ∃ t x, cx.prog[i]? = some (.var t false x)) :
    cx.ident ρ r w = cx.get ρ r w := by
  cases r with
  | item i =>
    obtain ⟨t, x, hi⟩ := h i rfl
    simp only [Sem.Ctx.get, hi]
  | _ => rfl

theorem hostIndex_lt {nm : Str} {j : Nat} (h : cx.hostIndex nm = some j) : j < cx.table.length := by
  unfold Sem.Ctx.hostIndex at h
  exact (List.findIdx?_eq_some_iff_findIdx_eq.1 h).1

theorem follow_ident (L : Linked e cx fa sys) (hp : g.prog = cx.prog) {r : Ref} {t : Token}
    {asm : Asm} (ha : asmIdent g sys t r = .ok asm) (hc : CodeAt e fa pc asm)
    (h : At s pc stk (fr :: outer) w) (hv : Vis g ρ fr stk) :
    Follows e n s (Pushed (pc + widthOf asm) stk (fr :: outer)) (cx.ident ρ r w) := by
  have get : asmGet g r (some t) = .ok asm → Follows e n s (Pushed (pc + widthOf asm) stk (fr :: outer))
      (cx.ident ρ r w) := by
    intro ha
    obtain ⟨h1, h2⟩ := follow_get (n := n) L hp ha hc h hv
    rw [h1]
    rw [ident_get]
    · exact h2
    · rintro i rfl
      obtain ⟨x, hx, -⟩ := bind_ok.1 ha
      simp only [varPlace, hp] at hx
      split at hx
      · exact ⟨_, _, by assumption⟩
      · cases hx
  unfold asmIdent at ha
  split at ha
  · rename_i i
    rw [hp] at ha
    split at ha
    · rename_i f hi
      cases ha
      obtain ⟨h1, h2, -⟩ := L.funs i f hi
      simp only [Sem.Ctx.ident, hi]
      rw [← h1]
      exact Follows.of (run_func L.mach hc (by rw [h1]; exact h2) h)
    · rename_i nm a hi
      rw [L.sys] at ha
      split at ha
      · rename_i j hj
        cases ha
        simp only [Sem.Ctx.ident, hi, hj]
        have := hostIndex_lt hj
        have := L.tableSmall
        exact Follows.of (run_syscall L.mach hc (by show 0 ≤ (i32 j).toInt; rw [toInt_i32 (by omega)]; omega) h)
      · cases ha
    · exact get ha
  · exact get ha

/-! ### Calls -/

theorem Returned.at {fr' : Frame} {below : List Val} {v : Val} {q : Nat}
    (h : Returned fr' (fr :: outer) below v w s) (hq : fr'.ret = q) (ht : fr'.terminal = false) :
    At s q (v :: below) (fr :: outer) w :=
  ⟨h.pc.trans hq, h.stack, h.frames, h.state, by rw [h.finished, ht]; rfl, h.error⟩

/-- The value of the callee is on top of the arguments. -/
theorem follow_apply (L : Linked e cx fa sys) {N : Nat} (hC : CallOk e cx N callF) {v : Val}
    {args : List Val} {t : Option Token} (hn : args.length < 2147483648)
    (hc : CodeAt e fa pc ((.ins (.i1 .ICALL (i32 args.length)), t) :: l))
    (h : At s pc (v :: (args.reverse ++ stk)) (fr :: outer) w) :
    Follows e (N + 1) s (Pushed (pc + 5) stk (fr :: outer)) (cx.apply callF v args w) := by
  cases v with
  | func a =>
    unfold Sem.Ctx.apply
    simp only
    cases ha : cx.funAt a with
    | none => trivial
    | some i =>
      simp only
      cases hi : cx.prog[i]? with
      | none => trivial
      | some x =>
        cases x with
        | func f =>
          simp only
          have hfind := List.find?_some ha
          simp only [hi, beq_iff_eq] at hfind
          subst hfind
          obtain ⟨h1, h2, h3, F, hF, hFn⟩ := L.funs i f hi
          by_cases hl : f.args.length = args.length
          · rw [if_pos hl]
            obtain ⟨s1, k1, k2⟩ := run_icall (q := (cx.funAddr i).toInt.toNat) L.mach hn (by omega) hF
              (by omega) hc h
            refine Follows.preSucc k1 ((hC i f args stk s1 _ _ w hi hl.symm k2 (by simp)).imp ?_)
            intro v w' s' hr
            exact hr.at rfl rfl
          · rw [if_neg hl]
            exact ⟨1, run_icall_bad L.mach hn hF (by omega) hc h⟩
        | _ => trivial
  | syscall j => exact run_icall_sys L.mach hn hc h
  | none => exact run_icall_none L.mach (fun _ _ _ h => At.bump h) hc h
  | int x =>
    exact run_icall_other (n := N + 1) (good := Pushed (pc + 5) stk (fr :: outer)) L.mach
      (fun _ _ _ h => At.bump h) hc h (by simp) (by simp) (by simp)
  | float x =>
    exact run_icall_other (n := N + 1) (good := Pushed (pc + 5) stk (fr :: outer)) L.mach
      (fun _ _ _ h => At.bump h) hc h (by simp) (by simp) (by simp)
  | str x =>
    exact run_icall_other (n := N + 1) (good := Pushed (pc + 5) stk (fr :: outer)) L.mach
      (fun _ _ _ h => At.bump h) hc h (by simp) (by simp) (by simp)
  | arr x =>
    exact run_icall_other (n := N + 1) (good := Pushed (pc + 5) stk (fr :: outer)) L.mach
      (fun _ _ _ h => At.bump h) hc h (by simp) (by simp) (by simp)

theorem ident_func {nm : Token} {i : Nat} {f : FuncDecl Ref} (hi : cx.prog[i]? = some (.func f)) :
    evalE cx callF ρ (.ident nm (.item i)) w = .ok (.func (cx.funAddr i)) w := by
  rw [evalE]
  unfold Sem.Ctx.ident
  simp only [hi]

theorem apply_func {a : I32} {i : Nat} {f : FuncDecl Ref} {args : List Val} (ha : cx.funAt a = some i)
    (hi : cx.prog[i]? = some (.func f)) : cx.apply callF (.func a) args w =
      if f.args.length = args.length then callF i args w else .err .bad_num_args w := by
  unfold Sem.Ctx.apply
  simp only [ha, hi]

/-- What follows the arguments. -/
theorem follow_invoke (L : Linked e cx fa sys) (hp : g.prog = cx.prog) {N : Nat}
    (hC : CallOk e cx N callF) {c : Expr Ref} {t : Token} {callee : Out Asm} {asm : Asm}
    {args : List Val} (hn : args.length < 2147483648)
    (ha : asmInvoke g sys t c args.length callee = .ok asm) (hc : CodeAt e fa pc asm)
    (h : At s pc (args.reverse ++ stk) (fr :: outer) w)
    (hE : ∀ a, callee = .ok a → CodeAt e fa pc a → Follows e (N + 1) s
      (Pushed (pc + widthOf a) (args.reverse ++ stk) (fr :: outer)) (evalE cx callF ρ c w)) :
    Follows e (N + 1) s (Pushed (pc + widthOf asm) stk (fr :: outer))
      ((evalE cx callF ρ c w).bind fun v w => cx.apply callF v args w) := by
  have ind : (do let a ← callee; .ok (a ++ one (.i1 .ICALL (i32 args.length)) (some t)) : Out Asm) =
      .ok asm → Follows e (N + 1) s (Pushed (pc + widthOf asm) stk (fr :: outer))
      ((evalE cx callF ρ c w).bind fun v w => cx.apply callF v args w) := by
    intro ha
    obtain ⟨a, h1, h2⟩ := bind_ok.1 ha
    cases h2
    obtain ⟨c1, c2⟩ := hc.append
    refine (hE a h1 c1).bind ?_
    intro v w' s' hv
    rw [widthOf_append]
    exact follow_apply L hC hn c2 hv
  unfold asmInvoke at ha
  dsimp only at ha
  split at ha
  · rename_i name i
    rw [hp] at ha
    split at ha
    · rename_i f hi
      split at ha
      · rename_i hl
        have hw : widthOf asm = 9 := by cases ha; rfl
        rw [hw]
        simp only [Except.ok.injEq] at ha
        subst ha
        obtain ⟨h1, h2, h3, -⟩ := L.funs i f hi
        rw [ident_func (f := f) hi, Res.bind, apply_func h3 hi, if_pos hl]
        have hq : (fa f.name.str).toInt = ((cx.funAddr i).toInt.toNat : Nat) := by rw [h1]; omega
        obtain ⟨s1, k1, k2⟩ := run_call L.mach hq hc h
        refine Follows.preSucc k1 ((hC i f args stk s1 _ _ w hi hl.symm k2 (by simp)).imp ?_)
        intro v w' s' hr
        exact hr.at rfl rfl
      · cases ha
    · rename_i nm a hi
      split at ha
      · rw [L.sys] at ha
        split at ha
        · rename_i j hj
          cases ha
          simp only [evalE, Sem.Ctx.ident, hi, hj, Res.bind]
          exact run_scall L.mach hn hc h
        · cases ha
      · cases ha
    · exact ind ha
  · exact ind ha

/-! ### Expressions -/

theorem tokIns_opIns {tok : Tok} {o : Op} (h : tokIns tok = .ok o) :
    opIns tok = some o ∨ tok = .NOT := by
  cases tok <;> simp only [tokIns, Except.ok.injEq, reduceCtorEq] at h <;> subst h <;>
    first | exact .inl rfl | exact .inr rfl

theorem CodeAt.lt (L : Linked e cx fa sys) {a : Asm} (h : CodeAt e fa pc a) :
    pc + widthOf a < 2147483648 := by
  have := h.le
  have := L.mach.small
  omega

theorem StrAt.lt (L : Linked e cx fa sys) {si : Nat} {x : Str} {a : List Str} (h : StrAt e si (x :: a)) :
    si < 2147483648 := by
  have := (List.getElem?_eq_some_iff.1 h.get).1
  have := L.strs
  omega

end

mutual

theorem follow_expr {e : Env Val Store} {cx : Sem.Ctx} {fa : Str → I32} {sys : List Syscall}
    {g : GenCtx} {fr : Frame} {outer : List Frame} {ρ : Vars} {callF : CallF} {N : Nat}
    (L : Linked e cx fa sys) (hp : g.prog = cx.prog) (hC : CallOk e cx N callF) :
    ∀ (ex : Expr Ref) (si pc : Nat) (asm : Asm) (s : St Val Store) (stk : List Val) (w : State),
      asmE g sys si ex = .ok asm → CodeAt e fa pc asm → StrAt e si (strsE ex) →
      At s pc stk (fr :: outer) w → Vis g ρ fr stk →
      Follows e (N + 1) s (Pushed (pc + widthOf asm) stk (fr :: outer)) (evalE cx callF ρ ex w)
  | .ident t r, si, pc, asm, s, stk, w, ha, hc, hs, h, hv => follow_ident L hp ha hc h hv
  | .int v t c, si, pc, asm, s, stk, w, ha, hc, hs, h, hv => by
    cases ha; exact Follows.of (run_int L.mach hc h)
  | .float v t, si, pc, asm, s, stk, w, ha, hc, hs, h, hv => by
    cases ha; exact Follows.of (run_float L.mach hc h)
  | .str x t, si, pc, asm, s, stk, w, ha, hc, hs, h, hv => by
    cases ha; exact Follows.of (run_str L.mach hc (StrAt.lt L hs) hs.get h)
  | .none t, si, pc, asm, s, stk, w, ha, hc, hs, h, hv => by
    cases ha; exact Follows.of (run_none L.mach hc h)
  | .member t m r, si, pc, asm, s, stk, w, ha, hc, hs, h, hv => by
    obtain ⟨a, h1, h2⟩ := bind_ok.1 ha
    cases h2
    obtain ⟨c1, c2⟩ := hc.append
    obtain ⟨e1, e2⟩ := follow_get (n := N + 1) L hp h1 c1 h hv
    rw [e1] at c2
    rw [widthOf_append, e1]
    refine e2.bind ?_
    intro v w' s' hv'
    exact run_getm L.mach (StrAt.lt L hs) hs.get c2 hv'
  | .arr t es, si, pc, asm, s, stk, w, ha, hc, hs, h, hv => by
    obtain ⟨a, h1, h2⟩ := bind_ok.1 ha
    split at h2
    · cases h2
    · rename_i hne
      cases h2
      obtain ⟨c1, c2⟩ := hc.append
      refine (follow_exprs L hp hC es si pc a s stk w h1 c1 hs h hv).bind ?_
      rintro vs w' s' ⟨hl, hv'⟩
      have := asmEs_size es si a h1
      have := CodeAt.lt L c1
      rw [widthOf_append]
      rw [← hl] at c2
      exact Follows.of (run_array L.mach (by omega) (by rintro rfl; simp at hl; omega) c2 hv'.1)
  | .deref t l i, si, pc, asm, s, stk, w, ha, hc, hs, h, hv => by
    obtain ⟨a, h1, ha⟩ := bind_ok.1 ha
    obtain ⟨b, h2, ha⟩ := bind_ok.1 ha
    cases ha
    obtain ⟨c12, c3⟩ := hc.append
    obtain ⟨c1, c2⟩ := c12.append
    obtain ⟨s1, s2⟩ := StrAt.append hs
    refine (follow_expr L hp hC i si pc a s stk w h1 c1 s1 h hv).bind ?_
    intro i' w' s' h'
    refine (follow_expr L hp hC l _ _ b s' _ w' h2 c2 s2 h' hv.push).bind ?_
    intro a' w'' s'' h''
    rw [widthOf_append] at c3
    rw [widthOf_append, widthOf_append]
    have := run_deref (n := N + 1) L.mach c3 (by rw [Nat.add_assoc] at h''; exact h'')
    simpa [one, widthOf, AIns.width, Ins.width, Nat.add_assoc] using this
  | .call t c as, si, pc, asm, s, stk, w, ha, hc, hs, h, hv => by
    obtain ⟨a, h1, ha⟩ := bind_ok.1 ha
    obtain ⟨b, h2, ha⟩ := bind_ok.1 ha
    cases ha
    obtain ⟨c1, c2⟩ := hc.append
    obtain ⟨s1, s2⟩ := StrAt.append hs
    refine (follow_exprs L hp hC as si pc a s stk w h1 c1 s1 h hv).bind ?_
    rintro vs w' s' ⟨hl, hv', hvis⟩
    have := asmEs_size as si a h1
    have := CodeAt.lt L c1
    rw [← hl] at h2
    rw [widthOf_append, ← Nat.add_assoc]
    exact follow_invoke L hp hC (by omega) h2 c2 hv' fun x hx hcx =>
      follow_expr L hp hC c _ _ x s' _ w' hx hcx s2 hv' hvis
  | .bin op l r, si, pc, asm, s, stk, w, ha, hc, hs, h, hv => by
    obtain ⟨a, h1, ha⟩ := bind_ok.1 ha
    obtain ⟨b, h2, ha⟩ := bind_ok.1 ha
    obtain ⟨o, h3, ha⟩ := bind_ok.1 ha
    cases ha
    obtain ⟨c12, c3⟩ := hc.append
    obtain ⟨c1, c2⟩ := c12.append
    obtain ⟨s1, s2⟩ := StrAt.append hs
    refine (follow_expr L hp hC l si pc a s stk w h1 c1 s1 h hv).bind ?_
    intro i' w' s' h'
    refine (follow_expr L hp hC r _ _ b s' _ w' h2 c2 s2 h' hv.push).bind ?_
    intro a' w'' s'' h''
    rw [widthOf_append] at c3
    rw [widthOf_append, widthOf_append]
    rcases tokIns_opIns h3 with ho | ho
    · rw [if_neg (by rintro hh; rw [hh] at ho; cases ho)]
      have := run_binary (n := N + 1) L.mach ho c3 (by rw [Nat.add_assoc] at h''; exact h'')
      simpa [one, widthOf, AIns.width, Ins.width, Nat.add_assoc] using this
    · rw [if_pos ho]; trivial
  | .un op x, si, pc, asm, s, stk, w, ha, hc, hs, h, hv => by
    obtain ⟨a, h1, ha⟩ := bind_ok.1 ha
    by_cases h2 : op.type = .SUB
    · rw [h2] at ha
      cases ha
      obtain ⟨c1, c2⟩ := hc.append
      refine (follow_expr L hp hC x si pc a s stk w h1 c1 hs h hv).bind ?_
      intro v w' s' h'
      rw [if_pos (.inl h2), h2, widthOf_append]
      exact run_neg L.mach c2 h'
    · by_cases h3 : op.type = .NOT
      · rw [h3] at ha
        cases ha
        obtain ⟨c1, c2⟩ := hc.append
        refine (follow_expr L hp hC x si pc a s stk w h1 c1 hs h hv).bind ?_
        intro v w' s' h'
        rw [if_pos (.inr h3), h3, widthOf_append]
        exact run_not L.mach c2 h'
      · have : asm = a := by
          split at ha
          · contradiction
          · contradiction
          · cases ha; rfl
        subst this
        refine (follow_expr L hp hC x si pc asm s stk w h1 hc hs h hv).bind ?_
        intro v w' s' h'
        rw [if_neg (by rintro (hh | hh) <;> contradiction)]
        trivial

theorem follow_exprs {e : Env Val Store} {cx : Sem.Ctx} {fa : Str → I32} {sys : List Syscall}
    {g : GenCtx} {fr : Frame} {outer : List Frame} {ρ : Vars} {callF : CallF} {N : Nat}
    (L : Linked e cx fa sys) (hp : g.prog = cx.prog) (hC : CallOk e cx N callF) :
    ∀ (es : List (Expr Ref)) (si pc : Nat) (asm : Asm) (s : St Val Store) (stk : List Val) (w : State),
      asmEs g sys si es = .ok asm → CodeAt e fa pc asm → StrAt e si (strsEs es) →
      At s pc stk (fr :: outer) w → Vis g ρ fr stk →
      Follows e (N + 1) s (fun vs w' s' => vs.length = es.length ∧
        At s' (pc + widthOf asm) (vs.reverse ++ stk) (fr :: outer) w' ∧ Vis g ρ fr (vs.reverse ++ stk))
        (evalEs cx callF ρ es w)
  | [], si, pc, asm, s, stk, w, ha, hc, hs, h, hv => by
    cases ha; exact Follows.ret ⟨rfl, h, hv⟩
  | ex :: es, si, pc, asm, s, stk, w, ha, hc, hs, h, hv => by
    obtain ⟨a, h1, ha⟩ := bind_ok.1 ha
    obtain ⟨b, h2, ha⟩ := bind_ok.1 ha
    cases ha
    obtain ⟨c1, c2⟩ := hc.append
    obtain ⟨s1, s2⟩ := StrAt.append hs
    refine (follow_expr L hp hC ex si pc a s stk w h1 c1 s1 h hv).bind ?_
    intro v w' s' h'
    refine (follow_exprs L hp hC es _ _ b s' _ w' h2 c2 s2 h' hv.push).bind ?_
    rintro vs w'' s'' ⟨hl, h'', hv''⟩
    refine Follows.ret ⟨by simp [hl], ?_, ?_⟩
    · rw [widthOf_append, ← Nat.add_assoc]
      simpa using h''
    · simpa using hv''

end

end Ccml
