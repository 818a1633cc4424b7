import Verif.Props.Startup
/-!
Consequences of following the evaluator: calls inside a run (C28), variables without initialiser (C50),
loops (C53).
-/
set_option linter.unusedSimpArgs false
namespace Ccml.Props
open Sem (State Res callFn Vars Flow CallF evalE evalS evalB)

section
variable {L : Layout} {opt : Bool} {p : Prog Unit} {q : Prog Ref} {prog : Program}
  {e : Env Val Store} {cx : Sem.Ctx}

/-! ### C28 -/

/-- C28: a compiled function that is entered in the middle of a run, with its arguments on top of the
stack, and whose evaluation gives `r` comes back to the return address.  Then the arguments are replaced
by `r`, and the frames and all values below (among them the variables of the callers) are as before. -/
theorem C28_compiled_call (hc : Compiles L opt p q prog) (hi : ∀ x ∈ p, x.declName ≠ initName)
    (hq : cx.prog = q) (R : Running e cx prog) {i : Nat} {f : FuncDecl Ref} {F : Function}
    (hf : q[i]? = some (.func f)) (hF : prog.findByName f.name.str = some F) (s : St Val Store)
    (args below : List Val) (fr : Frame) (outer : List Frame) (ha : args.length = f.args.length)
    (h1 : s.th.pc = F.codeStart.toInt) (h2 : s.th.stack = args.reverse ++ below)
    (h3 : s.th.frames = fr :: outer) (h4 : fr.sp = s.th.stack.length)
    (h5 : s.th.finished = false) (h6 : s.th.error = .success) {n : Nat} {r : Val} {w : State}
    (hr : callFn cx (ownSlots q) n i args (stOf s) = .ok r w) :
    ∃ k s', Steps e k s s' ∧ s'.th.pc = fr.ret ∧ s'.th.stack = r :: below ∧ s'.th.frames = outer ∧
      s'.th.error = .success ∧ s'.th.finished = (fr.terminal || outer.isEmpty) ∧ stOf s' = w := by
  obtain ⟨F', g1, g2, g3, g4, g5⟩ := hc.entry hi hf
  rw [hF] at g1
  cases g1
  have S := R.setting hc hi hq
  have hn := hc.func hi
  obtain ⟨q0, k1, k2, k3⟩ := hc
  obtain ⟨segs, es, G⟩ := codegen_generated hn k3
  have L := G.loaded hq (List.Nodup.sublist (List.sublist_append_left _ _) hn) S
  have hstart : cx.funAddr i = F.codeStart := R.addr i f F (hq.symm ▸ hf) hF
  have := follow_call L n i f args below s fr outer (stOf s) (hq.symm ▸ hf) ha
    ⟨by rw [hstart, h1]; omega, h2, h3, rfl, h5, h6⟩ (by rw [h4, h2]; simp)
  rw [hr] at this
  obtain ⟨k, s', m1, m2⟩ := this
  exact ⟨k, s', m1, m2.pc, m2.stack, m2.frames, m2.error, m2.finished, m2.state⟩

/-- `fib(3)` called from somewhere with values below: -/
example (below : List Val) (outer : List Frame) (ret : Int) (s : St Val Store)
    (h1 : s.th.pc = (sampleEntry 2).codeStart.toInt) (h2 : s.th.stack = .int 3 :: below)
    (h3 : s.th.frames = ⟨below.length + 1, ret, (sampleEntry 2).codeStart.toInt, false⟩ :: outer)
    (h5 : s.th.finished = false) (h6 : s.th.error = .success) (hw : stOf s = callState sampleVm) :
    ∃ k s', Steps sampleEnv k s s' ∧ s'.th.pc = ret ∧ s'.th.stack = .int 2 :: below ∧
      s'.th.frames = outer := by
  obtain ⟨w, h, _⟩ := ok_of_check (v := .int 2) (P := fun _ => true)
    (r := callFn sampleCtx (ownSlots sampleQ) 10 2 [.int 3] (callState sampleVm)) (by decide +kernel)
  rw [← hw] at h
  obtain ⟨k, s', m1, m2, m3, m4, _⟩ := C28_compiled_call sample_compiles sample_names rfl sample_running
    (sample_fn (by decide +kernel)) (sample_entry (by decide +kernel)) s [.int 3] below _ outer
    (by decide +kernel) h1 h2 h3 (by rw [h2]; simp) h5 h6 h
  exact ⟨k, s', m1, m2, m3, m4⟩

end

/-! ### C53 -/

/-- `a, a+1, …, b-1` -/
def upTo (a b : Int) : List Int := (List.range (b - a).toNat).map fun k : Nat => a + k

/-- What a `for` loop has to do once its variable has the first value: for each number in the list run
the body, then give the variable the next number. -/
def rounds (assign : Int → Vars → State → Res Vars) (body : Vars → State → Res Flow) :
    List Int → Vars → State → Res Flow
  | [], ρ, w => .ok (.next ρ) w
  | i :: is, ρ, w => (body ρ w).bind fun fl w => fl.andThen w fun ρ w =>
      (assign (i + 1) ρ w).bind fun ρ w => rounds assign body is ρ w

mutual

/-- The variables that a statement may change. -/
def writesS : Stmt Ref → List Ref
  | .var _ r _ => [r]
  | .assign _ r _ => [r]
  | .ifS _ _ thn _ els => writesB thn ++ writesB els
  | .whileS _ _ body => writesB body
  | .forS _ _ r _ _ body => r :: writesB body
  | _ => []

/-- A block. -/
def writesB : List (Stmt Ref) → List Ref
  | [] => []
  | s :: ss => writesS s ++ writesB ss

end

theorem upTo_nil {a b : Int} (h : b ≤ a) : upTo a b = [] := by
  unfold upTo
  rw [show (b - a).toNat = 0 by omega]
  rfl

theorem upTo_cons {a b : Int} (h : a < b) : upTo a b = a :: upTo (a + 1) b := by
  unfold upTo
  rw [show (b - a).toNat = (b - (a + 1)).toNat + 1 by omega, List.range_succ_eq_map]
  simp only [List.map_cons, List.map_map]
  congr 1
  · simp
  · apply List.map_congr_left
    intro k _
    simp only [Function.comp]
    omega

section
variable {cx : Sem.Ctx} {callF : CallF} {zi : Ref → Bool} {n : Nat}

theorem toInt_of {z : Int} (h1 : -2147483648 ≤ z) (h2 : z ≤ 2147483647) : (BitVec.ofInt 32 z).toInt = z := by
  rw [BitVec.toInt_ofInt]
  apply Int.bmod_eq_of_le <;> omega

theorem less_int (fl : FloatOps) (a b : I32) (w : State) :
    Sem.binaryV fl .LT (.int a) (.int b) w = .ok (.int (if a.toInt < b.toInt then 1 else 0)) w := by
  unfold Sem.binaryV Sem.look
  simp only [Val.view, Sem.binary, Sem.compare, Sem.arith, Sem.bool, Sem.Ans.res, decide_eq_true_eq]

theorem plus_one (fl : FloatOps) {a : Int} (w : State) (h1 : -2147483648 ≤ a) (h2 : a < 2147483647) :
    Sem.binaryV fl .ADD (.int (BitVec.ofInt 32 a)) (.int 1) w = .ok (.int (BitVec.ofInt 32 (a + 1))) w := by
  unfold Sem.binaryV Sem.look
  have : (1 : I32).toInt = 1 := rfl
  simp only [Val.view, Sem.binary, Sem.arith, Sem.exact, toInt_of h1 (Int.le_of_lt h2), this]
  rw [if_pos (by omega)]
  rfl

/-- The general form: `Inv k` describes the states in which the variable is `k`. -/
theorem for_rounds {r : Ref} {stop : Expr Ref} {body : List (Stmt Ref)} {b : Int}
    (hb1 : -2147483648 ≤ b) (hb2 : b ≤ 2147483647) (Inv : Int → Vars → State → Prop)
    (hget : ∀ k ρ w, Inv k ρ w → cx.get ρ r w = .ok (.int (BitVec.ofInt 32 k)) w)
    (hstop : ∀ k ρ w, Inv k ρ w → evalE cx callF ρ stop w = .ok (.int (BitVec.ofInt 32 b)) w)
    (hbody : ∀ k ρ w ρ' w', Inv k ρ w → evalB cx callF zi n body ρ w = .ok (.next ρ') w' →
      Inv k (ρ.leave ρ') w')
    (hset : ∀ k ρ w, Inv k ρ w → ∃ ρ' w', cx.set ρ r (.int (BitVec.ofInt 32 (k + 1))) w = .ok ρ' w' ∧
      Inv (k + 1) ρ' w') :
    ∀ (m : Nat) (a : Int) (ρ : Vars) (w : State), (b - a).toNat < m → -2147483648 ≤ a →
      a ≤ 2147483647 → Inv a ρ w →
    Sem.loop (fun ρ w => (cx.get ρ r w).bind fun i w => (evalE cx callF ρ stop w).bind fun z w =>
          (Sem.binaryV cx.fl .LT i z w).bind fun v w => Sem.look v w fun x => .ok (Sem.truth cx.fl x) w)
        (fun ρ w => (evalB cx callF zi n body ρ w).bind fun fl w => (fl.leave ρ).andThen w fun ρ w =>
          (cx.get ρ r w).bind fun i w => (Sem.binaryV cx.fl .ADD i (.int 1) w).bind fun v w =>
            (cx.set ρ r v w).bind fun ρ w => .ok (.next ρ) w) m ρ w =
      rounds (fun k ρ w => cx.set ρ r (.int (BitVec.ofInt 32 k)) w)
        (fun ρ w => (evalB cx callF zi n body ρ w).bind fun fl w => .ok (fl.leave ρ) w)
        (upTo a b) ρ w
  | 0, a, ρ, w, hm, _, _, _ => by omega
  | m + 1, a, ρ, w, hm, h1, h2, hI => by
    have ih := for_rounds hb1 hb2 Inv hget hstop hbody hset m
    rw [Sem.loop]
    simp only [hget _ _ _ hI, hstop _ _ _ hI, Sem.Res.bind, less_int, toInt_of h1 h2, toInt_of hb1 hb2,
      Sem.look, Val.view, Sem.truth]
    by_cases hlt : a < b
    · rw [upTo_cons hlt, rounds]
      simp only [if_pos hlt]
      rw [if_pos (by decide)]
      cases hx : evalB cx callF zi n body ρ w with
      | ok fl w1 =>
        cases fl with
        | ret v => rfl
        | next ρ1 =>
          have hI1 := hbody _ _ _ _ _ hI hx
          obtain ⟨ρ2, w2, h3, h4⟩ := hset _ _ _ hI1
          simp only [Sem.Res.bind, Sem.Flow.leave, Sem.Flow.andThen, hget _ _ _ hI1,
            plus_one cx.fl w1 h1 (by omega), h3]
          exact ih (a + 1) ρ2 w2 (by omega) (by omega) (by omega) h4
      | _ => rfl
    · rw [upTo_nil (by omega), rounds]
      simp only [if_neg hlt]
      rw [if_neg (by decide)]

/-! Running a block changes only the variables it writes to. -/

theorem leave_same {ρ ρ' : Vars} {r : Ref} (h : ρ' r = ρ r) (hl : (ρ r).live = true) :
    (ρ.leave ρ') r = ρ r := by
  unfold Vars.leave
  rw [if_pos hl, h]

theorem loop_keeps {test : Vars → State → Res Bool} {body : Vars → State → Res Flow} {P : Vars → Prop}
    (hb : ∀ ρ w ρ' w', P ρ → body ρ w = .ok (.next ρ') w' → P ρ') : ∀ (m : Nat) (ρ : Vars) (w : State)
      (ρ' : Vars) (w' : State), P ρ → Sem.loop test body m ρ w = .ok (.next ρ') w' → P ρ'
  | 0, _, _, _, _, _, h => by cases h
  | m + 1, ρ, w, ρ', w', hP, h => by
    rw [Sem.loop] at h
    cases ht : test ρ w with
    | ok b w1 =>
      rw [ht] at h
      cases b with
      | false => cases h; exact hP
      | true =>
        simp only [Sem.Res.bind, if_true] at h
        cases hx : body ρ w1 with
        | ok fl w2 =>
          rw [hx] at h
          cases fl with
          | ret v => cases h
          | next ρ1 => exact loop_keeps hb m ρ1 w2 ρ' w' (hb _ _ _ _ hP hx) h
        | _ => rw [hx] at h; cases h
    | _ => rw [ht] at h; cases h

theorem bind_ok_iff {α β : Type} {r : Res α} {f : α → State → Res β} {b : β} {w' : State} :
    r.bind f = .ok b w' ↔ ∃ a w, r = .ok a w ∧ f a w = .ok b w' := by
  cases r with
  | ok a w => exact ⟨fun h => ⟨a, w, rfl, h⟩, by rintro ⟨a, w, ⟨⟩, h⟩; exact h⟩
  | _ => exact ⟨nofun, by rintro ⟨a, w, ⟨⟩, h⟩⟩

theorem set_keeps {ρ ρ' : Vars} {r r' : Ref} {v : Val} {w w' : State} (h : cx.set ρ r v w = .ok ρ' w')
    (hr : r' ≠ r) : ρ' r' = ρ r' := by
  unfold Sem.Ctx.set at h
  split at h
  · split at h
    · split at h
      · cases h; rfl
      · cases h
    · cases h
  · split at h
    · cases h
      unfold Vars.set
      rw [if_neg hr]
    · cases h

theorem set_other {ρ : Vars} {r r' : Ref} {x : Sem.Slot} (h : r' ≠ r) : (ρ.set r x) r' = ρ r' := by
  unfold Vars.set
  rw [if_neg h]

theorem leave_flow {ρ ρ' : Vars} {fl : Flow} (h : fl.leave ρ = .next ρ') :
    ∃ ρ1, fl = .next ρ1 ∧ ρ' = ρ.leave ρ1 := by
  cases fl with
  | ret v => cases h
  | next ρ1 => cases h; exact ⟨ρ1, rfl, rfl⟩

theorem look_ok {β : Type} {v : Val} {w : State} {f : View → Res β} {b : β} {w' : State}
    (h : Sem.look v w f = .ok b w') : ∃ x, v.view w.mem = .ok x ∧ f x = .ok b w' := by
  unfold Sem.look at h
  split at h
  · exact ⟨_, ‹_›, h⟩
  · cases h

mutual

theorem evalS_keeps {r : Ref} (m : Nat) : ∀ (st : Stmt Ref) (ρ : Vars) (w : State) (ρ' : Vars) (w' : State),
    r ∉ writesS st → (ρ r).live = true → evalS cx callF zi m st ρ w = .ok (.next ρ') w' → ρ' r = ρ r
  | .var _ r' init, ρ, w, ρ', w', hr, hl, h => by
    have hne : r ≠ r' := by simpa [writesS] using hr
    unfold evalS at h
    split at h
    · split at h
      · split at h <;> (cases h; exact set_other hne)
      · obtain ⟨v, w1, _, h⟩ := bind_ok_iff.1 h
        cases h; exact set_other hne
    · cases h
  | .assign _ r' x, ρ, w, ρ', w', hr, hl, h => by
    have hne : r ≠ r' := by simpa [writesS] using hr
    unfold evalS at h
    obtain ⟨v, w1, _, h⟩ := bind_ok_iff.1 h
    obtain ⟨ρ1, w2, h1, h⟩ := bind_ok_iff.1 h
    cases h
    exact set_keeps h1 hne
  | .assignArr _ r' i x, ρ, w, ρ', w', hr, hl, h => by
    unfold evalS at h
    obtain ⟨_, _, _, h⟩ := bind_ok_iff.1 h
    obtain ⟨_, _, _, h⟩ := bind_ok_iff.1 h
    obtain ⟨_, _, _, h⟩ := bind_ok_iff.1 h
    obtain ⟨_, _, _, h⟩ := bind_ok_iff.1 h
    cases h; rfl
  | .assignMem _ _ r' x, ρ, w, ρ', w', hr, hl, h => by
    unfold evalS at h
    obtain ⟨_, _, _, h⟩ := bind_ok_iff.1 h
    obtain ⟨_, _, _, h⟩ := bind_ok_iff.1 h
    cases h
  | .call _ c as, ρ, w, ρ', w', hr, hl, h => by
    unfold evalS at h
    obtain ⟨_, _, _, h⟩ := bind_ok_iff.1 h
    obtain ⟨_, _, _, h⟩ := bind_ok_iff.1 h
    obtain ⟨_, _, _, h⟩ := bind_ok_iff.1 h
    cases h; rfl
  | .ifS _ c thn hasElse els, ρ, w, ρ', w', hr, hl, h => by
    simp only [writesS, List.mem_append, not_or] at hr
    unfold evalS at h
    obtain ⟨_, _, _, h⟩ := bind_ok_iff.1 h
    obtain ⟨x, _, h⟩ := look_ok h
    have done : ∀ b : List (Stmt Ref), r ∉ writesB b → ∀ w1,
        ((evalB cx callF zi m b ρ w1).bind fun fl w => .ok (fl.leave ρ) w) = .ok (.next ρ') w' →
        (∀ ρ'' w'', evalB cx callF zi m b ρ w1 = .ok (.next ρ'') w'' → ρ'' r = ρ r) → ρ' r = ρ r := by
      intro b _ w1 h hk
      obtain ⟨fl, w2, h1, h⟩ := bind_ok_iff.1 h
      simp only [Sem.Res.ok.injEq] at h
      obtain ⟨ρ1, rfl, rfl⟩ := leave_flow h.1
      exact leave_same (hk _ _ h1) hl
    split at h
    · exact done thn hr.1 _ h fun ρ'' w'' hx => evalB_keeps m thn ρ _ ρ'' w'' hr.1 hl hx
    · split at h
      · exact done els hr.2 _ h fun ρ'' w'' hx => evalB_keeps m els ρ _ ρ'' w'' hr.2 hl hx
      · cases h; rfl
  | .whileS _ c body, ρ, w, ρ', w', hr, hl, h => by
    unfold evalS at h
    refine loop_keeps (P := fun ρ1 => ρ1 r = ρ r) ?_ m ρ w ρ' w' rfl h
    intro ρ1 w1 ρ2 w2 hP hx
    obtain ⟨fl, w3, h1, hx⟩ := bind_ok_iff.1 hx
    simp only [Sem.Res.ok.injEq] at hx
    obtain ⟨ρ3, rfl, rfl⟩ := leave_flow hx.1
    have hl1 : (ρ1 r).live = true := by rw [hP]; exact hl
    rw [leave_same (evalB_keeps m body ρ1 _ ρ3 _ hr hl1 h1) hl1, hP]
  | .forS _ _ r' a b body, ρ, w, ρ', w', hr, hl, h => by
    simp only [writesS, List.mem_cons, not_or] at hr
    unfold evalS at h
    obtain ⟨v, w1, _, h⟩ := bind_ok_iff.1 h
    obtain ⟨ρ0, w2, h0, h⟩ := bind_ok_iff.1 h
    refine loop_keeps (P := fun ρ1 => ρ1 r = ρ r) ?_ m ρ0 w2 ρ' w' (set_keeps h0 hr.1) h
    intro ρ1 w1 ρ2 w2 hP hx
    obtain ⟨fl, w3, h1, hx⟩ := bind_ok_iff.1 hx
    have hl1 : (ρ1 r).live = true := by rw [hP]; exact hl
    cases fl with
    | ret v => cases hx
    | next ρ3 =>
      simp only [Sem.Flow.leave, Sem.Flow.andThen] at hx
      obtain ⟨_, _, _, hx⟩ := bind_ok_iff.1 hx
      obtain ⟨_, _, _, hx⟩ := bind_ok_iff.1 hx
      obtain ⟨ρ4, _, h4, hx⟩ := bind_ok_iff.1 hx
      cases hx
      rw [set_keeps h4 hr.1, leave_same (evalB_keeps m body ρ1 _ ρ3 _ hr.2 hl1 h1) hl1, hP]
  | .ret _ none, ρ, w, ρ', w', hr, hl, h => by cases h
  | .ret _ (some x), ρ, w, ρ', w', hr, hl, h => by
    unfold evalS at h
    obtain ⟨_, _, _, h⟩ := bind_ok_iff.1 h
    cases h

theorem evalB_keeps {r : Ref} (m : Nat) : ∀ (b : List (Stmt Ref)) (ρ : Vars) (w : State) (ρ' : Vars)
    (w' : State), r ∉ writesB b → (ρ r).live = true → evalB cx callF zi m b ρ w = .ok (.next ρ') w' →
    ρ' r = ρ r
  | [], ρ, w, ρ', w', hr, hl, h => by cases h; rfl
  | st :: ss, ρ, w, ρ', w', hr, hl, h => by
    simp only [writesB, List.mem_append, not_or] at hr
    unfold evalB at h
    obtain ⟨fl, w1, h1, h⟩ := bind_ok_iff.1 h
    cases fl with
    | ret v => cases h
    | next ρ1 =>
      have k1 := evalS_keeps m st ρ w ρ1 w1 hr.1 hl h1
      have k2 := evalB_keeps m ss ρ1 w1 ρ' w' hr.2 (by rw [k1]; exact hl) h
      rw [k2, k1]

end

/-- Local variables and arguments. -/
def isLocal : Ref → Bool
  | .item _ => false
  | _ => true

/-- The end of a loop: a literal or another variable, with the value `b`. -/
def StopIs (ρ : Vars) (body : List (Stmt Ref)) (r : Ref) (b : Int) : Expr Ref → Prop
  | .int v _ _ => v = BitVec.ofInt 32 b
  | .ident _ r' => isLocal r' = true ∧ r' ≠ r ∧ r' ∉ writesB body ∧ ρ r' = .val (.int (BitVec.ofInt 32 b))
  | _ => False

theorem get_local {ρ : Vars} {r : Ref} {v : Val} (hr : isLocal r = true) (h : ρ r = .val v) (w : State) :
    cx.get ρ r w = .ok v w := by
  cases r with
  | item i => cases hr
  | _ => simp only [Sem.Ctx.get, Sem.Ctx.ident, h]

theorem ident_local {ρ : Vars} {r : Ref} {v : Val} (hr : isLocal r = true) (h : ρ r = .val v) (w : State) :
    cx.ident ρ r w = .ok v w := by
  cases r with
  | item i => cases hr
  | _ => simp only [Sem.Ctx.ident, h]

theorem set_local {ρ : Vars} {r : Ref} (v : Val) (hr : isLocal r = true) (h : (ρ r).live = true)
    (w : State) : cx.set ρ r v w = .ok (ρ.set r (.val v)) w := by
  cases r with
  | item i => cases hr
  | _ => simp only [Sem.Ctx.set, h, if_true]

/-- The variable is `k`, and everything the body does not write is as at the start. -/
def Same (ρ : Vars) (body : List (Stmt Ref)) (r : Ref) (k : Int) (ρ' : Vars) (_ : State) : Prop :=
  ρ' r = .val (.int (BitVec.ofInt 32 k)) ∧
    ∀ r', r' ≠ r → r' ∉ writesB body → (ρ r').live = true → ρ' r' = ρ r'

theorem Same.start {ρ : Vars} {body : List (Stmt Ref)} {r : Ref} {k : Int} {w : State}
    (_ : (ρ r).live = true) : Same ρ body r k (ρ.set r (.val (.int (BitVec.ofInt 32 k)))) w :=
  ⟨by simp [Vars.set], fun r' h1 _ _ => set_other h1⟩

theorem Same.stop {ρ ρ' : Vars} {body : List (Stmt Ref)} {r : Ref} {k b : Int} {w : State}
    (h : Same ρ body r k ρ' w) {x : Expr Ref} (hx : StopIs ρ body r b x) :
    evalE cx callF ρ' x w = .ok (.int (BitVec.ofInt 32 b)) w := by
  cases x with
  | int v t c => rw [evalE]; rw [show v = _ from hx]
  | ident t r' =>
    obtain ⟨h1, h2, h3, h4⟩ := hx
    rw [evalE]
    exact ident_local h1 (by rw [h.2 r' h2 h3 (by rw [h4]; rfl), h4]) w
  | _ => cases hx

theorem Same.body {ρ ρ' ρ'' : Vars} {body : List (Stmt Ref)} {r : Ref} {k : Int} {w w' : State}
    (h : Same ρ body r k ρ' w) (hr : r ∉ writesB body)
    (hx : evalB cx callF zi n body ρ' w = .ok (.next ρ'') w') : Same ρ body r k (ρ'.leave ρ'') w' := by
  constructor
  · have hl : (ρ' r).live = true := by rw [h.1]; rfl
    rw [leave_same (evalB_keeps n body ρ' w ρ'' w' hr hl hx) hl, h.1]
  · intro r' h1 h2 h3
    have h4 := h.2 r' h1 h2 h3
    have hl : (ρ' r').live = true := by rw [h4]; exact h3
    rw [leave_same (evalB_keeps n body ρ' w ρ'' w' h2 hl hx) hl, h4]

theorem Same.set {ρ ρ' : Vars} {body : List (Stmt Ref)} {r : Ref} {k : Int} {w : State}
    (h : Same ρ body r k ρ' w) (hr : isLocal r = true) :
    ∃ ρ'' w', cx.set ρ' r (.int (BitVec.ofInt 32 (k + 1))) w = .ok ρ'' w' ∧ Same ρ body r (k + 1) ρ'' w' := by
  refine ⟨_, _, set_local _ hr (by rw [h.1]; rfl) w, by simp [Vars.set], fun r' h1 h2 h3 => ?_⟩
  rw [set_other h1, h.2 r' h1 h2 h3]

theorem rounds_after {assign : Int → Vars → State → Res Vars} {body : Vars → State → Res Flow}
    {Inv : Int → Vars → State → Prop} {b : Int}
    (hbody : ∀ k ρ w ρ' w', Inv k ρ w → body ρ w = .ok (.next ρ') w' → Inv k ρ' w')
    (hset : ∀ k ρ w ρ' w', Inv k ρ w → assign (k + 1) ρ w = .ok ρ' w' → Inv (k + 1) ρ' w') :
    ∀ (m : Nat) (a : Int) (ρ : Vars) (w : State) (ρ' : Vars) (w' : State), (b - a).toNat = m → Inv a ρ w →
      rounds assign body (upTo a b) ρ w = .ok (.next ρ') w' → Inv (max a b) ρ' w'
  | 0, a, ρ, w, ρ', w', hm, hI, h => by
    rw [upTo_nil (by omega)] at h
    cases h
    rw [show max a b = a by omega]
    exact hI
  | m + 1, a, ρ, w, ρ', w', hm, hI, h => by
    rw [upTo_cons (by omega), rounds] at h
    obtain ⟨fl, w1, h1, h⟩ := bind_ok_iff.1 h
    cases fl with
    | ret v => cases h
    | next ρ1 =>
      obtain ⟨ρ2, w2, h2, h⟩ := bind_ok_iff.1 h
      have := rounds_after hbody hset m (a + 1) ρ2 w2 ρ' w' (by omega)
        (hset _ _ _ _ _ (hbody _ _ _ _ _ hI h1) h2) h
      rw [show max (a + 1) b = max a b by omega] at this
      exact this

/-- C53: `for (i = a to b)` over a local variable that the body does not change runs the body with `i`
equal to `a`, `a + 1`, …, `b - 1`, in this order, and not at all when `b ≤ a`.  (That the machine does
what the evaluation says is C27.) -/
theorem C53_rounds {t nm' : Token} {r : Ref} {start stop : Expr Ref} {body : List (Stmt Ref)} {a b : Int}
    {ρ : Vars} {w w1 : State} (hr : isLocal r = true) (hlive : (ρ r).live = true)
    (hbody : r ∉ writesB body) (ha1 : -2147483648 ≤ a) (ha2 : a ≤ 2147483647) (hb1 : -2147483648 ≤ b)
    (hb2 : b ≤ 2147483647) (hstart : evalE cx callF ρ start w = .ok (.int (BitVec.ofInt 32 a)) w1)
    (hstop : StopIs ρ body r b stop) (hn : (b - a).toNat < n) :
    evalS cx callF zi n (.forS t nm' r start stop body) ρ w =
      rounds (fun k ρ w => cx.set ρ r (.int (BitVec.ofInt 32 k)) w)
        (fun ρ w => (evalB cx callF zi n body ρ w).bind fun fl w => .ok (fl.leave ρ) w)
        (upTo a b) (ρ.set r (.val (.int (BitVec.ofInt 32 a)))) w1 := by
  rw [evalS, hstart]
  simp only [Sem.Res.bind, set_local _ hr hlive]
  exact for_rounds hb1 hb2 (Same ρ body r) (fun k ρ' w h => get_local hr h.1 w)
    (fun k ρ' w h => h.stop hstop) (fun k ρ' w ρ'' w' h hx => h.body hbody hx)
    (fun k ρ' w h => h.set hr) n a _ w1 hn ha1 ha2 (Same.start hlive)

/-- C53: after the loop the variable is the larger of `a` and `b`. -/
theorem C53_after {t nm' : Token} {r : Ref} {start stop : Expr Ref} {body : List (Stmt Ref)} {a b : Int}
    {ρ ρ' : Vars} {w w1 w' : State} (hr : isLocal r = true) (hlive : (ρ r).live = true)
    (hbody : r ∉ writesB body) (ha1 : -2147483648 ≤ a) (ha2 : a ≤ 2147483647) (hb1 : -2147483648 ≤ b)
    (hb2 : b ≤ 2147483647) (hstart : evalE cx callF ρ start w = .ok (.int (BitVec.ofInt 32 a)) w1)
    (hstop : StopIs ρ body r b stop) (hn : (b - a).toNat < n)
    (h : evalS cx callF zi n (.forS t nm' r start stop body) ρ w = .ok (.next ρ') w') :
    ρ' r = .val (.int (BitVec.ofInt 32 (max a b))) := by
  rw [C53_rounds hr hlive hbody ha1 ha2 hb1 hb2 hstart hstop hn] at h
  refine (rounds_after (Inv := Same ρ body r) ?_ ?_ _ a _ w1 ρ' w' rfl (Same.start hlive) h).1
  · intro k ρ1 w1 ρ2 w2 hI hx
    obtain ⟨fl, w3, h1, hx⟩ := bind_ok_iff.1 hx
    simp only [Sem.Res.ok.injEq] at hx
    obtain ⟨ρ3, rfl, rfl⟩ := leave_flow hx.1
    have := hI.body hbody h1
    exact ⟨this.1, this.2⟩
  · intro k ρ1 w1 ρ2 w2 hI hx
    obtain ⟨ρ3, w3, h1, h2⟩ := hI.set (cx := cx) (k := k) hr
    rw [h1] at hx
    cases hx
    exact h2

/-- `for (i = 0 to k) …` of the sample program with `k = 4` runs for 0, 1, 2, 3. -/
example : ∃ t t' start stop body, Stmt.forS t t' (.loc 0) start stop body ∈ (sampleFn 3).body ∧
    ∀ (callF : CallF) zi ρ w n, ρ (.loc 0) = .unset → ρ (.arg 0) = .val (.int 4) → 4 < n →
      evalS sampleCtx callF zi n (.forS t t' (.loc 0) start stop body) ρ w =
        rounds (fun k ρ w => sampleCtx.set ρ (.loc 0) (.int (BitVec.ofInt 32 k)) w)
          (fun ρ w => (evalB sampleCtx callF zi n body ρ w).bind fun fl w => .ok (fl.leave ρ) w)
          [0, 1, 2, 3] (ρ.set (.loc 0) (.val (.int 0))) w := by
  have h : ∃ t t' l1 l2 t2 body, Stmt.forS t t' (.loc 0) (.int 0 l1 l2) (.ident t2 (.arg 0)) body ∈ (sampleFn 3).body ∧
      Ref.loc 0 ∉ writesB body ∧ Ref.arg 0 ∉ writesB body := by
    have h : ((sampleFn 3).body.any fun s => match s with
        | .forS _ _ (.loc 0) (.int 0 _ _) (.ident _ (.arg 0)) body =>
          decide (Ref.loc 0 ∉ writesB body ∧ Ref.arg 0 ∉ writesB body)
        | _ => false) = true := by decide +kernel
    obtain ⟨s, h1, h2⟩ := List.any_eq_true.1 h
    split at h2
    · exact ⟨_, _, _, _, _, _, h1, of_decide_eq_true h2⟩
    · cases h2
  obtain ⟨t, t', l1, l2, t2, body, h1, h2, h3⟩ := h
  refine ⟨t, t', _, _, body, h1, fun callF zi ρ w n h4 h5 hn => ?_⟩
  have := C53_rounds (cx := sampleCtx) (callF := callF) (zi := zi) (n := n) (t := t) (nm' := t') (r := .loc 0)
    (start := .int 0 l1 l2) (stop := .ident t2 (.arg 0)) (body := body) (a := 0) (b := 4) (ρ := ρ) (w := w)
    (w1 := w) rfl (by rw [h4]; rfl) h2 (by decide) (by decide) (by decide) (by decide) rfl
    ⟨rfl, nofun, h3, h5⟩ hn
  exact this

end

/-! ### C50 -/

section
variable {L : Layout} {opt : Bool} {p : Prog Unit} {q : Prog Ref} {prog : Program}
  {e : Env Val Store} {cx : Sem.Ctx}

theorem evalB_append {callF : CallF} {zi : Ref → Bool} {n : Nat} : ∀ (a b : List (Stmt Ref)) (ρ : Vars)
    (w : State), evalB cx callF zi n (a ++ b) ρ w = (evalB cx callF zi n a ρ w).bind fun fl w =>
      fl.andThen w fun ρ w => evalB cx callF zi n b ρ w
  | [], b, ρ, w => rfl
  | s :: a, b, ρ, w => by
    rw [List.cons_append, evalB, evalB]
    cases evalS cx callF zi n s ρ w with
    | ok fl w1 =>
      cases fl with
      | next ρ1 => exact evalB_append a b ρ1 w1
      | ret v => rfl
    | _ => rfl

/-- C50, for a variable that shares its stack slot with no other variable of the function and whose
declaration is reached for the first time: in the rest of the function it is `none`.  Missing: shared
slots and repeated declarations, for which the claim is false (`C50_violated`). -/
theorem C50_own_slot_partial (hc : Compiles L opt p q prog) (hi : ∀ x ∈ p, x.declName ≠ initName)
    (hq : cx.prog = q) (R : Running e cx prog) {i : Nat} {f : FuncDecl Ref} {F : Function}
    (hf : q[i]? = some (.func f)) (hF : prog.findByName f.name.str = some F) (v : VmState Val Store)
    (args : List Val) (ha : args.length = f.args.length) (ho : Sem.handOver v.mem args = none)
    {pre rest : List (Stmt Ref)} {t : Token} {r : Ref} (hb : f.body = pre ++ .var t r none :: rest)
    (hown : ∀ r', r' ∈ (funcLocals f.body).map LocalVar.ref → r' ≠ r →
      localOffset (funcLocals f.body) r' ≠ localOffset (funcLocals f.body) r)
    (hr : r ∈ (funcLocals f.body).map LocalVar.ref) (hloc : ∃ k, r = .loc k) {n : Nat} {ρ : Vars}
    {w1 w2 : State} {fl : Flow}
    (hpre : evalB cx (callFn cx (ownSlots q) n) (ownSlots q i) (n + 1) pre (Sem.params args) (callState v) =
      .ok (.next ρ) w1) (hfresh : ρ r = .fresh)
    (hrest : evalB cx (callFn cx (ownSlots q) n) (ownSlots q i) (n + 1) rest (ρ.set r (.val .none)) w1 =
      .ok fl w2) :
    ∃ m t, ∀ fuel, m ≤ fuel → v.callOnce e fuel F args = .ok (.value (Sem.result fl), leftBy w2 t) := by
  have hz : ownSlots q i r = true := by
    unfold ownSlots
    simp only [hf, Bool.and_eq_true, List.contains_iff_mem, List.all_eq_true, Bool.or_eq_true, beq_iff_eq,
      bne_iff_ne]
    obtain ⟨k, rfl⟩ := hloc
    refine ⟨⟨rfl, hr⟩, fun x hx => ?_⟩
    by_cases h : x = .loc k
    · exact .inl h
    · exact .inr (hown x hx h)
  have key : callFn cx (ownSlots q) (n + 1) i args (callState v) = .ok (Sem.result fl) w2 := by
    simp only [callFn, hq, hf, if_pos ha, hb]
    rw [evalB_append, hpre]
    simp only [Sem.Res.bind, Sem.Flow.andThen]
    obtain ⟨k, rfl⟩ := hloc
    simp only [evalB, evalS, hfresh, hz, if_true, Sem.Res.bind, Sem.Flow.andThen, hrest]
  obtain ⟨m, t, _, h⟩ := C27_value hc hi hq R hf hF v args ha ho key
  exact ⟨m, t, h⟩

end

/-- The program

    function main(k)
      if (k)
        var x = 5
      end
      if (k)
        var y
        return y
      end
    end
    function f()
      var z
      return z
    end -/
def staleTree : Prog Unit :=
  [.func { name := nm "main", args := [nm "k"], stop := tk .END "end", body := [
     .ifS (tk .IF "if") (ix "k") [.var (nm "x") () (some (lit 5))] false [],
     .ifS (tk .IF "if") (ix "k") [.var (nm "y") () none, .ret (tk .RETURN "return") (some (ix "y"))] false []] },
   .func { name := nm "f", args := [], stop := tk .END "end", body := [
     .var (nm "z") () none, .ret (tk .RETURN "return") (some (ix "z"))] }]

theorem staleTree_ok : compilesB staleTree = true := by decide +kernel

/-- Function `i` in the optimised tree. -/
def fnOf (p : Prog Unit) (i : Nat) : FuncDecl Ref :=
  match (treeOf p)[i]? with
  | some (Item.func f) => f
  | _ => ⟨nm "", [], [], nm ""⟩

/-- Function `i` in the function table. -/
def entryOf (p : Prog Unit) (i : Nat) : Function :=
  ((codeOf p).findByName (fnOf p i).name.str).getD ⟨[], 0, 0, [], []⟩

theorem fn_at {p : Prog Unit} {i : Nat}
    (h : (match (treeOf p)[i]? with | some (Item.func _) => true | _ => false) = true) :
    (treeOf p)[i]? = some (.func (fnOf p i)) := by
  unfold fnOf
  split at h
  · assumption
  · cases h

theorem entry_at {p : Prog Unit} {i : Nat} (h : ((codeOf p).findByName (fnOf p i).name.str).isSome = true) :
    (codeOf p).findByName (fnOf p i).name.str = some (entryOf p i) := by
  unfold entryOf
  cases h' : (codeOf p).findByName (fnOf p i).name.str with
  | none => rw [h'] at h; cases h
  | some F => rfl

attribute [irreducible] fnOf entryOf

/-- C50 is violated: `main(1)` returns the value 5 of `x`, although it returns the variable `y`, which was
never assigned.  Both have the same slot. -/
theorem C50_violated : ∃ v', blankVm.callOnce (envOf staleTree) 2 (entryOf staleTree 0) [.int 1] =
    .ok (.value (.int 5), v') := by
  have h : (match blankVm.callOnce (envOf staleTree) 2 (entryOf staleTree 0) [.int 1] with
      | .ok (r, _) => decide (r = .value (.int 5)) | .error _ => false) = true := by decide +kernel
  split at h
  · rename_i r v' h1
    exact ⟨v', by rw [h1, of_decide_eq_true h]⟩
  · cases h

/-- `f()` returns none. -/
example : ∃ m w t, ∀ fuel, m ≤ fuel → blankVm.callOnce (envOf staleTree) fuel (entryOf staleTree 1) [] =
    .ok (.value .none, leftBy w t) := by
  obtain ⟨h1, h2, h3⟩ := compiled staleTree_ok
  have hb : ∃ t t1 t2, (fnOf staleTree 1).body = [.var t (.loc 0) none, .ret t1 (some (.ident t2 (.loc 0)))] := by
    have h : (match (fnOf staleTree 1).body with
      | [.var _ (.loc 0) none, .ret _ (some (.ident _ (.loc 0)))] => true | _ => false) = true := by
      decide +kernel
    split at h
    · rename_i h1; exact ⟨_, _, _, h1⟩
    · cases h
  obtain ⟨t, t1, t2, hb⟩ := hb
  obtain ⟨m, t', h⟩ := C50_own_slot_partial h1 h2 rfl h3 (i := 1) (fn_at (by decide +kernel))
    (entry_at (by decide +kernel)) blankVm [] (by decide +kernel) rfl (pre := []) (r := .loc 0) (n := 1) hb
    (by decide +kernel) (by decide +kernel) ⟨0, rfl⟩ rfl rfl
    (fl := .ret .none) (w2 := callState blankVm) (by
      simp [evalB, evalS, evalE, Sem.Ctx.ident, Vars.set, Sem.Res.bind, Sem.Flow.andThen])
  exact ⟨m, _, t', h⟩

end Ccml.Props
