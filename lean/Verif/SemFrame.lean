import Verif.HostSpec
/-!
What every evaluation keeps: the number of global variables (proof infrastructure).
-/
set_option linter.unusedSimpArgs false
namespace Ccml.Sem
open Ccml

/-- Errors that only a missing global variable causes. -/
def missing : TErr → Bool
  | .bad_get_global => true
  | .bad_set_global => true
  | _ => false

/-- The result has `N` global variables, and no error comes from a missing one. -/
def Kept (N : Nat) {α : Type} : Res α → Prop
  | .ok _ w => w.globals.length = N
  | .err x w => w.globals.length = N ∧ missing x = false
  | _ => True

/-- Host functions keep them too. -/
def HostKept (cx : Ctx) (N : Nat) : Prop :=
  ∀ fn args w, w.globals.length = N → Kept N (cx.host fn args w)

theorem Kept.bind {N : Nat} {α β : Type} {r : Res α} {f : α → State → Res β} (h : Kept N r)
    (hf : ∀ a w, w.globals.length = N → Kept N (f a w)) : Kept N (r.bind f) := by
  cases r with
  | ok a w => exact hf a w h
  | err x w => exact h
  | _ => trivial

theorem Kept.look {N : Nat} {β : Type} {v : Val} {w : State} {f : View → Res β}
    (hf : ∀ x, Kept N (f x)) : Kept N (Sem.look v w f) := by
  unfold Sem.look
  split
  · exact hf _
  · trivial

section
variable {cx : Ctx} {callF : CallF}

theorem slot_lt {i : Nat} {t : Token} {x : Option (Expr Ref)} (h : cx.prog[i]? = some (.var t false x)) :
    cx.slot i < cx.slot cx.prog.length := by
  unfold Ctx.slot
  have hi : i < cx.prog.length := by
    rcases Nat.lt_or_ge i cx.prog.length with h1 | h1
    · exact h1
    · rw [List.getElem?_eq_none h1] at h; cases h
  have hs : cx.prog = cx.prog.take i ++ .var t false x :: cx.prog.drop (i + 1) := by
    conv => lhs; rw [← List.take_append_drop i cx.prog]
    rw [List.drop_eq_getElem_cons hi]
    rw [List.getElem?_eq_getElem hi] at h
    rw [Option.some.inj h]
  rw [List.take_length]
  conv => rhs; rw [hs]
  rw [List.filter_append, List.length_append, List.filter_cons_of_pos rfl, List.length_cons]
  omega

theorem ident_kept (ρ : Vars) (r : Ref) {w : State} (hw : w.globals.length = cx.slot cx.prog.length) :
    Kept (cx.slot cx.prog.length) (cx.ident ρ r w) := by
  have : ∀ s : Slot, Kept (cx.slot cx.prog.length) (match s with | .val v => .ok v w | _ => .undef) := by
    intro s; cases s <;> first | trivial | exact hw
  unfold Ctx.ident
  cases r with
  | item i =>
    dsimp only
    split
    · exact hw
    · split <;> first | trivial | exact hw
    · rename_i h
      split
      · exact hw
      · rename_i hn
        rw [List.getElem?_eq_none_iff] at hn
        have := slot_lt h
        omega
    · split <;> first | trivial | exact hw
    · trivial
  | arg i => exact this _
  | loc k => exact this _

theorem get_kept (ρ : Vars) (r : Ref) {w : State} (hw : w.globals.length = cx.slot cx.prog.length) :
    Kept (cx.slot cx.prog.length) (cx.get ρ r w) := by
  unfold Ctx.get
  split
  · split
    · exact ident_kept _ _ hw
    · trivial
  · exact ident_kept _ _ hw

theorem set_kept (ρ : Vars) (r : Ref) (v : Val) {w : State}
    (hw : w.globals.length = cx.slot cx.prog.length) :
    Kept (cx.slot cx.prog.length) (cx.set ρ r v w) := by
  unfold Ctx.set
  split
  · split
    · rename_i h
      split
      · simpa [Kept] using hw
      · have := slot_lt h
        omega
    · trivial
  · split
    · exact hw
    · trivial

theorem ansRes_kept {N : Nat} {w : State} (hw : w.globals.length = N) {a : Ans}
    (h : ∀ x, a = .err x → missing x = false) : Kept N (a.res w) := by
  cases a with
  | val v => exact hw
  | err x => exact ⟨hw, h x rfl⟩
  | _ => trivial

theorem exact_err {z : Int} {x : TErr} (h : exact z = .err x) : False := by
  unfold exact at h; split at h <;> cases h

theorem arith_err {fl : FloatOps} {i : Int → Int → Ans} {f : F32 → F32 → Val} {o : Ans} {l r : View}
    (hi : ∀ a b x, i a b = .err x → missing x = false) (ho : ∀ x, o = .err x → missing x = false)
    {x : TErr} (h : arith fl i f o l r = .err x) : missing x = false := by
  unfold arith at h
  split at h
  · exact hi _ _ _ h
  · split at h
    · cases h
    · exact ho _ h

theorem bad_type {x : TErr} (h : Ans.err .bad_type_operation = .err x) : missing x = false := by
  cases h; rfl

theorem addOther_err {fl : FloatOps} {l r : View} {x : TErr} (h : addOther fl l r = .err x) :
    missing x = false := by
  unfold addOther concat at h
  repeat' split at h
  all_goals first | cases h <;> rfl

theorem binary_err {fl : FloatOps} {op : Tok} {l r : View} {x : TErr} (h : binary fl op l r = .err x) :
    missing x = false := by
  have hb : ∀ b, bool b = .err x → missing x = false := by intro b h; cases h
  unfold binary at h
  split at h
  · exact arith_err (fun _ _ _ h => (exact_err h).elim) (fun _ h => addOther_err h) h
  · exact arith_err (fun _ _ _ h => (exact_err h).elim) (fun _ h => bad_type h) h
  · exact arith_err (fun _ _ _ h => (exact_err h).elim) (fun _ h => bad_type h) h
  · refine arith_err (fun _ _ _ h => ?_) (fun _ h => bad_type h) h
    split at h
    · cases h; rfl
    · exact (exact_err h).elim
  · repeat' split at h
    all_goals cases h <;> rfl
  · exact hb _ h
  · exact hb _ h
  · unfold equal at h
    repeat' split at h
    all_goals first
      | exact hb _ h
      | exact arith_err (fun _ _ _ h => by cases h) (fun _ h => bad_type h) h
  all_goals first
    | exact arith_err (fun _ _ _ h => by cases h) (fun _ h => bad_type h) h
    | cases h

theorem unary_err {fl : FloatOps} {op : Tok} {v : View} {x : TErr} (h : unary fl op v = .err x) :
    missing x = false := by
  unfold unary at h
  split at h
  · split at h
    · exact (exact_err h).elim
    · exact bad_type h
  · cases h
  · cases h

theorem binaryV_kept {N : Nat} {w : State} (hw : w.globals.length = N) (fl : FloatOps) (op : Tok)
    (a b : Val) : Kept N (binaryV fl op a b w) :=
  .look fun _ => .look fun _ => ansRes_kept hw fun _ h => binary_err h

theorem unaryV_kept {N : Nat} {w : State} (hw : w.globals.length = N) (fl : FloatOps) (op : Tok)
    (a : Val) : Kept N (unaryV fl op a w) :=
  .look fun _ => ansRes_kept hw fun _ h => unary_err h

theorem index_kept {N : Nat} {w : State} (hw : w.globals.length = N) (a i : Val) :
    Kept N (index a i w) := by
  unfold index
  refine .look fun x => ?_
  split
  · exact ⟨hw, rfl⟩
  · refine .look fun x => ?_
    repeat' split
    all_goals first | exact hw | exact ⟨hw, rfl⟩ | trivial

theorem update_kept {N : Nat} {w : State} (hw : w.globals.length = N) (a i v : Val) :
    Kept N (update a i v w) := by
  unfold update
  refine .look fun x => ?_
  split
  · refine .look fun x => ?_
    split
    · split
      · trivial
      · split
        · refine .look fun x => ?_
          exact hw
        · exact ⟨hw, rfl⟩
    · exact ⟨hw, rfl⟩
  · exact ⟨hw, rfl⟩

theorem member_kept {N : Nat} {w : State} (hw : w.globals.length = N) (a : Val) (n : Str) :
    Kept N (member a n w) := by
  unfold member
  refine .look fun x => ?_
  cases x with
  | arr k =>
    dsimp only
    generalize str "length" = l
    split
    · exact hw
    · exact ⟨hw, rfl⟩
  | _ => exact ⟨hw, rfl⟩

/-- Calls keep them. -/
def CallKept (callF : CallF) (N : Nat) : Prop :=
  ∀ i args w, w.globals.length = N → Kept N (callF i args w)

theorem apply_kept {N : Nat} (hc : CallKept callF N) (hh : HostKept cx N) {w : State}
    (hw : w.globals.length = N) (v : Val) (args : List Val) : Kept N (cx.apply callF v args w) := by
  have other : ∀ v, Kept N (look v w fun _ => (.err .bad_type_operation w : Res Val)) :=
    fun v => .look fun _ => ⟨hw, rfl⟩
  cases v with
  | func a =>
    unfold Ctx.apply
    dsimp only
    cases ha : cx.funAt a with
    | none => trivial
    | some i =>
      dsimp only
      cases hi : cx.prog[i]? with
      | none => trivial
      | some x =>
        cases x with
        | func f =>
          dsimp only
          by_cases hl : f.args.length = args.length
          · rw [if_pos hl]; exact hc _ _ _ hw
          · rw [if_neg hl]; exact ⟨hw, rfl⟩
        | _ => trivial
  | syscall j =>
    unfold Ctx.apply
    dsimp only
    by_cases hj : j.toInt < 0
    · rw [if_pos hj]; trivial
    · rw [if_neg hj]
      cases cx.table[j.toInt.toNat]? with
      | none => trivial
      | some y =>
        dsimp only
        cases y.call with
        | none => trivial
        | some fn => exact hh _ _ _ hw
  | none => trivial
  | int x => exact other (.int x)
  | float x => exact other (.float x)
  | str x => exact other (.str x)
  | arr x => exact other (.arr x)

mutual

theorem evalE_kept (hc : CallKept callF (cx.slot cx.prog.length)) (hh : HostKept cx (cx.slot cx.prog.length))
    (ρ : Vars) : ∀ (x : Expr Ref) (w : State), w.globals.length = cx.slot cx.prog.length →
      Kept (cx.slot cx.prog.length) (evalE cx callF ρ x w)
  | .ident _ r, w, hw => ident_kept _ _ hw
  | .int .., w, hw => hw
  | .float .., w, hw => hw
  | .str .., w, hw => hw
  | .none _, w, hw => hw
  | .member _ m r, w, hw => (get_kept _ _ hw).bind fun a w hw => member_kept hw _ _
  | .arr _ es, w, hw => (evalEs_kept hc hh ρ es w hw).bind fun vs w hw => hw
  | .deref _ l i, w, hw => (evalE_kept hc hh ρ i w hw).bind fun i w hw =>
      (evalE_kept hc hh ρ l w hw).bind fun a w hw => index_kept hw _ _
  | .call _ c as, w, hw => (evalEs_kept hc hh ρ as w hw).bind fun vs w hw =>
      (evalE_kept hc hh ρ c w hw).bind fun c w hw => apply_kept hc hh hw _ _
  | .bin op l r, w, hw => (evalE_kept hc hh ρ l w hw).bind fun a w hw =>
      (evalE_kept hc hh ρ r w hw).bind fun b w hw => by
        split
        · trivial
        · exact binaryV_kept hw _ _ _ _
  | .un op a, w, hw => (evalE_kept hc hh ρ a w hw).bind fun a w hw => by
        split
        · exact unaryV_kept hw _ _ _
        · trivial

theorem evalEs_kept (hc : CallKept callF (cx.slot cx.prog.length))
    (hh : HostKept cx (cx.slot cx.prog.length)) (ρ : Vars) : ∀ (xs : List (Expr Ref)) (w : State),
      w.globals.length = cx.slot cx.prog.length →
      Kept (cx.slot cx.prog.length) (evalEs cx callF ρ xs w)
  | [], w, hw => hw
  | x :: xs, w, hw => (evalE_kept hc hh ρ x w hw).bind fun v w hw =>
      (evalEs_kept hc hh ρ xs w hw).bind fun vs w hw => hw

end

theorem andThen_kept {N : Nat} {fl : Flow} {w : State} {f : Vars → State → Res Flow}
    (hw : w.globals.length = N) (hf : ∀ ρ, Kept N (f ρ w)) : Kept N (fl.andThen w f) := by
  cases fl with
  | next ρ => exact hf ρ
  | ret v => exact hw

theorem loop_kept {N : Nat} {test : Vars → State → Res Bool} {body : Vars → State → Res Flow}
    (ht : ∀ ρ w, w.globals.length = N → Kept N (test ρ w))
    (hb : ∀ ρ w, w.globals.length = N → Kept N (body ρ w)) : ∀ n ρ w, w.globals.length = N →
      Kept N (loop test body n ρ w)
  | 0, _, _, _ => trivial
  | n + 1, ρ, w, hw => (ht ρ w hw).bind fun b w hw => by
      split
      · exact (hb ρ w hw).bind fun fl w hw => andThen_kept hw fun ρ => loop_kept ht hb n ρ w hw
      · exact hw

mutual

theorem evalS_kept (hc : CallKept callF (cx.slot cx.prog.length)) (hh : HostKept cx (cx.slot cx.prog.length))
    (zi : Ref → Bool) (n : Nat) : ∀ (x : Stmt Ref) (ρ : Vars) (w : State),
      w.globals.length = cx.slot cx.prog.length →
      Kept (cx.slot cx.prog.length) (evalS cx callF zi n x ρ w)
  | .var _ r init, ρ, w, hw => by
    unfold evalS
    split
    · split
      · split <;> exact hw
      · exact (evalE_kept hc hh ρ _ w hw).bind fun v w hw => hw
    · trivial
  | .assign _ r x, ρ, w, hw => (evalE_kept hc hh ρ x w hw).bind fun v w hw =>
      (set_kept _ _ _ hw).bind fun ρ w hw => hw
  | .assignArr _ r i x, ρ, w, hw => (evalE_kept hc hh ρ x w hw).bind fun v w hw =>
      (evalE_kept hc hh ρ i w hw).bind fun i w hw => (get_kept _ _ hw).bind fun a w hw =>
        (update_kept hw _ _ _).bind fun _ w hw => hw
  | .assignMem _ _ r x, ρ, w, hw => (evalE_kept hc hh ρ x w hw).bind fun v w hw =>
      (get_kept _ _ hw).bind fun _ w hw => ⟨hw, rfl⟩
  | .call _ c as, ρ, w, hw => (evalEs_kept hc hh ρ as w hw).bind fun vs w hw =>
      (evalE_kept hc hh ρ c w hw).bind fun c w hw =>
        (apply_kept hc hh hw _ _).bind fun _ w hw => hw
  | .ifS _ c thn hasElse els, ρ, w, hw => (evalE_kept hc hh ρ c w hw).bind fun v w hw =>
      .look fun x => by
        split
        · exact (evalB_kept hc hh zi n thn ρ w hw).bind fun fl w hw => hw
        · split
          · exact (evalB_kept hc hh zi n els ρ w hw).bind fun fl w hw => hw
          · exact hw
  | .whileS _ c body, ρ, w, hw => by
    unfold evalS
    refine loop_kept (fun ρ w hw => ?_) (fun ρ w hw => ?_) n ρ w hw
    · exact (evalE_kept hc hh ρ c w hw).bind fun v w hw => .look fun x => hw
    · exact (evalB_kept hc hh zi n body ρ w hw).bind fun fl w hw => hw
  | .forS _ _ r a b body, ρ, w, hw => by
    unfold evalS
    refine (evalE_kept hc hh ρ a w hw).bind fun v w hw => (set_kept _ _ _ hw).bind fun ρ w hw =>
      loop_kept (fun ρ w hw => ?_) (fun ρ w hw => ?_) n ρ w hw
    · exact (get_kept _ _ hw).bind fun i w hw => (evalE_kept hc hh ρ b w hw).bind fun z w hw =>
        (binaryV_kept hw _ _ _ _).bind fun v w hw => .look fun x => hw
    · exact (evalB_kept hc hh zi n body ρ w hw).bind fun fl w hw =>
        andThen_kept hw fun ρ => (get_kept _ _ hw).bind fun i w hw =>
          (binaryV_kept hw _ _ _ _).bind fun v w hw => (set_kept _ _ _ hw).bind fun ρ w hw => hw
  | .ret _ none, _, w, hw => hw
  | .ret _ (some x), ρ, w, hw => (evalE_kept hc hh ρ x w hw).bind fun v w hw => hw

theorem evalB_kept (hc : CallKept callF (cx.slot cx.prog.length)) (hh : HostKept cx (cx.slot cx.prog.length))
    (zi : Ref → Bool) (n : Nat) : ∀ (xs : List (Stmt Ref)) (ρ : Vars) (w : State),
      w.globals.length = cx.slot cx.prog.length →
      Kept (cx.slot cx.prog.length) (evalB cx callF zi n xs ρ w)
  | [], ρ, w, hw => hw
  | x :: xs, ρ, w, hw => (evalS_kept hc hh zi n x ρ w hw).bind fun fl w hw =>
      andThen_kept hw fun ρ => evalB_kept hc hh zi n xs ρ w hw

end

theorem callFn_kept (hh : HostKept cx (cx.slot cx.prog.length)) (zi : Nat → Ref → Bool) :
    ∀ n, CallKept (callFn cx zi n) (cx.slot cx.prog.length)
  | 0 => fun _ _ _ _ => trivial
  | n + 1 => fun i args w hw => by
    unfold callFn
    split
    · split
      · exact (evalB_kept (callFn_kept hh zi n) hh _ _ _ _ _ hw).bind fun fl w hw => hw
      · trivial
    · trivial

theorem initVars_kept (hc : CallKept callF (cx.slot cx.prog.length))
    (hh : HostKept cx (cx.slot cx.prog.length)) : ∀ (xs : List (Item Ref)) (i : Nat) (w : State),
      w.globals.length = cx.slot cx.prog.length →
      Kept (cx.slot cx.prog.length) (initVars cx callF i xs w)
  | [], i, w, hw => hw
  | .var _ false (some x) :: xs, i, w, hw => (evalE_kept hc hh _ x w hw).bind fun v w hw =>
      (set_kept _ _ _ hw).bind fun _ w hw => initVars_kept hc hh xs _ w hw
  | .var _ false none :: xs, i, w, hw => initVars_kept hc hh xs _ w hw
  | .var _ true _ :: xs, i, w, hw => initVars_kept hc hh xs _ w hw
  | .func _ :: xs, i, w, hw => initVars_kept hc hh xs _ w hw
  | .syscall .. :: xs, i, w, hw => initVars_kept hc hh xs _ w hw

/-- Starting a program with global variables makes their number right. -/
theorem startUp_kept (hh : HostKept cx (cx.slot cx.prog.length)) (zi : Nat → Ref → Bool) (n : Nat)
    (w : State) (h : 0 < cx.slot cx.prog.length ∨ w.globals.length = 0) :
    Kept (cx.slot cx.prog.length) (startUp cx zi n w) := by
  refine initVars_kept (callFn_kept hh zi n) hh _ _ _ ?_
  split
  · omega
  · simp

end

/-! ### The built-in functions -/

theorem builtin_kept {N : Nat} {w : State} (hw : w.globals.length = N) (fl : FloatOps) (prog : Program)
    (b : Builtin) (args : List Val) : Kept N (builtin fl prog b args w) := by
  have he : ∀ z : Int, Kept N ((exact z).res w) := fun z => ansRes_kept hw fun _ h => (exact_err h).elim
  have hi : ∀ x a, integer fl x = some a → Kept N (a.res w) := by
    intro x a h
    unfold integer at h
    split at h
    · cases h; exact hw
    · cases h
      split <;> first | exact hw | trivial
    · cases h
  have hm : ∀ f v, Kept N (math fl f v w) := by
    intro f v
    refine .look fun x => ?_
    split <;> first | exact hw | exact ⟨hw, rfl⟩
  have hp : ∀ f a b, Kept N (pick fl f a b w) := by
    intro f a b
    refine .look fun x => .look fun y => ?_
    split <;> first | exact hw | exact ⟨hw, rfl⟩
  unfold builtin
  split <;> first
    | exact hm _ _
    | exact hp _ _ _
    | trivial
    | exact ⟨hw, rfl⟩
    | (refine .look fun x => ?_
       repeat' split
       all_goals first
        | exact hw
        | exact ⟨hw, rfl⟩
        | trivial
        | exact he _
        | (rename_i h; exact hi _ _ h)
        | (refine .look fun y => ?_
           repeat' split
           all_goals first | exact hw | exact ⟨hw, rfl⟩ | trivial))

theorem Kept.lookAll {N : Nat} {w : State} {f : List View → Res Val} (h : ∀ xs, Kept N (f xs)) :
    ∀ (vs : List Val) (acc : List View), Kept N (Sem.lookAll vs acc w f)
  | [], acc => h acc
  | _ :: vs, _ => .look fun _ => Kept.lookAll h vs _

theorem hostFn_kept {N : Nat} {w : State} (hw : w.globals.length = N) (fl : FloatOps) (b : HostFn) (args : List Val) :
    Kept N (hostFn fl b args w) := by
  unfold hostFn
  split
  · refine .look fun x => ?_
    split <;> first | trivial | exact hw | exact ⟨hw, rfl⟩
  · refine .look fun x => ?_
    split <;> first | trivial | exact hw | exact ⟨hw, rfl⟩
  · split <;> exact hw
  · split
    · trivial
    · exact hw
  · exact hw
  · split
    · refine .lookAll (fun xs => ?_) _ _
      split
      · trivial
      · exact hw
    · trivial
  · trivial

theorem builtins_kept {cx : Ctx} {fl : FloatOps} {prog : Program} (h : cx.host = builtins fl prog)
    (N : Nat) : HostKept cx N := by
  intro fn args w hw
  rw [h]
  unfold builtins
  split
  · exact builtin_kept hw _ _ _ _
  · split
    · exact hostFn_kept hw _ _ _
    · trivial

end Ccml.Sem
