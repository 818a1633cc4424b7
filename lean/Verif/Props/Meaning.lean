import Verif.Props.Frames
import Verif.SrcPart
/-!
The meaning of a source the theorems C57, C60, C62, C71, C79 and C80 speak about: it does not depend on the bound of the
evaluator, and the meanings with host functions taken away (C79) and up to the `N`th call (C80) are parts of it.
-/
namespace Ccml.Props
open Sem (State Res)

/-- The source says that the call ends in `r`, with some bound on the depth of calls and the rounds of loops. -/
def Says (cx : Src.Ctx) (name : Str) (args : List Val) (w : State) (r : Res Val) : Prop :=
  r ≠ .timeout ∧ ∃ n, Src.call cx n name args w = r

/-- C57: a call has one meaning. -/
theorem C57_one_meaning {cx : Src.Ctx} {name : Str} {args : List Val} {w : State} {r r' : Res Val}
    (h : Says cx name args w r) (h' : Says cx name args w r') : r = r' := by
  obtain ⟨h1, n, rfl⟩ := h
  obtain ⟨h2, m, rfl⟩ := h'
  rcases Nat.le_total n m with hl | hl
  · exact (Src.call_more hl h1).symm
  · exact Src.call_more hl h2

/-- C57: every larger bound gives the same meaning: to a call, and to the start of the program. -/
theorem C57_any_bound {cx : Src.Ctx} {name : Str} {args : List Val} {w : State} {n m : Nat} (h : n ≤ m) :
    (Src.call cx n name args w ≠ .timeout → Src.call cx m name args w = Src.call cx n name args w) ∧
    (Src.startUp cx n w ≠ .timeout → Src.startUp cx m w = Src.startUp cx n w) :=
  ⟨Src.call_more h, Src.startUp_more h⟩

theorem unbound_apply (fs : List FnPtr) (cx : Src.Ctx) (f g : Sem.CallF) (j : I32) (args : List Val) (w : State) :
    Src.Part (.fault .assert) ((unbound fs cx).apply f (.syscall j) args w) (cx.apply g (.syscall j) args w) := by
  unfold Src.Ctx.apply
  dsimp only
  by_cases hj : j.toInt < 0
  · rw [if_pos hj, if_pos hj]
    exact .rfl _
  · rw [if_neg hj, if_neg hj]
    rw [show (unbound fs cx).table = cx.table.map fun s => { s with call := s.call.filter fun f => !fs.contains f } from rfl,
      List.getElem?_map]
    cases cx.table[j.toInt.toNat]? with
    | none => exact .rfl _
    | some s =>
      dsimp only [Option.map_some]
      cases hs : s.call with
      | none => exact .rfl _
      | some fn =>
        by_cases hf : (!fs.contains fn) = true
        · simp only [Option.filter, hf, if_true]
          exact .rfl _
        · simp only [Option.filter, hf]
          exact .inl rfl

/-- C79: the meaning with host functions taken away is the meaning of the source, unless one of them is called. -/
theorem C79_meaning (fs : List FnPtr) {cx : Src.Ctx} {n : Nat} {name : Str} {args : List Val} {w : State}
    (h : Src.call (unbound fs cx) n name args w ≠ .fault .assert) :
    Src.call cx n name args w = Src.call (unbound fs cx) n name args w := by
  have hN : cx.table.map Syscall.name = (unbound fs cx).table.map Syscall.name := by
    show _ = List.map _ (List.map _ _)
    rw [List.map_map]
    rfl
  rcases Src.part_call (b := .fault .assert) (cx := unbound fs cx) (T := cx.table) (H := cx.host) hN
    (fun f g j args w => unbound_apply fs cx f g j args w) (n := n) (m := n) (.inl rfl) name args w with k | k
  · revert k h
    cases Src.call (unbound fs cx) n name args w <;> intro h k
    all_goals first
      | exact k.elim
      | exact absurd (congrArg Res.fault k) h
  · exact k.symm

/-- C80: the meaning up to the `N`th call is the meaning of the source, unless there are as many calls. -/
theorem C80_meaning (N : Nat) {cx : Src.Ctx} {n : Nat} {name : Str} {args : List Val} {w : State}
    (h : ∀ w', Src.call (upToCall N cx) n name args w ≠ .err cutErr w') :
    Src.call cx n name args w = Src.call (upToCall N cx) n name args w := by
  have hH : ∀ (f g : Sem.CallF) (j : I32) (args : List Val) (w : State),
      Src.Part (.err cutErr) ((upToCall N cx).apply f (.syscall j) args w) (cx.apply g (.syscall j) args w) := by
    intro f g j args w
    unfold Src.Ctx.apply
    dsimp only
    split
    · exact .rfl _
    · rw [show (upToCall N cx).table = cx.table from rfl]
      cases cx.table[j.toInt.toNat]? with
      | none => exact .rfl _
      | some s =>
        dsimp only
        cases s.call with
        | none => exact .rfl _
        | some fn =>
          show Src.Part _ (cutHost N cx.host fn args w) (cx.host fn args w)
          unfold cutHost
          cases cx.host fn args w with
          | ok v w' =>
            dsimp only
            split
            · exact .inl rfl
            · exact .rfl _
          | err => exact .rfl _
          | fault => exact .rfl _
          | timeout => exact .rfl _
          | undef => exact .rfl _
  rcases Src.part_call (b := .err cutErr) (cx := upToCall N cx) (T := cx.table) (H := cx.host) rfl
    hH (n := n) (m := n) (.inl rfl) name args w with k | k
  · revert k h
    cases Src.call (upToCall N cx) n name args w <;> intro h k
    all_goals first
      | exact k.elim
      | exact absurd (congrArg (Res.err · _) k) (h _)
  · exact k.symm

/-! ### Examples -/

/-- `C79_meaning` and `C57_one_meaning` for the program of C79: without `new_thread` and `wait` it returns 0, so it does
with them, and means nothing else. -/
example (r : Res Val) (h : Says (srcCtx drawTree drawProg toyFl sdlMap) (str "main") [] (mainState drawW) r) :
    ∃ w, r = .ok (.int 0) w ∧ w.io.sdl.tickMark = 15 := by
  obtain ⟨w, hr, hw⟩ : ∃ w, Src.call (unbound drawGone (srcCtx drawTree drawProg toyFl sdlMap)) 9 (str "main") [] (mainState drawW) =
      .ok (.int 0) w ∧ decide (w.io.sdl.tickMark = 15) = true := ok_of_check (by decide +kernel)
  refine ⟨w, C57_one_meaning h ⟨nofun, 9, ?_⟩, of_decide_eq_true hw⟩
  rw [C79_meaning drawGone (by rw [hr]; nofun), hr]

/-- `C80_meaning`: the program of C79 makes five calls, so nothing changes with a cut at the sixth. -/
example : ∃ w, Src.call (unbound drawGone (srcCtx drawTree drawProg toyFl sdlMap)) 9 (str "main") [] (mainState drawW) =
    .ok (.int 0) w ∧ w.io.asked = 5 := by
  obtain ⟨w, hr, hw⟩ : ∃ w, Src.call (upToCall 6 (unbound drawGone (srcCtx drawTree drawProg toyFl sdlMap))) 9 (str "main") []
      (mainState drawW) = .ok (.int 0) w ∧ decide (w.io.asked = 5) = true := ok_of_check (by decide +kernel)
  exact ⟨w, by rw [C80_meaning 6 (by rw [hr]; nofun), hr], of_decide_eq_true hw⟩

end Ccml.Props
