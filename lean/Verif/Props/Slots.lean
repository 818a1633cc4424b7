import Verif.Whole
import Verif.Bounds
import Verif.SampleProg
/-!
C24: variables that are in scope together never share storage.
-/
set_option linter.unusedSimpArgs false
namespace Ccml.Props

/-! ### Specification -/

/-- The local variables in scope after a statement. -/
def scopeAfter (vis : List Ref) : Stmt Ref → List Ref
  | .var _ r _ => r :: vis
  | _ => vis

mutual
/-- The local variables in scope at the points inside a statement. -/
def pointsS (vis : List Ref) : Stmt Ref → List (List Ref)
  | .ifS _ _ thn _ els => pointsB vis thn ++ pointsB vis els
  | .whileS _ _ body => pointsB vis body
  | .forS _ _ _ _ _ body => pointsB vis body
  | _ => []
/-- The local variables in scope at the points of a block: before, inside and after each statement. -/
def pointsB (vis : List Ref) : List (Stmt Ref) → List (List Ref)
  | [] => [vis]
  | s :: ss => vis :: (pointsS vis s ++ pointsB (scopeAfter vis s) ss)
end

/-- What a function can name at a point where the local variables `vis` are in scope. -/
def Named (f : FuncDecl Ref) (vis : List Ref) : Ref → Prop
  | .item _ => True
  | .arg i => i < f.args.length
  | .loc k => .loc k ∈ vis

/-! ### Proofs -/

theorem inj_of_nodup {α β : Type} {f : α → β} {l : List α} (h : (l.map f).Nodup) {a b : α} (ha : a ∈ l)
    (hb : b ∈ l) (he : f a = f b) : a = b := by
  induction l with
  | nil => cases ha
  | cons x l ih =>
    simp only [List.map_cons, List.nodup_cons] at h
    rcases List.mem_cons.1 ha with rfl | ha' <;> rcases List.mem_cons.1 hb with rfl | hb'
    · rfl
    · exact absurd (he ▸ List.mem_map_of_mem hb') h.1
    · exact absurd (he ▸ List.mem_map_of_mem ha') h.1
    · exact ih h.2 ha' hb'

section
variable {ls : List LocalVar} (hn : (ls.map LocalVar.ref).Nodup)
include hn

mutual
theorem slots_stmt : ∀ (s : Stmt Ref) (cur : Nat) (vis : List Ref), (∀ x ∈ (offS cur s).1, x ∈ ls) →
    vis.map (localOffset ls) = (List.range cur).reverse →
    (∀ v ∈ pointsS vis s, ∃ n, v.map (localOffset ls) = (List.range n).reverse) ∧
    (scopeAfter vis s).map (localOffset ls) = (List.range (offS cur s).2).reverse
  | .var t r init, cur, vis, hm, hv => by
    refine ⟨by simp [pointsS], ?_⟩
    have := localOffset_mem hn (hm ⟨t, r, cur⟩ (by simp [offS]))
    simp only [scopeAfter, offS, List.map_cons, this, hv, List.range_succ, List.reverse_append,
      List.reverse_singleton, List.singleton_append]
  | .assign .., cur, vis, hm, hv => ⟨by simp [pointsS], hv⟩
  | .assignArr .., cur, vis, hm, hv => ⟨by simp [pointsS], hv⟩
  | .assignMem .., cur, vis, hm, hv => ⟨by simp [pointsS], hv⟩
  | .call .., cur, vis, hm, hv => ⟨by simp [pointsS], hv⟩
  | .ret .., cur, vis, hm, hv => ⟨by simp [pointsS], hv⟩
  | .ifS t c thn he els, cur, vis, hm, hv => by
    simp only [offS, List.mem_append] at hm
    refine ⟨fun v h => ?_, hv⟩
    simp only [pointsS, List.mem_append] at h
    exact h.elim (slots_block thn cur vis (fun x hx => hm x (.inl hx)) hv v)
      (slots_block els cur vis (fun x hx => hm x (.inr hx)) hv v)
  | .whileS t c body, cur, vis, hm, hv => ⟨slots_block body cur vis hm hv, hv⟩
  | .forS t nm r a b body, cur, vis, hm, hv => ⟨slots_block body cur vis hm hv, hv⟩
theorem slots_block : ∀ (b : List (Stmt Ref)) (cur : Nat) (vis : List Ref), (∀ x ∈ (offB cur b).1, x ∈ ls) →
    vis.map (localOffset ls) = (List.range cur).reverse →
    ∀ v ∈ pointsB vis b, ∃ n, v.map (localOffset ls) = (List.range n).reverse
  | [], cur, vis, hm, hv, v, h => by
    simp only [pointsB, List.mem_singleton] at h
    subst h
    exact ⟨cur, hv⟩
  | s :: ss, cur, vis, hm, hv, v, h => by
    simp only [offB, List.mem_append] at hm
    obtain ⟨h1, h2⟩ := slots_stmt s cur vis (fun x hx => hm x (.inl hx)) hv
    simp only [pointsB, List.mem_cons, List.mem_append] at h
    rcases h with rfl | h | h
    · exact ⟨cur, hv⟩
    · exact h1 v h
    · exact slots_block ss _ _ (fun x hx => hm x (.inr hx)) h2 v h
end
end

mutual
theorem points_decl_stmt : ∀ (s : Stmt Ref) (vis : List Ref),
    (∀ v ∈ pointsS vis s, ∀ r ∈ v, r ∈ vis ∨ r ∈ declsS s) ∧ ∀ r ∈ scopeAfter vis s, r ∈ vis ∨ r ∈ declsS s
  | .var t r init, vis => by
    refine ⟨by simp [pointsS], ?_⟩
    intro x hx
    simp only [scopeAfter, List.mem_cons] at hx
    simp only [declsS, List.mem_singleton]
    exact hx.symm
  | .assign .., vis => ⟨by simp [pointsS], fun r hr => .inl hr⟩
  | .assignArr .., vis => ⟨by simp [pointsS], fun r hr => .inl hr⟩
  | .assignMem .., vis => ⟨by simp [pointsS], fun r hr => .inl hr⟩
  | .call .., vis => ⟨by simp [pointsS], fun r hr => .inl hr⟩
  | .ret .., vis => ⟨by simp [pointsS], fun r hr => .inl hr⟩
  | .ifS t c thn he els, vis => by
    refine ⟨fun v h r hr => ?_, fun r hr => .inl hr⟩
    simp only [pointsS, List.mem_append] at h
    simp only [declsS, List.mem_append]
    rcases h with h | h
    · exact (points_decl_block thn vis v h r hr).imp_right .inl
    · exact (points_decl_block els vis v h r hr).imp_right .inr
  | .whileS t c body, vis => ⟨points_decl_block body vis, fun r hr => .inl hr⟩
  | .forS t nm r a b body, vis => ⟨points_decl_block body vis, fun r hr => .inl hr⟩
theorem points_decl_block : ∀ (b : List (Stmt Ref)) (vis : List Ref),
    ∀ v ∈ pointsB vis b, ∀ r ∈ v, r ∈ vis ∨ r ∈ declsB b
  | [], vis, v, h, r, hr => by
    simp only [pointsB, List.mem_singleton] at h
    subst h
    exact .inl hr
  | s :: ss, vis, v, h, r, hr => by
    obtain ⟨h1, h2⟩ := points_decl_stmt s vis
    simp only [pointsB, List.mem_cons, List.mem_append] at h
    simp only [declsB, List.mem_append]
    rcases h with rfl | h | h
    · exact .inl hr
    · exact (h1 v h r hr).imp_right .inl
    · rcases points_decl_block ss _ v h r hr with k | k
      · exact (h2 r k).imp_right .inl
      · exact .inr (.inr k)
end

section
variable {L : Layout} {opt : Bool} {p : Prog Unit} {q : Prog Ref} {prog : Program} {i : Nat} {f : FuncDecl Ref}

/-- C24: at every point of a function the local variables in scope have the offsets 0, 1, 2, … in the
order in which they were declared, all below the reserved size. -/
theorem C24_locals (h : Compiles L opt p q prog) (hf : q[i]? = some (.func f)) :
    ∀ vis ∈ pointsB [] f.body, vis.reverse.map (funcCtx q f).off = List.range vis.length ∧
      ∀ r ∈ vis, (funcCtx q f).off r < (funcCtx q f).size := by
  have hn : ((funcLocals f.body).map LocalVar.ref).Nodup := by
    rw [funcLocals_refs]
    exact h.names.2.2 f (List.mem_of_getElem? hf)
  intro vis hv
  refine ⟨?_, fun r hr => ?_⟩
  · obtain ⟨n, h1⟩ := slots_block hn f.body 0 [] (fun x hx => hx) rfl vis hv
    have hl : vis.length = n := by simpa using congrArg List.length h1
    rw [List.map_reverse]
    show (vis.map (localOffset (funcLocals f.body))).reverse = _
    rw [h1, List.reverse_reverse, hl]
  · have hd := (points_decl_block f.body [] vis hv r hr).resolve_left (by simp)
    rw [← funcLocals_refs] at hd
    obtain ⟨x, hx, rfl⟩ := List.mem_map.1 hd
    show localOffset (funcLocals f.body) x.ref < stackSize (funcLocals f.body)
    rw [localOffset_mem hn hx]
    exact stackSize_gt hx

theorem argOffset_toInt {n i : Nat} (hn : n < 2147483648) (hi : i < n) :
    (argOffset n i).toInt = (i : Int) - n := by
  unfold argOffset
  rw [BitVec.toInt_ofInt]
  apply Int.bmod_eq_of_le <;> omega

theorem i32_toInt {n : Nat} (hn : n < 2147483648) : (i32 n).toInt = n := by
  unfold i32 BitVec.toInt
  rw [BitVec.toNat_ofNat]
  split <;> omega

theorem slot_mono (p : Prog Ref) {i j : Nat} (hij : i < j) {t e} (hi : p[i]? = some (.var t false e)) :
    (p.take i).countP Item.isSlot < (p.take j).countP Item.isSlot := by
  have h1 : (p.take (i + 1)).countP Item.isSlot = (p.take i).countP Item.isSlot + 1 := by
    rw [List.take_add_one, hi]
    simp [List.countP_append, Item.isSlot]
  have h2 : (p.take (i + 1)).countP Item.isSlot ≤ (p.take j).countP Item.isSlot :=
    (List.take_sublist_take_left (by omega)).countP_le
  omega

/-- C24: different global variables have different slots. -/
theorem C24_globals {j : Nat} {t t' e e'} (hi : q[i]? = some (.var t false e)) (hj : q[j]? = some (.var t' false e'))
    (hne : i ≠ j) : globalOffset q i ≠ globalOffset q j := by
  unfold globalOffset
  rw [hi, hj]
  dsimp only
  rcases Nat.lt_or_gt_of_ne hne with h | h
  · exact Nat.ne_of_lt (slot_mono q h hi)
  · exact Nat.ne_of_gt (slot_mono q h hj)

/-- C24: two variables that can be named at the same point are at different places: if the code
generator uses the same instruction with the same operand for them they are the same variable. -/
theorem C24_places (h : Compiles L opt p q prog) (hf : q[i]? = some (.func f))
    (hs : f.args.length + (funcCtx q f).size < 2147483648) (hg : q.countP Item.isSlot < 2147483648) :
    ∀ vis ∈ pointsB [] f.body, ∀ r s x, Named f vis r → Named f vis s →
      varPlace (funcCtx q f) r = .ok x → varPlace (funcCtx q f) s = .ok x → r = s := by
  intro vis hv
  obtain ⟨h1, h2⟩ := C24_locals h hf vis hv
  have hn : (funcCtx q f).nargs = f.args.length := rfl
  have key : ∀ r s x, (∃ k, s = .loc k) → Named f vis r → Named f vis s →
      varPlace (funcCtx q f) r = .ok x → varPlace (funcCtx q f) s = .ok x → r = s := by
    rintro r s x ⟨k, rfl⟩ hr hs' kr ks
    cases r with
    | item a =>
      simp only [varPlace] at kr ks
      split at kr
      · cases ks; cases kr
      · cases kr
    | arg a =>
      simp only [varPlace] at kr ks
      cases ks
      simp only [Except.ok.injEq, Prod.mk.injEq, true_and] at kr
      have k1 := congrArg BitVec.toInt kr
      have hr' : a < f.args.length := hr
      rw [hn, argOffset_toInt (by omega) hr', i32_toInt (by have := h2 _ hs'; omega)] at k1
      omega
    | loc a =>
      simp only [varPlace] at kr ks
      cases ks
      simp only [Except.ok.injEq, Prod.mk.injEq, true_and] at kr
      have k1 := congrArg BitVec.toInt kr
      have ha := h2 _ hr
      have hk := h2 _ hs'
      rw [i32_toInt (by omega), i32_toInt (by omega)] at k1
      have hnd : (vis.reverse.map (funcCtx q f).off).Nodup := by rw [h1]; exact List.nodup_range
      exact inj_of_nodup hnd (List.mem_reverse.2 hr) (List.mem_reverse.2 hs') (by omega)
  intro r s x hr hs' kr ks
  cases s with
  | loc k => exact key r _ x ⟨k, rfl⟩ hr hs' kr ks
  | arg b =>
    cases r with
    | loc k => exact (key _ _ x ⟨k, rfl⟩ hs' hr ks kr).symm
    | item a =>
      simp only [varPlace] at kr ks
      split at kr
      · cases ks; cases kr
      · cases kr
    | arg a =>
      simp only [varPlace] at kr ks
      cases ks
      simp only [Except.ok.injEq, Prod.mk.injEq, true_and] at kr
      have k1 := congrArg BitVec.toInt kr
      have hr' : a < f.args.length := hr
      have hs'' : b < f.args.length := hs'
      rw [hn, argOffset_toInt (by omega) hr', argOffset_toInt (by omega) hs''] at k1
      exact congrArg Ref.arg (by omega)
  | item b =>
    cases r with
    | loc k => exact (key _ _ x ⟨k, rfl⟩ hs' hr ks kr).symm
    | arg a =>
      simp only [varPlace] at kr ks
      split at ks
      · cases ks; cases kr
      · cases ks
    | item a =>
      simp only [varPlace] at kr ks
      split at kr
      · rename_i t e ha
        split at ks
        · rename_i t' e' hb
          cases ks
          simp only [Except.ok.injEq, Prod.mk.injEq, true_and] at kr
          have k1 := congrArg BitVec.toInt kr
          have ha' : globalOffset q a < q.countP Item.isSlot := globalOffset_lt ha
          have hb' : globalOffset q b < q.countP Item.isSlot := globalOffset_lt hb
          have hq : (funcCtx q f).prog = q := rfl
          rw [hq, i32_toInt (by omega), i32_toInt (by omega)] at k1
          by_cases hab : a = b
          · rw [hab]
          · exact absurd (Int.ofNat.inj k1) (C24_globals ha hb hab)
        · cases ks
      · cases kr

/-- C24: arguments have negative operands, local variables in scope operands from 0 up to the
reserved size. -/
theorem C24_operands (h : Compiles L opt p q prog) (hf : q[i]? = some (.func f))
    (hs : f.args.length + (funcCtx q f).size < 2147483648) :
    (∀ k < f.args.length, ∃ a b o, varPlace (funcCtx q f) (.arg k) = .ok (a, b, o) ∧
      o.toInt = (k : Int) - f.args.length) ∧
    ∀ vis ∈ pointsB [] f.body, ∀ k, .loc k ∈ vis → ∃ a b o, varPlace (funcCtx q f) (.loc k) = .ok (a, b, o) ∧
      0 ≤ o.toInt ∧ o.toInt < (funcCtx q f).size := by
  refine ⟨fun k hk => ⟨_, _, _, rfl, argOffset_toInt (n := f.args.length) (by omega) hk⟩, fun vis hv k hk => ⟨_, _, _, rfl, ?_⟩⟩
  have := (C24_locals h hf vis hv).2 _ hk
  rw [i32_toInt (by omega)]
  omega

end

/-! ### Example -/

/-- `function f(a, b)` with `var x`, an `if` with `var y` in one branch and `var z, var u` in the other, and
`var v` behind. -/
def slotsTree : Prog Unit :=
  [.var (nm "g") false none, .var (nm "c") true (some (lit 1)), .var (nm "h") false none,
   .func { name := nm "f", args := [nm "a", nm "b"], stop := tk .END "end", body := [
     .var (nm "x") () none,
     .ifS (tk .IF "if") (ix "a") [.var (nm "y") () (some (ix "b"))] true
       [.var (nm "z") () none, .var (nm "u") () (some (ix "a"))],
     .var (nm "v") () (some (ix "x"))] }]

theorem slotsTree_ok : compilesB slotsTree = true := by decide +kernel

/-- The points of `f`, and the offsets at them: `y`, `z` and `v` share a slot. -/
example : (match (treeOf slotsTree)[3]? with
    | some (Item.func f) =>
      ((pointsB [] f.body).map fun vis => vis.map fun r => localOffset (funcLocals f.body) r) ==
        [[], [0], [0], [1, 0], [0], [1, 0], [2, 1, 0], [0], [1, 0]] && stackSize (funcLocals f.body) == 3
    | _ => false) = true := by decide +kernel

end Ccml.Props
