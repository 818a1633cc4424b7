import Verif.Safe
/-!
A step of generated code keeps the invariant (proof infrastructure).
-/
set_option linter.unusedSimpArgs false
namespace Ccml
open Sem (State Res)

section
variable {K : Lay} {e : Env Val Store} {cx : Sem.Ctx} {s : St Val Store} {n : Nat}
variable {F : Fn} {fr : Frame} {outer : List Frame} {pre post : Asm} {t : Option Token}

/-- What the cases of a step start from. -/
structure Start (K : Lay) (e : Env Val Store) (cx : Sem.Ctx) (s : St Val Store) (F : Fn) (fr : Frame)
    (outer : List Frame) (pre : Asm) (x : AIns × Option Token) (post : Asm) (stk : List Val) (w : State) :
    Prop where
  M : Mach e cx
  L : InPlace K e
  H : Here K F fr outer pre x post
  at_ : At s (F.pc + widthOf pre) stk (fr :: outer) w
  len : stk.length = fr.sp + heightAt 0 pre
  vals : ValsOk K w.mem.length stk
  w : StateOk K w

variable {w : State} {stk : List Val}

theorem globalOffset_le (q : Prog Ref) (i : Nat) : globalOffset q i ≤ q.countP Item.isSlot := by
  unfold globalOffset
  split
  · exact (List.take_sublist i q).countP_le
  · exact Nat.zero_le _

/-- Errors. -/
theorem err_ok {α : Type} {good : α → State → St Val Store → Prop} {x : TErr} (hx : x.usual = true)
    {pc : Nat} {frs} (ha : At s pc stk frs w) (hw : StateOk K w) (h : Once e s good (.err x w)) :
    StepOk K e s := by
  refine h.stepOk (fun _ _ _ k => (by cases k)) (fun y w' k => ?_) (fun _ k => (by cases k)) (by simp)
  cases k
  exact ⟨hw, hx, by rw [ha.memEq]; exact Nat.le_refl _⟩

theorem index_ok {a i : Val} (ha : ValOk K w.mem.length a) (hi : ValOk K w.mem.length i) (hw : StateOk K w) :
    (∃ v, Sem.index a i w = .ok v w ∧ ValOk K w.mem.length v) ∨
      ∃ x, Sem.index a i w = .err x w ∧ x.usual = true := by
  obtain ⟨av, hav⟩ := view_some ha
  obtain ⟨iv, hiv⟩ := view_some hi
  unfold Sem.index Sem.look
  rw [hav, hiv]
  dsimp only
  split
  · exact .inr ⟨_, rfl, by decide⟩
  split
  · rename_i k
    split
    · rename_i l
      have hl : l < w.mem.length := ha
      rw [List.getElem?_eq_getElem hl]
      dsimp only
      split
      · split
        · rename_i v hv
          exact .inl ⟨v, rfl, hw.mem _ (List.getElem_mem hl) _ (List.mem_of_getElem? hv)⟩
        · exact .inr ⟨_, rfl, by decide⟩
      · exact .inr ⟨_, rfl, by decide⟩
    · split
      · split
        · exact .inl ⟨_, rfl, trivial⟩
        · exact .inr ⟨_, rfl, by decide⟩
      · exact .inr ⟨_, rfl, by decide⟩
    · exact .inr ⟨_, rfl, by decide⟩
  · exact .inr ⟨_, rfl, by decide⟩

theorem update_ok {a i v : Val} (ha : ValOk K w.mem.length a) (hi : ValOk K w.mem.length i)
    (hv : ValOk K w.mem.length v) (hw : StateOk K w) :
    (∃ w', Sem.update a i v w = .ok () w' ∧ StateOk K w' ∧ w'.mem.length = w.mem.length) ∨
      ∃ x, Sem.update a i v w = .err x w ∧ x.usual = true := by
  obtain ⟨av, hav⟩ := view_some ha
  obtain ⟨iv, hiv⟩ := view_some hi
  obtain ⟨vv, hvv⟩ := view_some hv
  unfold Sem.update Sem.look
  rw [hav, hiv, hvv]
  dsimp only
  split
  · rename_i l
    have hl : l < w.mem.length := ha
    split
    · rw [List.getElem?_eq_getElem hl]
      dsimp only
      split
      · refine .inl ⟨_, rfl, hw.store (by simp) ?_, by simp⟩
        intro xs hx
        rw [List.length_set]
        rcases List.mem_or_eq_of_mem_set hx with hx | rfl
        · exact hw.mem xs hx
        · exact (hw.mem _ (List.getElem_mem hl)).set _ hv
      · exact .inr ⟨_, rfl, by decide⟩
    · exact .inr ⟨_, rfl, by decide⟩
  · exact .inr ⟨_, rfl, by decide⟩

theorem member_ok {a : Val} {x : Str} (ha : ValOk K w.mem.length a) :
    (∃ v, Sem.member a x w = .ok v w ∧ ValOk K w.mem.length v) ∨
      ∃ x', Sem.member a x w = .err x' w ∧ x'.usual = true := by
  obtain ⟨av, hav⟩ := view_some ha
  unfold Sem.member Sem.look
  rw [hav]
  dsimp only
  split
  · split
    · exact .inl ⟨_, rfl, trivial⟩
    · exact .inr ⟨_, rfl, by decide⟩
  · exact .inr ⟨_, rfl, by decide⟩

/-- An instruction that pushes a value of the store. -/
theorem pushed_ok {pc pc' : Nat} {rest frs frs'} {r : Res Val} (ha : At s pc' stk frs' w)
    (ho : Once e s (Pushed pc rest frs) r)
    (hr : (∃ v, r = .ok v w ∧ ValOk K w.mem.length v) ∨ ∃ x, r = .err x w ∧ x.usual = true)
    (hw : StateOk K w) (hv : ValsOk K w.mem.length rest) (hs : Stk K frs pc (rest.length + 1)) :
    StepOk K e s := by
  rcases hr with ⟨v, rfl, hv'⟩ | ⟨x, rfl, hx⟩
  · exact moved_ok (by rw [ha.memEq]; exact Nat.le_refl _) ho hw (.cons hv' hv) hs
  · exact err_ok hx ha hw ho

theorem read_i1 {fa : Str → I32} {pc : Nat} {x : AIns × Option Token} {l : Asm} {o : Op} {v : I32}
    (h : CodeAt e fa pc (x :: l)) (hb : x.1.resolve fa = .i1 o v) : read32 e.prog.code (pc + 1) = some v := by
  obtain ⟨pre, post, h, hl⟩ := h
  have : e.prog.code = (pre ++ [o.code]) ++ (le32 v ++ (bytesOf fa l ++ post)) := by
    rw [h]; simp [bytesOf, hb, Ins.bytes]
  rw [this, show pc + 1 = (pre ++ [o.code]).length by simp [hl]]
  exact read32_le32 ..

theorem read_i2 {fa : Str → I32} {pc : Nat} {x : AIns × Option Token} {l : Asm} {o : Op} {v u : I32}
    (h : CodeAt e fa pc (x :: l)) (hb : x.1.resolve fa = .i2 o v u) :
    read32 e.prog.code (pc + 1) = some v ∧ read32 e.prog.code (pc + 5) = some u := by
  obtain ⟨pre, post, h, hl⟩ := h
  constructor
  · have : e.prog.code = (pre ++ [o.code]) ++ (le32 v ++ (le32 u ++ (bytesOf fa l ++ post))) := by
      rw [h]; simp [bytesOf, hb, Ins.bytes]
    rw [this, show pc + 1 = (pre ++ [o.code]).length by simp [hl]]
    exact read32_le32 ..
  · have : e.prog.code = (pre ++ [o.code] ++ le32 v) ++ (le32 u ++ (bytesOf fa l ++ post)) := by
      rw [h]; simp [bytesOf, hb, Ins.bytes]
    rw [this, show pc + 5 = (pre ++ [o.code] ++ le32 v).length by simp [hl]]
    exact read32_le32 ..

namespace Start

/-- Pushing one value that refers to nothing new. -/
theorem push {x : AIns} (S : Start K e cx s F fr outer pre (x, t) post stk w) {v : Val}
    (hr : ∀ v, x ≠ .ins (.i1 .RET v)) (hx : x.after (heightAt 0 pre) = heightAt 0 pre + 1)
    (hv : ValOk K w.mem.length v)
    (ho : ∃ s', stepImp e s = .ok ((), s') ∧
      At s' (F.pc + widthOf pre + x.width) (v :: stk) (fr :: outer) w) : StepOk K e s := by
  refine moved_ok (by rw [S.at_.memEq]; exact Nat.le_refl _) ho S.w (.cons hv S.vals)
    (S.H.next S.L hr rfl ?_)
  have := S.len
  simp only [List.length_cons]
  omega

theorem getv {o : I32} (S : Start K e cx s F fr outer pre (.ins (.i1 .GETV o), t) post stk w) :
    StepOk K e s := by
  have hc := S.H.code S.L
  cases hv : stackAt stk (fr.sp + o.toInt) with
  | some v =>
    refine S.push (v := v) (fun _ k => (by cases k)) rfl ?_ (one_getv S.M hc S.at_ hv)
    unfold stackAt at hv
    split at hv
    · exact S.vals v (List.mem_reverse.1 (List.mem_of_getElem? hv))
    · cases hv
  | none =>
    have h1 := operand_at hc rfl S.at_.pc S.M.code
    have h2 : exec e (some .GETV) (fetched s) = .ok ((),
        { atPc s (F.pc + widthOf pre + 5) with th := { (atPc s (F.pc + widthOf pre + 5)).th with
            error := .bad_getv, finished := true, stack := e.mem.nil :: s.th.stack } }) := by
      have hcf : curFrame (atPc s (F.pc + widthOf pre + 5)) = .ok (fr, atPc s (F.pc + widthOf pre + 5)) := by
        simp only [curFrame, Ccml.atPc, S.at_.frames]
      simp only [exec, doGETV]
      rw [vm_bind_ok h1, vm_bind_ok hcf]
      have hg : stackGet e (fr.sp + o.toInt) (atPc s (F.pc + widthOf pre + 5)) = .ok (e.mem.nil,
          { atPc s (F.pc + widthOf pre + 5) with th := { (atPc s (F.pc + widthOf pre + 5)).th with
            error := .bad_getv, finished := true } }) := by
        simp only [stackGet, Ccml.atPc, S.at_.stack, hv, raise, modTh]
      rw [vm_bind_ok hg]
      rfl
    refine err_ok (x := .bad_getv) (by decide) S.at_ S.w (good := fun (_ : Unit) _ _ => True) ⟨_, step_ok S.at_ hc rfl S.M.code h2, Failed.bump ⟨rfl, rfl, ?_⟩⟩
    exact S.at_.state

theorem setv {o : I32} (S : Start K e cx s F fr outer pre (.ins (.i1 .SETV o), t) post stk w)
    (hn : F.loc + 1 ≤ heightAt 0 pre) : StepOk K e s := by
  have hc := S.H.code S.L
  obtain ⟨v, rest, rfl⟩ := cons1 (l := stk) (n := 0) (by have := S.len; omega)
  have hl := S.len
  simp only [List.length_cons] at hl
  by_cases hi : 0 ≤ (fr.sp : Int) + o.toInt ∧ (fr.sp : Int) + o.toInt < rest.length
  · obtain ⟨i, hi'⟩ := Int.eq_ofNat_of_zero_le hi.1
    refine moved_ok (by rw [S.at_.memEq]; exact Nat.le_refl _)
      (one_setv S.M hc S.at_ hi' (by omega)) S.w ?_ ?_
    · exact (S.vals.tail.reverse.set _ S.vals.head).reverse
    · refine S.H.next S.L (fun _ k => (by cases k)) rfl ?_
      unfold stackPut
      simp only [List.length_reverse, List.length_set, AIns.after]
      omega
  · have h1 := operand_at hc rfl S.at_.pc S.M.code
    have h2 : exec e (some .SETV) (fetched s) = .ok ((),
        { atPc s (F.pc + widthOf pre + 5) with th := { (atPc s (F.pc + widthOf pre + 5)).th with
            error := .bad_setv, finished := true, stack := rest } }) := by
      have hp := pop_cons (S.at_.atPc (F.pc + widthOf pre + 5)).stack
      have hcf : curFrame ((atPc s (F.pc + widthOf pre + 5)).withStack rest) =
          .ok (fr, (atPc s (F.pc + widthOf pre + 5)).withStack rest) := by
        simp only [curFrame, Ccml.atPc, St.withStack, S.at_.frames]
      simp only [exec, doSETV]
      rw [vm_bind_ok h1, vm_bind_ok hp, vm_bind_ok hcf]
      unfold stackSet
      rw [withStack_stack, if_neg hi]
      rfl
    refine err_ok (x := .bad_setv) (by decide) S.at_ S.w (good := fun (_ : Unit) _ _ => True) ⟨_, step_ok S.at_ hc rfl S.M.code h2, Failed.bump ⟨rfl, rfl, ?_⟩⟩
    exact S.at_.state

theorem getg {o : I32} (S : Start K e cx s F fr outer pre (.ins (.i1 .GETG o), t) post stk w)
    (hn : ∃ i, o = i32 (globalOffset K.q i)) : StepOk K e s := by
  obtain ⟨i, rfl⟩ := hn
  have hlt := Nat.lt_of_le_of_lt (globalOffset_le K.q i) S.L.slots
  refine pushed_ok S.at_ (one_getg S.M hlt (S.H.code S.L) S.at_) ?_ S.w S.vals
    (S.H.next S.L (fun _ k => (by cases k)) rfl (by have := S.len; simp only [AIns.after]; omega))
  split
  · rename_i v hv
    exact .inl ⟨v, rfl, S.w.globals v (List.mem_of_getElem? hv)⟩
  · exact .inr ⟨_, rfl, by decide⟩

theorem setg {o : I32} (S : Start K e cx s F fr outer pre (.ins (.i1 .SETG o), t) post stk w)
    (hn : F.loc + 1 ≤ heightAt 0 pre) (hi : ∃ i, o = i32 (globalOffset K.q i)) : StepOk K e s := by
  obtain ⟨i, rfl⟩ := hi
  obtain ⟨v, rest, rfl⟩ := cons1 (l := stk) (n := 0) (by have := S.len; omega)
  have hl := S.len
  simp only [List.length_cons] at hl
  have hlt := Nat.lt_of_le_of_lt (globalOffset_le K.q i) S.L.slots
  have ho := one_setg S.M hlt (S.H.code S.L) S.at_
  split at ho
  · refine moved_ok (by rw [S.at_.memEq]; exact Nat.le_refl _) ho
      ⟨S.w.mem, S.w.globals.set _ S.vals.head, S.w.before, S.w.after⟩ S.vals.tail
      (S.H.next S.L (fun _ k => (by cases k)) rfl (by simp only [AIns.after]; omega))
  · exact err_ok (by decide) S.at_ S.w ho

theorem binary {tok : Tok} {o : Op} (ho : opIns tok = some o)
    (S : Start K e cx s F fr outer pre (.ins (.i0 o), t) post stk w)
    (hn : F.loc + 2 ≤ heightAt 0 pre) (ha : (AIns.ins (.i0 o)).after (heightAt 0 pre) = heightAt 0 pre - 1) :
    StepOk K e s := by
  have hc := S.H.code S.L
  obtain ⟨b, a, rest, rfl⟩ := cons2 (l := stk) (n := 0) (by have := S.len; omega)
  have hl := S.len
  simp only [List.length_cons] at hl
  obtain ⟨r, hr⟩ := view_some S.vals.head
  obtain ⟨l, hl'⟩ := view_some S.vals.tail.head
  have h1 := one_binary S.M ho hc S.at_
  unfold Sem.binaryV Sem.look at h1
  rw [hr, hl'] at h1
  dsimp only at h1
  refine answer_ok S.at_.memEq h1 ?_ S.w S.vals.tail.tail
    (S.H.next S.L (fun _ k => (by cases k)) rfl (by rw [ha]; omega))
  exact binary_ok ho hl' hr (opAt_of S.at_ hc rfl) S.at_.stack

theorem neg (S : Start K e cx s F fr outer pre (.ins (.i0 .NEG), t) post stk w)
    (hn : F.loc + 1 ≤ heightAt 0 pre) : StepOk K e s := by
  have hc := S.H.code S.L
  obtain ⟨a, rest, rfl⟩ := cons1 (l := stk) (n := 0) (by have := S.len; omega)
  have hl := S.len
  simp only [List.length_cons] at hl
  obtain ⟨r, hr⟩ := view_some S.vals.head
  have h1 := one_neg S.M hc S.at_
  unfold Sem.unaryV Sem.look at h1
  rw [hr] at h1
  dsimp only at h1
  exact answer_ok S.at_.memEq h1 ((unary_ok hr S.at_.stack).1 (opAt_of S.at_ hc rfl)) S.w S.vals.tail
    (S.H.next S.L (fun _ k => (by cases k)) rfl (by simp only [AIns.after]; omega))

theorem not (S : Start K e cx s F fr outer pre (.ins (.i0 .NOT), t) post stk w)
    (hn : F.loc + 1 ≤ heightAt 0 pre) : StepOk K e s := by
  have hc := S.H.code S.L
  obtain ⟨a, rest, rfl⟩ := cons1 (l := stk) (n := 0) (by have := S.len; omega)
  have hl := S.len
  simp only [List.length_cons] at hl
  obtain ⟨r, hr⟩ := view_some S.vals.head
  have h1 := one_not S.M hc S.at_
  unfold Sem.unaryV Sem.look at h1
  rw [hr] at h1
  dsimp only at h1
  exact answer_ok S.at_.memEq h1 (unary_ok hr S.at_.stack).2 S.w S.vals.tail
    (S.H.next S.L (fun _ k => (by cases k)) rfl (by simp only [AIns.after]; omega))

theorem deref (S : Start K e cx s F fr outer pre (.ins (.i0 .DEREF), t) post stk w)
    (hn : F.loc + 2 ≤ heightAt 0 pre) : StepOk K e s := by
  obtain ⟨a, i, rest, rfl⟩ := cons2 (l := stk) (n := 0) (by have := S.len; omega)
  have hl := S.len
  simp only [List.length_cons] at hl
  exact pushed_ok S.at_ (one_deref S.M (S.H.code S.L) S.at_)
    (index_ok S.vals.head S.vals.tail.head S.w) S.w S.vals.tail.tail
    (S.H.next S.L (fun _ k => (by cases k)) rfl (by simp only [AIns.after]; omega))

theorem seta (S : Start K e cx s F fr outer pre (.ins (.i0 .SETA), t) post stk w)
    (hn : F.loc + 3 ≤ heightAt 0 pre) : StepOk K e s := by
  obtain ⟨a, i, v, rest, rfl⟩ := cons3 (l := stk) (n := 0) (by have := S.len; omega)
  have hl := S.len
  simp only [List.length_cons] at hl
  have ho := one_seta S.M (S.H.code S.L) S.at_
  rcases update_ok S.vals.head S.vals.tail.head S.vals.tail.tail.head S.w with ⟨w', h1, h2, h3⟩ | ⟨x, h1, h2⟩
  · rw [h1] at ho
    refine moved_ok (by rw [S.at_.memEq, h3]; exact Nat.le_refl _) ho h2 ?_
      (S.H.next S.L (fun _ k => (by cases k)) rfl (by simp only [AIns.after]; omega))
    rw [h3]
    exact S.vals.tail.tail.tail
  · rw [h1] at ho
    exact err_ok h2 S.at_ S.w ho

/-- The string of an instruction. -/
theorem text {o : Op} {v : I32} (S : Start K e cx s F fr outer pre (.ins (.i1 o v), t) post stk w)
    (ho : o.isText = true) : ∃ i x, v = i32 i ∧ i < 2147483648 ∧ e.prog.strings[i]? = some x := by
  refine (S.L.ok F S.H.mem).text (.ins (.i1 o v), t) ?_ ho
  rw [S.H.asm]
  simp

theorem getm {v : I32} (S : Start K e cx s F fr outer pre (.ins (.i1 .GETM v), t) post stk w)
    (hn : F.loc + 1 ≤ heightAt 0 pre) : StepOk K e s := by
  obtain ⟨i, x, rfl, hi, hx⟩ := S.text rfl
  obtain ⟨a, rest, rfl⟩ := cons1 (l := stk) (n := 0) (by have := S.len; omega)
  have hl := S.len
  simp only [List.length_cons] at hl
  exact pushed_ok S.at_ (one_getm S.M hi hx (S.H.code S.L) S.at_)
    (member_ok S.vals.head) S.w S.vals.tail
    (S.H.next S.L (fun _ k => (by cases k)) rfl (by simp only [AIns.after]; omega))

theorem setm {v : I32} (S : Start K e cx s F fr outer pre (.ins (.i1 .SETM v), t) post stk w)
    (hn : F.loc + 2 ≤ heightAt 0 pre) : StepOk K e s := by
  obtain ⟨i, x, rfl, hi, hx⟩ := S.text rfl
  obtain ⟨a, b, rest, rfl⟩ := cons2 (l := stk) (n := 0) (by have := S.len; omega)
  exact err_ok (by decide) S.at_ S.w (one_setm S.M hi hx (S.H.code S.L) S.at_
    (good := fun (_ : Unit) _ _ => True) (fun _ _ _ h => h))

theorem array {v : I32} (S : Start K e cx s F fr outer pre (.ins (.i1 .ARY_INIT v), t) post stk w)
    (hn : ∃ n, v = i32 n ∧ 0 < n ∧ n < 2147483648 ∧ F.loc + n ≤ heightAt 0 pre) : StepOk K e s := by
  obtain ⟨n, rfl, h0, h1, h2⟩ := hn
  obtain ⟨vs, rest, rfl, rfl⟩ := splitTop (l := stk) (n := n) (by have := S.len; omega)
  have hl := S.len
  simp only [List.length_append, List.length_reverse] at hl
  refine moved_ok (w := { w with mem := w.mem ++ [vs] }) ?_
    (one_array S.M h1 (by rintro rfl; simp at h0) (S.H.code S.L) S.at_) ?_ ?_ ?_
  · rw [S.at_.memEq]
    simp
  · refine S.w.store (by simp) ?_
    intro xs hx
    rcases List.mem_append.1 hx with hx | hx
    · exact (S.w.mem xs hx).mono (by simp)
    · rw [List.mem_singleton.1 hx]
      intro y hy
      exact (S.vals.left y (List.mem_reverse.2 hy)).mono (by simp)
  · refine .cons ?_ (S.vals.right.mono (by simp))
    show w.mem.length < (w.mem ++ [vs]).length
    simp
  · refine S.H.next S.L (fun _ k => (by cases k)) rfl ?_
    simp only [AIns.after, toNat_i32 h1, List.length_cons]
    omega

theorem pop (S : Start K e cx s F fr outer pre (.ins (.i1 .POP 1), t) post stk w)
    (hn : F.loc + 1 ≤ heightAt 0 pre) : StepOk K e s := by
  obtain ⟨a, rest, rfl⟩ := cons1 (l := stk) (n := 0) (by have := S.len; omega)
  have hl := S.len
  simp only [List.length_cons] at hl
  exact moved_ok (by rw [S.at_.memEq]; exact Nat.le_refl _) (one_pop S.M (S.H.code S.L) S.at_) S.w
    S.vals.tail (S.H.next S.L (fun _ k => (by cases k)) rfl (by simp only [AIns.after]; omega))

theorem locals (S : Start K e cx s F fr outer pre (.ins (.i1 .LOCALS (i32 F.loc)), t) post stk w) :
    StepOk K e s := by
  have hk : F.loc < 2147483648 := by have := (S.L.ok F S.H.mem).small; omega
  refine moved_ok (by rw [S.at_.memEq]; exact Nat.le_refl _) (one_locals S.M hk (S.H.code S.L) S.at_) S.w
    ((ValsOk.replicate _).append S.vals) (S.H.next S.L (fun _ k => (by cases k)) rfl ?_)
  have := S.len
  simp only [List.length_append, List.length_replicate, AIns.after, toNat_i32 hk]
  omega

theorem globals (S : Start K e cx s F fr outer pre
    (.ins (.i1 .GLOBALS (i32 (K.q.countP Item.isSlot))), t) post stk w) : StepOk K e s := by
  have ho := one_globals S.M S.L.slots (S.H.code S.L) S.at_
  have hw : ∀ k, StateOk K (if k = 0 then w else { w with globals := List.replicate k .none }) ∧
      (if k = 0 then w else { w with globals := List.replicate k .none }).mem.length = w.mem.length := by
    intro k
    split
    · exact ⟨S.w, rfl⟩
    · exact ⟨⟨S.w.mem, .replicate _, S.w.before, S.w.after⟩, rfl⟩
  refine moved_ok ?_ ho (hw _).1 ?_ (S.H.next S.L (fun _ k => (by cases k)) rfl S.len)
  · rw [S.at_.memEq, (hw _).2]
    exact Nat.le_refl _
  · rw [(hw _).2]
    exact S.vals

theorem jmp {v : I32} (S : Start K e cx s F fr outer pre (.ins (.i1 .JMP v), t) post stk w)
    (hn : ∃ p, v = i32 p ∧ Spot F.pc 0 F.asm p (heightAt 0 pre)) : StepOk K e s := by
  obtain ⟨p, rfl, hp⟩ := hn
  exact moved_ok (by rw [S.at_.memEq]; exact Nat.le_refl _)
    (one_jmp S.M (spot_small S.M S.L S.H.mem hp) (S.H.code S.L) S.at_) S.w S.vals (S.H.jump hp S.len)

theorem tjmp {v : I32} (S : Start K e cx s F fr outer pre (.ins (.i1 .TJMP v), t) post stk w)
    (hn : F.loc + 1 ≤ heightAt 0 pre)
    (hp : ∃ p, v = i32 p ∧ Spot F.pc 0 F.asm p (heightAt 0 pre - 1)) : StepOk K e s := by
  obtain ⟨p, rfl, hp⟩ := hp
  obtain ⟨a, rest, rfl⟩ := cons1 (l := stk) (n := 0) (by have := S.len; omega)
  have hl := S.len
  simp only [List.length_cons] at hl
  obtain ⟨x, hx⟩ := view_some S.vals.head
  have ho := one_tjmp S.M (spot_small S.M S.L S.H.mem hp) (S.H.code S.L) S.at_
  unfold Sem.look at ho
  rw [hx] at ho
  dsimp only at ho
  obtain ⟨s', h1, -, h2⟩ := ho
  refine moved_ok (by rw [S.at_.memEq]; exact Nat.le_refl _) ⟨s', h1, h2⟩ S.w S.vals.tail ?_
  split
  · exact S.H.jump hp (by omega)
  · exact S.H.next S.L (fun _ k => (by cases k)) rfl (by simp only [AIns.after]; omega)

theorem fjmp {v : I32} (S : Start K e cx s F fr outer pre (.ins (.i1 .FJMP v), t) post stk w)
    (hn : F.loc + 1 ≤ heightAt 0 pre)
    (hp : ∃ p, v = i32 p ∧ Spot F.pc 0 F.asm p (heightAt 0 pre - 1)) : StepOk K e s := by
  obtain ⟨p, rfl, hp⟩ := hp
  obtain ⟨a, rest, rfl⟩ := cons1 (l := stk) (n := 0) (by have := S.len; omega)
  have hl := S.len
  simp only [List.length_cons] at hl
  obtain ⟨x, hx⟩ := view_some S.vals.head
  have ho := one_fjmp S.M (spot_small S.M S.L S.H.mem hp) (S.H.code S.L) S.at_
  unfold Sem.look at ho
  rw [hx] at ho
  dsimp only at ho
  obtain ⟨s', h1, -, h2⟩ := ho
  refine moved_ok (by rw [S.at_.memEq]; exact Nat.le_refl _) ⟨s', h1, h2⟩ S.w S.vals.tail ?_
  split
  · exact S.H.next S.L (fun _ k => (by cases k)) rfl (by simp only [AIns.after]; omega)
  · exact S.H.jump hp (by omega)

theorem ret (S : Start K e cx s F fr outer pre (.ins (.i1 .RET (i32 (F.nargs + F.loc))), t) post stk w)
    (hn : heightAt 0 pre = F.loc + 1) : StepOk K e s := by
  have hargs := S.H.args
  obtain ⟨v, rest, rfl⟩ := cons1 (l := stk) (n := 0) (by have := S.len; omega)
  have hl := S.len
  simp only [List.length_cons] at hl
  obtain ⟨top, below, rfl, ht⟩ : ∃ top below : List Val, rest = top ++ below ∧ top.length = F.nargs + F.loc :=
    ⟨rest.take (F.nargs + F.loc), rest.drop (F.nargs + F.loc), by simp, by simp; omega⟩
  simp only [List.length_append] at hl
  obtain ⟨s', h1, h2⟩ := one_ret S.M (S.L.ok F S.H.mem).small ht (S.H.code S.L) S.at_
  have hm : s'.mem = w.mem := by rw [← h2.state]; rfl
  have hvals : ValsOk K s'.mem.length s'.th.stack := by
    rw [hm, h2.stack]
    exact .cons S.vals.head S.vals.tail.right
  refine .inl ⟨s', h1, ⟨?_, by rw [h2.state]; exact S.w⟩, by rw [S.at_.memEq, hm]; exact Nat.le_refl _⟩
  by_cases hf : s'.th.finished = true
  · exact .inl ⟨hf, fun _ => ⟨by rw [h2.stack]; simp, hvals⟩, fun k => absurd h2.error k⟩
  · have hf : s'.th.finished = false := by simpa using hf
    refine .inr ⟨hf, h2.error, hvals, ?_⟩
    rw [h2.frames, h2.pc, h2.stack]
    have hfin := h2.finished
    rw [hf] at hfin
    rcases S.H.back with hb | hb | hb
    · rw [hb] at hfin; simp at hfin
    · rw [hb] at hfin; simp at hfin
    · have : fr.sp - F.nargs + 1 = (v :: below).length := by simp only [List.length_cons]; omega
      rwa [this] at hb

/-- Calling a function of the program. -/
theorem enter (S : Start K e cx s F fr outer pre (x, t) post stk w) {G : Fn} (hG : G ∈ K.fns)
    {rest : List Val} (hr : ∀ v, x ≠ .ins (.i1 .RET v)) (hle : G.nargs ≤ rest.length)
    (hv : ValsOk K w.mem.length rest)
    (hh : rest.length - G.nargs + 1 = fr.sp + x.after (heightAt 0 pre))
    (ho : ∃ s', stepImp e s = .ok ((), s') ∧ At s' G.pc rest
      (⟨rest.length, (F.pc + widthOf pre + x.width : Nat), G.pc, false⟩ :: fr :: outer) w) :
    StepOk K e s :=
  moved_ok (by rw [S.at_.memEq]; exact Nat.le_refl _) ho S.w hv
    (enter_stk S.L hG hle (.inr (.inr (S.H.next S.L hr rfl hh))))

theorem call {k : I32} {f : Str} (S : Start K e cx s F fr outer pre (.call k f, t) post stk w)
    (hn : ∃ F', Item.func F' ∈ K.q ∧ F'.name.str = f ∧ k = i32 F'.args.length ∧
      F'.args.length < 2147483648 ∧ F.loc + F'.args.length ≤ heightAt 0 pre) : StepOk K e s := by
  obtain ⟨f', h1, rfl, rfl, h2, h3⟩ := hn
  obtain ⟨G, hG, h4, h5⟩ := S.L.call f' h1
  have hl := S.len
  have hs := (S.L.ok G hG).code.le
  have hs' := S.M.small
  refine S.enter hG (rest := stk) (fun _ k => (by cases k)) (by omega) S.vals ?_
    (one_call S.M (by rw [h4, toInt_i32 (by omega)]) (S.H.code S.L) S.at_)
  simp only [AIns.after, toNat_i32 h2]
  omega

/-- Calling a host function. -/
theorem host (HS : HostSound K cx) (S : Start K e cx s F fr outer pre (x, t) post stk w) {rest args : List Val}
    {nm : Str} {a : Option Nat} {j pc : Nat} (h1 : Item.syscall nm a ∈ K.q)
    (h2 : sysIndex K.sys nm = some j) (h3 : a = none ∨ a = some args.length)
    (ho : Once e s (Pushed pc rest (fr :: outer)) (hostCall cx (i32 j) args w))
    (hc : ∀ f y, e.prog.syscalls[j]? = some y → HostFault e.fl s.io y.name args f → Cause e s f)
    (ha : ValsOk K w.mem.length args) (hr : ValsOk K w.mem.length rest)
    (hst : Stk K (fr :: outer) pc (rest.length + 1)) : StepOk K e s := by
  have hm := S.at_.memEq
  have hans := HS.answers nm a j args w h1 h2 h3
  have key : ∀ {r}, hostCall cx (i32 j) args w = r → (∃ f, r = .fault f) ∨
      ∃ fn, cx.host fn args w = r := by
    intro r hr
    unfold hostCall at hr
    split at hr
    · exact .inl ⟨_, hr.symm⟩
    · split at hr
      · exact .inl ⟨_, hr.symm⟩
      · split at hr
        · exact .inl ⟨_, hr.symm⟩
        · exact .inr ⟨_, hr⟩
  have hc : ∀ f, hostCall cx (i32 j) args w = .fault f → Cause e s f := by
    intro f hf
    obtain ⟨y, k1, k2⟩ := HS.faults nm a j args w f h1 h2 h3 ha hf
    exact hc f y (by rw [S.M.table]; exact k1) (by rw [S.M.fl, S.at_.ioEq]; exact k2)
  refine ho.stepOk ?_ ?_ hc hans
  · intro v w' s' hr' hg
    rcases key hr' with ⟨f, hf⟩ | ⟨fn, hfn⟩
    · cases hf
    · obtain ⟨k1, k2, k3⟩ := HS.ok fn args w v w' ha S.w hfn
      have hg : At s' pc (v :: rest) (fr :: outer) w' := hg
      exact ⟨at_sound hg k1 (.cons k2 (hr.mono k3)) hst, by rw [hm, hg.memEq]; exact k3⟩
  · intro y w' hr'
    rcases key hr' with ⟨f, hf⟩ | ⟨fn, hfn⟩
    · cases hf
    · rw [hm]
      exact HS.err fn args w y w' ha S.w hfn

theorem scall (HS : HostSound K cx) {n v : I32}
    (S : Start K e cx s F fr outer pre (.ins (.i2 .SCALL n v), t) post stk w)
    (hn : ∃ k, n = i32 k ∧ k < 2147483648 ∧ F.loc + k ≤ heightAt 0 pre ∧
      ∃ s a j, Item.syscall s a ∈ K.q ∧ sysIndex K.sys s = some j ∧ v = i32 j ∧ (a = none ∨ a = some k)) :
    StepOk K e s := by
  obtain ⟨k, rfl, h1, h2, nm, a, j, h3, h4, rfl, h5⟩ := hn
  obtain ⟨vs, rest, rfl, rfl⟩ := splitTop (l := stk) (n := k) (by have := S.len; omega)
  have hl := S.len
  simp only [List.length_append, List.length_reverse] at hl
  have hc := S.H.code S.L
  refine S.host HS (args := vs) h3 h4 h5 (one_scall S.M h1 hc S.at_) ?_
    (fun y hy => S.vals.left y (List.mem_reverse.2 hy)) S.vals.right
    (S.H.next S.L (fun _ k => (by cases k)) rfl (by simp only [AIns.after, toNat_i32 h1]; omega))
  intro f y hy hf
  have hop := read_i2 hc rfl
  refine .host hy ?_ (.inl ⟨opAt_of S.at_ hc rfl, ?_, S.at_.stack⟩) hf
  · rw [S.at_.pc]; exact hop.1
  · rw [S.at_.pc]; exact hop.2

theorem icall (HS : HostSound K cx) {v : I32}
    (S : Start K e cx s F fr outer pre (.ins (.i1 .ICALL v), t) post stk w)
    (hn : ∃ n, v = i32 n ∧ n < 2147483648 ∧ F.loc + n + 1 ≤ heightAt 0 pre) : StepOk K e s := by
  obtain ⟨n, rfl, h1, h2⟩ := hn
  have hc := S.H.code S.L
  obtain ⟨c, rest, rfl⟩ := cons1 (l := stk) (n := 0) (by have := S.len; omega)
  have hl := S.len
  simp only [List.length_cons] at hl
  have other : c ≠ .none → (∀ a, c ≠ .func a) → (∀ a, c ≠ .syscall a) → StepOk K e s := by
    intro k1 k2 k3
    obtain ⟨x, hx⟩ := view_some S.vals.head
    have ho := one_icall_other S.M (good := fun (_ : Unit) _ _ => True) (fun _ _ _ h => h) hc S.at_ k1 k2 k3
    unfold Sem.look at ho
    rw [hx] at ho
    exact err_ok (by decide) S.at_ S.w ho
  cases c with
  | none =>
    have ho := one_icall_none S.M (good := fun (_ : Unit) _ _ => True) (fun _ _ _ h => h) hc S.at_
    exact .inr ⟨_, ho, .callNone (opAt_of S.at_ hc rfl) S.at_.stack⟩
  | func a =>
    obtain ⟨G, hG, rfl⟩ := S.vals.head
    obtain ⟨P, hP, hPn⟩ := S.L.find G hG
    by_cases hk : P.numArgs = n
    · have hs := (S.L.ok G hG).code.le
      have hs' := S.M.small
      refine S.enter hG (rest := rest) (fun _ k => (by cases k)) (by omega) S.vals.tail ?_
        (one_icall S.M h1 (toInt_i32 (by omega)) hP hk hc S.at_)
      simp only [AIns.after, toNat_i32 h1]
      omega
    · exact err_ok (x := .bad_num_args) (by decide) S.at_ S.w (good := fun (_ : Unit) _ _ => True)
        (one_icall_bad S.M h1 hP hk hc S.at_)
  | syscall j =>
    obtain ⟨nm, j, h3, h4, rfl⟩ := S.vals.head
    obtain ⟨vs, rest, rfl, rfl⟩ := splitTop (l := rest) (n := n) (by omega)
    simp only [List.length_append, List.length_reverse] at hl
    refine S.host HS (args := vs) h3 h4 (.inl rfl) (one_icall_sys S.M h1 hc S.at_) ?_
      (fun y hy => S.vals.tail.left y (List.mem_reverse.2 hy)) S.vals.tail.right
      (S.H.next S.L (fun _ k => (by cases k)) rfl (by simp only [AIns.after, toNat_i32 h1]; omega))
    intro f y hy hf
    refine .host hy ?_ (.inr ⟨opAt_of S.at_ hc rfl, S.at_.stack⟩) hf
    rw [S.at_.pc]
    exact read_i1 hc rfl
  | int => exact other (by simp) (by simp) (by simp)
  | float => exact other (by simp) (by simp) (by simp)
  | str => exact other (by simp) (by simp) (by simp)
  | arr => exact other (by simp) (by simp) (by simp)

end Start

/-- A step of generated code keeps the invariant, or has one of the causes. -/
theorem step_steady (M : Mach e cx) (L : InPlace K e) (HS : HostSound K cx) (hs : Steady K s)
    (hf : s.th.finished = false) : StepOk K e s := by
  rcases hs.th with ⟨h1, -⟩ | ⟨h1, h2, h3, h4⟩
  · rw [hf] at h1; cases h1
  cases hfr : s.th.frames with
  | nil => rw [hfr] at h4; exact h4.elim
  | cons fr outer =>
    rw [hfr] at h4
    obtain ⟨F, hF, pre, ⟨x, t⟩, post, k1, k2, k3, k4, k5⟩ := h4
    have S : Start K e cx s F fr outer pre (x, t) post s.th.stack (stOf s) :=
      ⟨M, L, ⟨hF, k1, k4, k5⟩, ⟨k2, rfl, hfr, rfl, h1, h2⟩, k3, h3, hs.rest⟩
    have hn := S.H.needs L
    have hc := S.H.code L
    match x, hn with
    | .ins (.i0 o), hn =>
      cases o <;> first
        | exact hn.elim
        | exact S.not hn
        | exact S.neg hn
        | exact S.push (v := .none) (fun _ k => (by cases k)) rfl trivial (one_none M hc S.at_)
        | exact S.seta hn
        | exact S.deref hn
        | exact S.binary (tok := .ADD) rfl hn rfl
        | exact S.binary (tok := .SUB) rfl hn rfl
        | exact S.binary (tok := .MUL) rfl hn rfl
        | exact S.binary (tok := .DIV) rfl hn rfl
        | exact S.binary (tok := .MOD) rfl hn rfl
        | exact S.binary (tok := .AND) rfl hn rfl
        | exact S.binary (tok := .OR) rfl hn rfl
        | exact S.binary (tok := .LT) rfl hn rfl
        | exact S.binary (tok := .GT) rfl hn rfl
        | exact S.binary (tok := .LEQ) rfl hn rfl
        | exact S.binary (tok := .GEQ) rfl hn rfl
        | exact S.binary (tok := .EQ) rfl hn rfl
    | .ins (.i1 o v), hn =>
      cases o with
      | NEW_INT => exact S.push (v := .int v) (fun _ k => (by cases k)) rfl trivial (one_int M hc S.at_)
      | NEW_FLT => exact S.push (v := .float v) (fun _ k => (by cases k)) rfl trivial (one_float M hc S.at_)
      | NEW_STR =>
        obtain ⟨i, x, rfl, hi, hx⟩ := S.text rfl
        exact S.push (v := .str x) (fun _ k => (by cases k)) rfl trivial (one_str M hc hi hx S.at_)
      | NEW_SCALL =>
        obtain ⟨-, nm, j, g1, g2, rfl⟩ := hn
        have hj : j < 2147483648 := Nat.lt_trans (sysIndex_lt g2) L.sys
        exact S.push (v := .syscall (i32 j)) (fun _ k => (by cases k)) rfl ⟨nm, j, g1, g2, rfl⟩
          (one_syscall M hc (by rw [toInt_i32 hj]; omega) S.at_)
      | GETV => exact S.getv
      | SETV => exact S.setv hn
      | GETG => exact S.getg hn.2
      | SETG => exact S.setg hn.1 hn.2
      | GETM => exact S.getm hn
      | SETM => exact S.setm hn
      | POP =>
        obtain ⟨rfl, hn⟩ := hn
        exact S.pop hn
      | TJMP => exact S.tjmp hn.1 hn.2
      | FJMP => exact S.fjmp hn.1 hn.2
      | JMP => exact S.jmp hn
      | RET =>
        obtain ⟨hn, rfl⟩ := hn
        exact S.ret hn
      | ARY_INIT => exact S.array hn
      | ICALL => exact S.icall HS hn
      | LOCALS =>
        obtain ⟨-, rfl⟩ := hn
        exact S.locals
      | GLOBALS =>
        have hn : v = _ := hn
        subst hn
        exact S.globals
      | _ => exact hn.elim
    | .ins (.i2 o n v), hn =>
      obtain ⟨rfl, hn⟩ := hn
      exact S.scall HS hn
    | .call n f, hn => exact S.call hn
    | .fn f, hn =>
      obtain ⟨-, f', g1, rfl⟩ := hn
      obtain ⟨G, hG, g2, g3⟩ := L.call f' g1
      have hs := (L.ok G hG).code.le
      have hs' := M.small
      exact S.push (v := .func (K.fa f'.name.str)) (fun _ k => (by cases k)) rfl ⟨G, hG, g2⟩
        (one_func M hc (by rw [g2, toInt_i32 (by omega)]; omega) S.at_)

end
end Ccml
