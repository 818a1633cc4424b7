import Verif.Samples
/-!
C55: instructions that move data.  Each theorem gives the complete effect of one instruction after
its operand has been read (`readOperand` only advances the program counter, see
`C55_operand`).  Also C40: breakpoints as a set of lines, and the line table as a map.
-/
set_option linter.unusedSimpArgs false
namespace Ccml.Props
open Ccml
variable {P M : Type}

/-! ### Operands -/

/-- An operand is the four bytes at the program counter, which moves behind them. -/
theorem C55_operand (e : Env P M) (s : St P M) (pre post : List Byte) (v : I32)
    (hc : e.prog.code = pre ++ le32 v ++ post) (hp : s.th.pc = pre.length)
    (hl : 4 < e.prog.code.length) :
    readOperand e s = .ok (v, { s with th := { s.th with pc := s.th.pc + 4 } }) := by
  have h4 : read32 e.prog.code pre.length = some v := by
    unfold read32
    rw [hc, List.append_assoc, List.drop_left]
    have hv : ∀ v : I32, of32 ((v >>> 0).setWidth 8) ((v >>> 8).setWidth 8) ((v >>> 16).setWidth 8)
        ((v >>> 24).setWidth 8) = v := by
      intro v
      unfold of32
      apply BitVec.eq_of_getLsbD_eq
      intro i hi
      simp only [BitVec.getLsbD_or, BitVec.getLsbD_shiftLeft, BitVec.getLsbD_setWidth,
        BitVec.getLsbD_ushiftRight]
      by_cases h1 : i < 8
      · have : (i < 32) := by omega
        simp [h1, this, show i < 16 by omega, show i < 24 by omega]
      · by_cases h2 : i < 16
        · simp [h1, h2, hi, show i < 24 by omega, show i - 8 < 8 by omega, show i - 8 < 32 by omega,
            show 8 + (i - 8) = i by omega]
        · by_cases h3 : i < 24
          · simp [h1, h2, h3, hi, show ¬ i - 8 < 8 by omega, show i - 16 < 8 by omega,
              show i - 16 < 32 by omega, show 16 + (i - 16) = i by omega]
          · simp [h1, h2, h3, hi, show ¬ i - 8 < 8 by omega, show ¬ i - 16 < 8 by omega,
              show i - 24 < 8 by omega, show i - 24 < 32 by omega, show 24 + (i - 24) = i by omega]
    simp only [le32, List.cons_append, List.nil_append, hv]
  unfold readOperand
  rw [if_neg (by simpa using hl), if_neg (by omega), hp]
  simp only [Int.toNat_natCast, h4]

/-! ### Constants -/

/-- The constant instructions push exactly their constant. -/
theorem C55_constants (e : Env Val Store) (he : e.mem = Mem.abs) (s s1 : St Val Store) (v : I32)
    (h1 : readOperand e s = .ok (v, s1)) :
    exec e (some .NEW_INT) s = .ok ((), s1.withStack (.int v :: s1.th.stack)) ∧
    exec e (some .NEW_FLT) s = .ok ((), s1.withStack (.float v :: s1.th.stack)) ∧
    (0 ≤ v.toInt →
      exec e (some .NEW_FUNC) s = .ok ((), s1.withStack (.func v :: s1.th.stack)) ∧
      exec e (some .NEW_SCALL) s = .ok ((), s1.withStack (.syscall v :: s1.th.stack))) ∧
    (∀ t, 0 ≤ v.toInt → e.prog.strings[v.toNat]? = some t →
      exec e (some .NEW_STR) s = .ok ((), s1.withStack (.str t :: s1.th.stack))) ∧
    (0 < v.toInt → exec e (some .NEW_ARY) s = .ok ((), { s1.withStack (.arr s1.mem.length :: s1.th.stack)
      with mem := s1.mem ++ [List.replicate v.toNat .none] })) ∧
    exec e (some .NEW_NONE) s = .ok ((), s.withStack (.none :: s.th.stack)) := by
  refine ⟨?_, ?_, fun h0 => ⟨?_, ?_⟩, fun t h0 ht => ?_, fun h0 => ?_, ?_⟩
  · simp only [exec, doNEW_INT]; rw [vm_bind_ok h1]
    simp only [pushInt, pushNew, he, Mem.abs]; rfl
  · simp only [exec, doNEW_FLT]; rw [vm_bind_ok h1]
    simp only [pushFloat, pushNew, he, Mem.abs]; rfl
  · simp only [exec, doNEW_FUNC]; rw [vm_bind_ok h1, if_neg (by omega)]
    simp only [pushFunc, pushNew, he, Mem.abs]; rfl
  · simp only [exec, doNEW_SCALL]; rw [vm_bind_ok h1, if_neg (by omega)]
    simp only [pushSyscall, pushNew, he, Mem.abs]; rfl
  · have hlt : v.toNat < e.prog.strings.length := (List.getElem?_eq_some_iff.1 ht).1
    have hv : v.toInt = v.toNat := by
      have := BitVec.toInt_eq_toNat_cond v
      split at this <;> omega
    simp only [exec, doNEW_STR]; rw [vm_bind_ok h1, if_neg (by omega), if_neg (by omega)]
    simp only [ht, pushStr, pushNew, he, Mem.abs]; rfl
  · simp only [exec, doNEW_ARY]; rw [vm_bind_ok h1, if_neg (by omega)]
    simp only [pushNew, he, Mem.abs]; rfl
  · simp only [exec, doNEW_NONE, he, Mem.abs]; rfl

/-! ### The stack -/

/-- `POP n` removes exactly the top `n` values. -/
theorem C55_pop (e : Env P M) (s s1 : St P M) (n : I32) (top rest : List P)
    (h1 : readOperand e s = .ok (n, s1)) (hs : s1.th.stack = top ++ rest)
    (hn : (top.length : Int) = n.toInt) :
    exec e (some .POP) s = .ok ((), s1.withStack rest) := by
  have key : ∀ (top : List P) (s1 : St P M), s1.th.stack = top ++ rest →
      popN top.length s1 = .ok ((), s1.withStack rest) := by
    intro top
    induction top with
    | nil => intro s1 h; simp only [List.nil_append] at h; rw [← h]; rfl
    | cons a top ih =>
      intro s1 h
      simp only [List.length_cons, popN]
      rw [vm_bind_ok (pop_cons h), ih _ rfl]
      rfl
  simp only [exec, doPOP]
  rw [vm_bind_ok h1, ← hn, Int.toNat_natCast]
  exact key top s1 hs

/-- `LOCALS n` puts `n` times `none` on the stack. -/
theorem C55_locals (e : Env P M) (s s1 : St P M) (n : I32) (h1 : readOperand e s = .ok (n, s1))
    (hn : 0 ≤ n.toInt) :
    exec e (some .LOCALS) s =
      .ok ((), s1.withStack (List.replicate n.toInt.toNat e.mem.nil ++ s1.th.stack)) := by
  have hv : n.toInt.toNat = n.toNat := by
    have := BitVec.toInt_eq_toNat_cond n
    split at this <;> omega
  simp only [exec, doLOCALS]
  rw [vm_bind_ok h1, hv]
  rfl

/-! ### Globals -/

/-- `GLOBALS n` creates `n` globals, all `none`. -/
theorem C55_globals (e : Env P M) (s s1 : St P M) (n : I32) (h1 : readOperand e s = .ok (n, s1))
    (hn : 0 < n.toInt) :
    exec e (some .GLOBALS) s =
      .ok ((), { s1 with globals := List.replicate n.toInt.toNat e.mem.nil }) := by
  have hv : n.toInt.toNat = n.toNat := by
    have := BitVec.toInt_eq_toNat_cond n
    split at this <;> omega
  simp only [exec, doGLOBALS]
  rw [vm_bind_ok h1, if_neg (by rintro rfl; simp at hn), if_neg (by omega), hv]

/-- Reading a global pushes it; outside the globals the thread stops. -/
theorem C55_read_global (e : Env P M) (s s1 : St P M) (i : I32)
    (h1 : readOperand e s = .ok (i, s1)) :
    exec e (some .GETG) s = .ok ((),
      match (if 0 ≤ i.toInt then s1.globals[i.toInt.toNat]? else none) with
      | some v => s1.withStack (v :: s1.th.stack)
      | none => { s1 with th := { s1.th with error := .bad_get_global, finished := true } }) := by
  simp only [exec, doGETG]
  rw [vm_bind_ok h1, vm_bind_ok (vm_get s1)]
  by_cases h0 : i.toInt < 0
  · rw [if_pos h0, if_neg (by omega)]; rfl
  · have hv : i.toInt.toNat = i.toNat := by
      have := BitVec.toInt_eq_toNat_cond i
      split at this <;> omega
    rw [if_neg h0, if_pos (by omega), hv]
    cases s1.globals[i.toNat]? <;> rfl

/-- Writing a global replaces exactly that global; outside the globals the thread stops and
nothing is written. -/
theorem C55_write_global (e : Env P M) (s s1 : St P M) (i : I32) (w : P) (rest : List P)
    (h1 : readOperand e s = .ok (i, s1)) (hs : s1.th.stack = w :: rest) :
    exec e (some .SETG) s = .ok ((),
      if 0 ≤ i.toInt ∧ i.toInt < s1.globals.length then
        { s1.withStack rest with globals := s1.globals.set i.toInt.toNat w }
      else { s1 with th := { s1.th with error := .bad_set_global, finished := true } }) := by
  simp only [exec, doSETG]
  rw [vm_bind_ok h1, vm_bind_ok (vm_get s1)]
  by_cases h0 : 0 ≤ i.toInt ∧ i.toInt < s1.globals.length
  · have hv : i.toInt.toNat = i.toNat := by
      have := BitVec.toInt_eq_toNat_cond i
      split at this <;> omega
    rw [if_neg (by omega), if_pos h0, vm_bind_ok (pop_cons hs), hv]
    rfl
  · rw [if_pos (by omega), if_neg h0]; rfl

example : exec (toyEnv (Op.SETG.code :: le32 1)) (some .SETG)
    { toySt [.int 7] with th := { (toySt [.int 7]).th with pc := 1 }, globals := [.none, .none, .none] } =
    .ok ((), { toySt [] with th := { (toySt []).th with pc := 5 }, globals := [.none, .int 7, .none] }) := by
  rw [C55_write_global (e := toyEnv (Op.SETG.code :: le32 1)) (h1 := rfl) (hs := rfl)]
  rfl

/-! ### Jumps and host calls -/

/-- A jump continues at its operand. -/
theorem C55_jump (e : Env P M) (s s1 : St P M) (t : I32) (h1 : readOperand e s = .ok (t, s1)) :
    exec e (some .JMP) s = .ok ((), { s1 with th := { s1.th with pc := t.toInt } }) := by
  simp only [exec, doJMP]
  rw [vm_bind_ok h1]
  rfl

/-- A host call runs the function bound to the entry of the system call table named by the
second operand, with the argument count of the first. -/
theorem C55_host_call (e : Env P M) (s s1 s2 : St P M) (n i : I32) (sc : Syscall) (fn : FnPtr)
    (h1 : readOperand e s = .ok (n, s1)) (h2 : readOperand e s1 = .ok (i, s2)) (h0 : 0 ≤ i.toInt)
    (hi : e.prog.syscalls[i.toInt.toNat]? = some sc) (hf : sc.call = some fn) :
    exec e (some .SCALL) s = e.native fn n s2 := by
  have hv : i.toInt.toNat = i.toNat := by
    have := BitVec.toInt_eq_toNat_cond i
    split at this <;> omega
  rw [hv] at hi
  simp only [exec, doSCALL]
  rw [vm_bind_ok h1, vm_bind_ok h2, doSyscall, if_neg (by omega)]
  simp only [hi, hf]

/-- An indirect call of a host function does the same with the index found in the value. -/
theorem C55_indirect_host_call (e : Env Val Store) (he : e.mem = Mem.abs) (s s1 : St Val Store)
    (n i : I32) (rest : List Val) (sc : Syscall) (fn : FnPtr)
    (h1 : readOperand e s = .ok (n, s1)) (hs : s1.th.stack = .syscall i :: rest) (h0 : 0 ≤ i.toInt)
    (hi : e.prog.syscalls[i.toInt.toNat]? = some sc) (hf : sc.call = some fn) :
    exec e (some .ICALL) s = e.native fn n (s1.withStack rest) := by
  have hv : i.toInt.toNat = i.toNat := by
    have := BitVec.toInt_eq_toNat_cond i
    split at this <;> omega
  rw [hv] at hi
  simp only [exec, doICALL]
  rw [vm_bind_ok h1, vm_bind_ok (pop_cons hs),
    vm_bind_ok (view_ok (v := .syscall i) (by rw [he]; rfl))]
  simp only [doSyscall]
  rw [if_neg (by omega)]
  simp only [hi, hf]

/-- An indirect call of a script function opens the same frame as a direct call (see
`C28_call`) when the number of arguments is right. -/
theorem C55_indirect_call (e : Env Val Store) (he : e.mem = Mem.abs) (s s1 : St Val Store)
    (n a : I32) (rest : List Val) (f : Function)
    (h1 : readOperand e s = .ok (n, s1)) (hs : s1.th.stack = .func a :: rest)
    (hf : e.prog.findByPc a = some f) (hn : (f.numArgs : Int) = n.toInt) :
    exec e (some .ICALL) s = .ok ((), { s1.withStack rest with th := { (s1.withStack rest).th with
      pc := a.toInt
      frames := { sp := rest.length, ret := s1.th.pc, callee := a.toInt, terminal := false } ::
        s1.th.frames } }) := by
  simp only [exec, doICALL]
  rw [vm_bind_ok h1, vm_bind_ok (pop_cons hs),
    vm_bind_ok (view_ok (v := .func a) (by rw [he]; rfl))]
  simp only [hf]
  rw [if_neg (by simpa using hn)]
  rfl

/-! ### Members and array literals -/

/-- The member `length` of an array is the number of its elements. -/
theorem C55_length (e : Env Val Store) (he : e.mem = Mem.abs) (s s1 : St Val Store)
    (i : I32) (l : Nat) (elems rest : List Val) (hs : s.th.stack = .arr l :: rest)
    (h1 : readOperand e (s.withStack rest) = .ok (i, s1)) (h0 : 0 ≤ i.toInt)
    (hn : e.prog.strings[i.toInt.toNat]? = some (str "length")) (hl : s1.mem[l]? = some elems) :
    exec e (some .GETM) s =
      .ok ((), s1.withStack (.int (BitVec.ofNat 32 elems.length) :: s1.th.stack)) := by
  have hv : i.toInt.toNat = i.toNat := by
    have := BitVec.toInt_eq_toNat_cond i
    split at this <;> omega
  rw [hv] at hn
  have hm : memberName e i s1 = .ok (str "length", s1) := by
    unfold memberName
    rw [if_neg (by omega), hn]
    rfl
  simp only [exec, doGETM]
  rw [vm_bind_ok (pop_cons hs), vm_bind_ok h1, vm_bind_ok hm,
    vm_bind_ok (view_ok (v := .arr elems.length) (by rw [he]; simp only [Mem.abs, Val.view, hl]))]
  simp only [if_true, pushInt, pushNew, he, Mem.abs]
  rfl

/-- Without host handlers every other member access stops the thread. -/
theorem C55_no_member (e : Env Val Store) (he : e.mem = Mem.abs) (s s1 : St Val Store)
    (i : I32) (o : Val) (rest : List Val) (name : Str) (hs : s.th.stack = o :: rest)
    (h1 : readOperand e (s.withStack rest) = .ok (i, s1)) (h0 : 0 ≤ i.toInt)
    (hh : e.handlers.onMemberGet = none) (hlive : Live s1.mem o)
    (hn : e.prog.strings[i.toInt.toNat]? = some name)
    (ho : (∀ l, o ≠ .arr l) ∨ name ≠ str "length") :
    exec e (some .GETM) s =
      .ok ((), { s1 with th := { s1.th with error := .bad_member_access, finished := true } }) := by
  have hv : i.toInt.toNat = i.toNat := by
    have := BitVec.toInt_eq_toNat_cond i
    split at this <;> omega
  rw [hv] at hn
  have hm : memberName e i s1 = .ok (name, s1) := by
    unfold memberName
    rw [if_neg (by omega), hn]
    rfl
  simp only [exec, doGETM]
  rw [vm_bind_ok (pop_cons hs), vm_bind_ok h1, vm_bind_ok hm, vm_bind_ok (view_live he hlive)]
  cases o with
  | arr l =>
    have hne : name ≠ str "length" := ho.resolve_left fun h => h l rfl
    simp only [Val.viewL, if_neg hne, getmHandler, hh]; rfl
  | _ => simp only [Val.viewL, getmHandler, hh]; rfl

/-- An array literal makes a new array of the top `n` values, the deepest one first. -/
theorem C55_array_literal (e : Env Val Store) (he : e.mem = Mem.abs) (s s1 : St Val Store)
    (n : I32) (elems rest : List Val) (h1 : readOperand e s = .ok (n, s1))
    (hs : s1.th.stack = elems.reverse ++ rest) (hn : (elems.length : Int) = n.toInt)
    (hne : elems ≠ []) :
    exec e (some .ARY_INIT) s =
      .ok ((), { s1.withStack (.arr s1.mem.length :: rest) with mem := s1.mem ++ [elems] }) := by
  have key : ∀ (k : Nat) (elems tail : List Val) (s : St Val Store) (m : Store), elems.length = k →
      s.th.stack = elems.reverse ++ rest →
      s.mem = m ++ [List.replicate elems.length .none ++ tail] →
      fillArray e (.arr m.length) elems.length s =
        .ok ((), { s.withStack rest with mem := m ++ [elems ++ tail] }) := by
    intro k
    induction k with
    | zero =>
      intro elems tail s m hk hs hmem
      rw [List.length_eq_zero_iff] at hk
      subst hk
      simp only [List.reverse_nil, List.nil_append, List.length_nil, List.replicate_zero] at hs hmem
      show Except.ok ((), s) = _
      rw [List.nil_append, ← hmem, ← hs]
      rfl
    | succ k ih =>
      intro elems tail s m hk hs hmem
      have hel : elems ≠ [] := by intro h; subst h; simp at hk
      have hsplit := List.dropLast_concat_getLast hel
      have hkl : elems.dropLast.length = k := by simp; omega
      generalize hx : elems.getLast hel = x at hsplit
      generalize hi : elems.dropLast = init at hsplit hkl
      subst hsplit
      have hlen : (init ++ [x]).length = init.length + 1 := by simp
      rw [hlen]
      rw [List.reverse_append] at hs
      simp only [List.reverse_cons, List.reverse_nil, List.nil_append, List.cons_append] at hs
      simp only [fillArray]
      rw [vm_bind_ok (pop_cons hs), vm_bind_ok (vm_get _)]
      have hset : e.mem.arrSet (s.withStack (init.reverse ++ rest)).mem (.arr m.length) init.length x =
          .ok (m ++ [List.replicate init.length .none ++ x :: tail]) := by
        rw [he, withStack_mem, hmem, hlen]
        have : (m ++ [List.replicate (init.length + 1) Val.none ++ tail])[m.length]? =
            some (List.replicate (init.length + 1) Val.none ++ tail) := by simp
        simp only [Mem.abs, Val.arrSet, this]
        rw [if_pos (by simp; omega)]
        rw [List.set_append_right _ _ (Nat.le_refl _)]
        simp only [Nat.sub_self, List.set_cons_zero]
        rw [List.replicate_succ', List.append_assoc,
          List.set_append_right _ _ (by simp)]
        simp
      rw [vm_bind_ok (show lift _ _ = .ok (_, _) from by rw [hset]; rfl), vm_bind_ok (vm_modify _ _)]
      rw [ih init (x :: tail) _ m hkl rfl rfl]
      simp [St.withStack]
  have hv : n.toInt.toNat = n.toNat := by
    have := BitVec.toInt_eq_toNat_cond n
    split at this <;> omega
  have hpos : 0 < elems.length := List.length_pos_iff.2 hne
  have hnl : n.toNat = elems.length := by omega
  simp only [exec, doARY_INIT]
  rw [vm_bind_ok h1, if_neg (by omega), vm_bind_ok (vm_get s1),
    vm_bind_ok (show lift (e.mem.newArr s1.mem n.toNat) s1 =
      .ok ((.arr s1.mem.length, s1.mem ++ [List.replicate n.toNat .none]), s1) from by rw [he]; rfl)]
  dsimp only
  rw [vm_bind_ok (vm_modify _ _), hnl]
  rw [vm_bind_ok (key elems.length elems [] { s1 with mem := s1.mem ++ [List.replicate elems.length .none] }
    s1.mem rfl hs (by simp))]
  simp [push, modTh, St.withStack]

example : exec (toyEnv (Op.ARY_INIT.code :: le32 2)) (some .ARY_INIT)
    { toySt [.int 2, .int 1, .none] with th := { (toySt [.int 2, .int 1, .none]).th with pc := 1 } } =
    .ok ((), { toySt [.arr 0, .none] [[.int 1, .int 2]] with
      th := { (toySt [.arr 0, .none]).th with pc := 5 } }) :=
  C55_array_literal (e := toyEnv (Op.ARY_INIT.code :: le32 2)) rfl _
    { toySt [.int 2, .int 1, .none] with th := { (toySt [.int 2, .int 1, .none]).th with pc := 5 } }
    2 [.int 1, .int 2] [.none] rfl rfl rfl (by simp)

/-! ### C40: breakpoints and the line table -/

/-- Breakpoints form a set of lines: adding inserts, removing deletes one line, clearing deletes all. -/
theorem C40_breakpoint_set (t : Thread P) (l x : Line) :
    (x ∈ (t.breakAdd l).breakpoints ↔ x = l ∨ x ∈ t.breakpoints) ∧
    (x ∈ (t.breakRemove l).breakpoints ↔ x ≠ l ∧ x ∈ t.breakpoints) ∧
    t.breakClear.breakpoints = [] := by
  refine ⟨?_, ?_, rfl⟩
  · unfold Thread.breakAdd
    by_cases h : t.breakpoints.contains l = true
    · rw [if_pos h]
      have hm : l ∈ t.breakpoints := by simpa using h
      constructor
      · exact .inr
      · rintro (rfl | h) <;> assumption
    · rw [if_neg h]; simp
  · unfold Thread.breakRemove
    simp [List.mem_filter, and_comm]

/-- The line table is a map from code positions to lines: it answers with the line stored for
exactly that position, and with the unknown line for positions never stored. -/
theorem C40_line_table (entries : List (I32 × Line)) (pc : I32) :
    (entries.foldl (fun t x => LineTable.set t x.1 x.2) []).get pc =
      match entries.reverse.find? (fun x => x.1 = pc) with
      | some x => x.2
      | none => Line.unknown := by
  have hset : ∀ (t : LineTable) (k : I32) (l : Line), (t.set k l).get pc =
      if k = pc then l else t.get pc := by
    intro t k l
    induction t with
    | nil =>
      simp only [LineTable.set, LineTable.get, List.find?_cons, List.find?_nil]
      by_cases h : k = pc
      · simp [h]
      · have : (k == pc) = false := by simpa using h
        simp only [this, if_neg h]
    | cons a t ih =>
      obtain ⟨k', l'⟩ := a
      simp only [LineTable.set]
      split
      · simp only [LineTable.get, List.find?_cons]
        by_cases h : k = pc
        · simp [h]
        · have : (k == pc) = false := by simpa using h
          simp only [this, if_neg h]
      · split
        · rename_i _ hk
          subst hk
          simp only [LineTable.get, List.find?_cons]
          by_cases h : k = pc
          · simp [h]
          · have : (k == pc) = false := by simpa using h
            simp only [this, if_neg h]
        · rename_i _ hk
          simp only [LineTable.get, List.find?_cons] at ih ⊢
          by_cases h : k' = pc
          · subst h
            simp [hk]
          · have : (k' == pc) = false := by simpa using h
            simp only [this]
            exact ih
  have key : ∀ (entries : List (I32 × Line)) (t : LineTable),
      (entries.foldl (fun t x => LineTable.set t x.1 x.2) t).get pc =
      match entries.reverse.find? (fun x => x.1 = pc) with
      | some x => x.2
      | none => t.get pc := by
    intro entries
    induction entries with
    | nil => intro t; rfl
    | cons a es ih =>
      intro t
      rw [List.foldl_cons, ih, List.reverse_cons, List.find?_append]
      cases hf : es.reverse.find? (fun x => decide (x.1 = pc)) with
      | some x => rfl
      | none =>
        simp only [Option.none_or, List.find?_cons, List.find?_nil]
        rw [hset]
        by_cases h : a.1 = pc <;> simp [h]
  exact key entries []

end Ccml.Props
