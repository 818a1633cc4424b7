import Verif.Props.Sched
/-!
The built-in functions: C46 (results), C47 (binding).
-/
namespace Ccml.Props
open Ccml
variable {P M : Type}

/-! ### C46 Results -/

/-- A number as a float. -/
def asFloat (fl : FloatOps) : Val → Option F32
  | .int v => some (fl.ofInt v)
  | .float f => some f
  | _ => none

/-- What a mathematical function of one number gives. -/
def ofFloat (fl : FloatOps) (f : F32 → F32) (v : Val) : Option (Option Val) :=
  (asFloat fl v).map fun x => some (.float (f x))

/-- The documented results, arguments in the order of the call.  `none`: not applicable to these
types; `some none`: the mathematical result does not exist in 32 bits. -/
def meaning (fl : FloatOps) (m : Store) : Builtin → List Val → Option (Option Val)
  | .abs, [.int x] =>
    some (if x.toInt.natAbs < 2147483648 then some (.int (BitVec.ofNat 32 x.toInt.natAbs)) else none)
  | .abs, [.float f] => some (some (.float (if fl.lt f fl.zero then fl.neg f else f)))
  | .min, [x, y] => (asFloat fl x).bind fun a => (asFloat fl y).map fun b =>
      some (.float (if fl.lt b a then b else a))
  | .max, [x, y] => (asFloat fl x).bind fun a => (asFloat fl y).map fun b =>
      some (.float (if fl.gt b a then b else a))
  | .bitand, [.int x, .int y] => some (some (.int (x &&& y)))
  | .len, [.str s] => some (some (.int (BitVec.ofNat 32 s.length)))
  | .len, [.arr l] => m[l]?.map fun a => some (.int (BitVec.ofNat 32 a.length))
  | .chr, [.int x] =>
    some (some (.str (if x.setWidth 8 = (0 : Byte) then [] else [x.setWidth 8])))
  | .sin, [v] => ofFloat fl fl.sin v
  | .cos, [v] => ofFloat fl fl.cos v
  | .tan, [v] => ofFloat fl fl.tan v
  | .round, [v] => ofFloat fl fl.round v
  | .ceil, [v] => ofFloat fl fl.ceil v
  | .floor, [v] => ofFloat fl fl.floor v
  | .sqrt, [v] => ofFloat fl fl.sqrt v
  | _, _ => none

/-- The functions that only compute. -/
def Pure (b : Builtin) : Prop := b ≠ .new_thread ∧ b ≠ .wait ∧ b ≠ .new_array

/-- The state after a call: the arguments are replaced by the result, or the thread has stopped. -/
def AfterCall (s : St Val Store) (rest : List Val) : Option (Option Val) → Out (Unit × St Val Store)
  | some (some v) => .ok ((), s.withStack (v :: rest))
  | some none => .error .ub
  | none => .ok ((), { s with th := { s.th with
      stack := rest, error := .bad_argument, finished := true } })

theorem num_asFloat (fl : FloatOps) (m : Store) (v : Val) :
    (v.viewL m).num? fl = asFloat fl v := by cases v <;> rfl

theorem run_math (e : Env Val Store) (he : e.mem = Mem.abs) (s : St Val Store) (f : F32 → F32)
    (v : Val) (rest : List Val) (hs : s.th.stack = v :: rest) (hl : Live s.mem v) :
    builtinMath e f s = AfterCall s rest (ofFloat e.fl f v) := by
  have hx := view_live he (s := s.withStack rest) (v := v) hl
  unfold builtinMath ofFloat
  rw [vm_bind_ok (pop_cons hs), vm_bind_ok hx, num_asFloat]
  cases asFloat e.fl v with
  | none => rfl
  | some x => simp only [pushFloat, pushNew, he, Mem.abs]; rfl

theorem run_pick (e : Env Val Store) (he : e.mem = Mem.abs) (s : St Val Store)
    (c : F32 → F32 → Bool) (x y : Val) (rest : List Val) (hs : s.th.stack = y :: x :: rest)
    (hx : Live s.mem x) (hy : Live s.mem y) :
    builtinPick e c s = AfterCall s rest ((asFloat e.fl x).bind fun a =>
      (asFloat e.fl y).map fun b => some (.float (if c b a then b else a))) := by
  have h1 := view_live he (s := s.withStack rest) (v := x) hx
  have h2 := view_live he (s := s.withStack rest) (v := y) hy
  unfold builtinPick
  rw [vm_bind_ok (pop_cons hs), vm_bind_ok (pop_cons rfl), withStack_withStack, vm_bind_ok h2,
    vm_bind_ok h1, num_asFloat, num_asFloat]
  cases asFloat e.fl y with
  | none => cases asFloat e.fl x <;> rfl
  | some b =>
    cases asFloat e.fl x with
    | none => rfl
    | some a => simp only [pushFloat, pushNew, he, Mem.abs]; rfl

theorem abs32 (x : I32) : (if x.toInt < 0 then ret32 (-x.toInt) else .ok x) =
    if x.toInt.natAbs < 2147483648 then .ok (BitVec.ofNat 32 x.toInt.natAbs)
    else (.error .ub : Out I32) := by
  have hb := x.toInt_lt
  have hb' := x.le_toInt
  split
  · rename_i h
    unfold ret32 fits32
    have hn : (x.toInt.natAbs : Int) = -x.toInt := by omega
    by_cases hc : x.toInt.natAbs < 2147483648
    · rw [if_pos hc, if_pos (by simp; omega), ← hn, BitVec.ofInt_natCast]
    · rw [if_neg hc, if_neg (by simp; omega)]
  · rename_i h
    have hn : (x.toInt.natAbs : Int) = x.toInt := by omega
    rw [if_pos (by omega)]
    congr 1
    rw [← BitVec.ofInt_natCast, hn, BitVec.ofInt_toInt]

/-- C46: called with as many arguments as registered, of any type, each computing built-in removes
exactly its arguments and pushes the documented result, or stops the thread with `bad_argument` if
the types are not supported, or ends undefined if the result (of `abs`) does not fit. -/
theorem C46_results (e : Env Val Store) (he : e.mem = Mem.abs) (b : Builtin) (hb : Pure b)
    (name : Str) (arity : Nat) (hn : builtinsMap.lookup name = some b)
    (ha : builtinsRegister.lookup name = some (arity : Int)) (args rest : List Val)
    (hlen : args.length = arity) (s : St Val Store) (hs : s.th.stack = args.reverse ++ rest)
    (hl : ∀ v ∈ args, Live s.mem v) (n : I32) :
    b.run e n s = AfterCall s rest (meaning e.fl s.mem b args) := by
  have hmem : (name, b) ∈ builtinsMap := by
    have key : ∀ l : List (Str × Builtin), l.lookup name = some b → (name, b) ∈ l := by
      intro l
      induction l with
      | nil => intro h; cases h
      | cons p l ih =>
        obtain ⟨k, v⟩ := p
        intro h
        rw [List.lookup_cons] at h
        split at h
        · rename_i hk
          cases h
          rw [beq_iff_eq.mp hk]
          exact List.mem_cons_self ..
        · exact List.mem_cons_of_mem _ (ih h)
    exact key _ hn
  have one : arity = 1 → ∃ v, args = [v] := by
    intro h1; rw [h1] at hlen
    match args, hlen with
    | [v], _ => exact ⟨v, rfl⟩
  have two : arity = 2 → ∃ x y, args = [x, y] := by
    intro h1; rw [h1] at hlen
    match args, hlen with
    | [x, y], _ => exact ⟨x, y, rfl⟩
  have ar1 : ∀ k : Nat, builtinsRegister.lookup name = some (k : Int) → arity = k := by
    intro k hk; rw [ha] at hk; simp only [Option.some.injEq] at hk; omega
  simp only [builtinsMap, List.mem_cons, Prod.mk.injEq, List.not_mem_nil, or_false] at hmem
  have math : ∀ f, (∃ v, args = [v]) → ∃ v, args = [v] ∧ builtinMath e f s =
      AfterCall s rest (ofFloat e.fl f v) := by
    rintro f ⟨v, rfl⟩
    exact ⟨v, rfl, run_math e he s f v rest (by simpa using hs) (hl v (List.mem_cons_self ..))⟩
  have pick : ∀ c, (∃ x y, args = [x, y]) → ∃ x y, args = [x, y] ∧ builtinPick e c s =
      AfterCall s rest ((asFloat e.fl x).bind fun a =>
      (asFloat e.fl y).map fun b => some (.float (if c b a then b else a))) := by
    rintro c ⟨x, y, rfl⟩
    exact ⟨x, y, rfl, run_pick e he s c x y rest (by simpa using hs)
      (hl x (by simp)) (hl y (by simp))⟩
  rcases hmem with ⟨rfl, rfl⟩ | ⟨rfl, rfl⟩ | ⟨rfl, rfl⟩ | ⟨rfl, rfl⟩ | ⟨rfl, rfl⟩ | ⟨rfl, rfl⟩ |
    ⟨rfl, rfl⟩ | ⟨rfl, rfl⟩ | ⟨rfl, rfl⟩ | ⟨rfl, rfl⟩ | ⟨rfl, rfl⟩ | ⟨rfl, rfl⟩ | ⟨rfl, rfl⟩ |
    ⟨rfl, rfl⟩ | ⟨rfl, rfl⟩ | ⟨rfl, rfl⟩
  · -- abs
    obtain ⟨v, rfl⟩ := one (ar1 1 rfl)
    have hs' : s.th.stack = v :: rest := by simpa using hs
    have hx := view_live he (s := s.withStack rest) (v := v) (hl v (List.mem_cons_self ..))
    show builtinAbs e s = _
    unfold builtinAbs
    rw [vm_bind_ok (pop_cons hs'), vm_bind_ok hx]
    cases v with
    | int x =>
      simp only [Val.viewL, meaning, abs32]
      split
      · simp only [lift, vm_bind, pushInt, pushNew, he, Mem.abs]; rfl
      · rfl
    | float f => simp only [Val.viewL, meaning, pushFloat, pushNew, he, Mem.abs]; rfl
    | _ => rfl
  · obtain ⟨x, y, rfl, h⟩ := pick e.fl.lt (two (ar1 2 rfl)); exact h
  · obtain ⟨x, y, rfl, h⟩ := pick e.fl.gt (two (ar1 2 rfl)); exact h
  · -- bitand
    obtain ⟨x, y, rfl⟩ := two (ar1 2 rfl)
    have hs' : s.th.stack = y :: x :: rest := by simpa using hs
    have h1 := view_live he (s := s.withStack rest) (v := x) (hl x (by simp))
    have h2 := view_live he (s := s.withStack rest) (v := y) (hl y (by simp))
    show builtinBitand e s = _
    unfold builtinBitand
    rw [vm_bind_ok (pop_cons hs'), vm_bind_ok (pop_cons rfl), withStack_withStack, vm_bind_ok h2,
      vm_bind_ok h1]
    cases x with
    | int a =>
      cases y with
      | int b =>
        simp only [Val.viewL, meaning, pushInt, pushNew, he, Mem.abs]
        rw [BitVec.and_comm]; rfl
      | _ => rfl
    | _ => cases y <;> rfl
  · obtain ⟨v, rfl, h⟩ := math e.fl.sin (one (ar1 1 rfl)); exact h
  · obtain ⟨v, rfl, h⟩ := math e.fl.cos (one (ar1 1 rfl)); exact h
  · obtain ⟨v, rfl, h⟩ := math e.fl.tan (one (ar1 1 rfl)); exact h
  · -- len
    obtain ⟨v, rfl⟩ := one (ar1 1 rfl)
    have hs' : s.th.stack = v :: rest := by simpa using hs
    have hlv := hl v (List.mem_cons_self ..)
    have hx := view_live he (s := s.withStack rest) (v := v) hlv
    show builtinLen e s = _
    unfold builtinLen
    rw [vm_bind_ok (pop_cons hs'), vm_bind_ok hx]
    cases v with
    | str t => simp only [Val.viewL, meaning, pushInt, pushNew, he, Mem.abs]; rfl
    | arr l =>
      have : s.mem[l]? = some s.mem[l] := List.getElem?_eq_getElem hlv
      simp only [Val.viewL, meaning, pushInt, pushNew, he, Mem.abs, withStack_mem, this]; rfl
    | _ => rfl
  · -- chr
    obtain ⟨v, rfl⟩ := one (ar1 1 rfl)
    have hs' : s.th.stack = v :: rest := by simpa using hs
    have hx := view_live he (s := s.withStack rest) (v := v) (hl v (List.mem_cons_self ..))
    show builtinChr e s = _
    unfold builtinChr
    rw [vm_bind_ok (pop_cons hs'), vm_bind_ok hx]
    cases v with
    | int x =>
      simp only [Val.viewL, meaning, pushStr, pushNew, he, Mem.abs, cstr, List.takeWhile]
      by_cases hc : x.setWidth 8 = (0 : Byte)
      · rw [if_pos hc, hc]; rfl
      · have : (x.setWidth 8 != (0 : Byte)) = true := by simpa using hc
        rw [if_neg hc, this]; rfl
    | _ => rfl
  · obtain ⟨v, rfl, h⟩ := math e.fl.round (one (ar1 1 rfl)); exact h
  · obtain ⟨v, rfl, h⟩ := math e.fl.ceil (one (ar1 1 rfl)); exact h
  · obtain ⟨v, rfl, h⟩ := math e.fl.floor (one (ar1 1 rfl)); exact h
  · obtain ⟨v, rfl, h⟩ := math e.fl.sqrt (one (ar1 1 rfl)); exact h
  · exact absurd rfl hb.1
  · exact absurd rfl hb.2.1
  · exact absurd rfl hb.2.2

/-- C46: `new_array(n)` for an integer `n > 0` gives a new array of `n` times none, different from
every array there is; for `n ≤ 0` and for non-numbers the thread stops with `bad_argument`. -/
theorem C46_new_array (e : Env Val Store) (he : e.mem = Mem.abs) (v : Val) (rest : List Val)
    (s : St Val Store) (hs : s.th.stack = v :: rest) (hl : Live s.mem v) (k : I32) :
    (∀ n : I32, v = .int n → 0 < n.toInt → Builtin.new_array.run e k s = .ok ((), { s with
      mem := s.mem ++ [List.replicate n.toInt.toNat .none]
      th := { s.th with stack := .arr s.mem.length :: rest } })) ∧
    ((∃ n : I32, v = .int n ∧ n.toInt ≤ 0) ∨ asFloat e.fl v = none →
      Builtin.new_array.run e k s = AfterCall s rest none) := by
  have hx := view_live he (s := s.withStack rest) (v := v) hl
  have start : Builtin.new_array.run e k s = (match (v.viewL s.mem).int? e.fl with
      | some o => (do
        let w ← lift o
        if w.toInt ≤ 0 then raise .bad_argument
        else pushNew (e.mem.newArr · w.toNat) : VM Val Store Unit)
      | none => raise .bad_argument) (s.withStack rest) := by
    show builtinNewArray e s = _
    unfold builtinNewArray
    rw [vm_bind_ok (pop_cons hs), vm_bind_ok hx]
    rfl
  rw [start]
  constructor
  · rintro n rfl hn
    simp only [Val.viewL, View.int?, vm_bind, lift]
    rw [if_neg (by omega)]
    have : n.toInt.toNat = n.toNat := by
      have := BitVec.toInt_eq_toNat_cond n
      split at this <;> omega
    simp only [pushNew, he, Mem.abs, this]
    rfl
  · rintro (⟨n, rfl, hn⟩ | h)
    · simp only [Val.viewL, View.int?, vm_bind, lift]
      rw [if_pos hn]
      rfl
    · cases v with
      | int => cases h
      | float => cases h
      | _ => rfl

example : Builtin.max.run (toyEnv []) 2 (toySt [.int 3, .int 8, .none]) =
    .ok ((), toySt [.float 8, .none]) :=
  C46_results (toyEnv []) rfl .max ⟨nofun, nofun, nofun⟩ (str "max") 2 rfl rfl [.int 8, .int 3]
    [.none] rfl (toySt [.int 3, .int 8, .none]) rfl
    (fun v hv => by simp only [List.mem_cons, List.not_mem_nil, or_false] at hv; rcases hv with rfl | rfl <;> trivial) 2

/-! ### C47 Binding -/

/-- C47: after the resolve step every entry of the system-call table whose name is known to the
compiler as a built-in has an address, and calling that address runs the built-in of that name;
every other entry is unchanged, and so is the rest of the program. -/
theorem C47_builtins_bound (p : Program) (fl : FloatOps) (mem : MemOps P M) :
    { builtinsResolve p with syscalls := p.syscalls } = p ∧
    (builtinsResolve p).syscalls.length = p.syscalls.length ∧
    ∀ (i : Nat) (sc : Syscall), p.syscalls[i]? = some sc →
      ((∃ n, (sc.name, n) ∈ builtinsRegister) →
        ∃ (b : Builtin) (ptr : FnPtr), (sc.name, b) ∈ builtinsMap ∧
          (builtinsResolve p).syscalls[i]? = some { sc with call := some ptr } ∧
          (Env.std (builtinsResolve p) fl mem).native ptr = b.run
            { prog := builtinsResolve p, fl := fl, mem := mem, handlers := {},
              native := fun _ _ => fault .ub }) ∧
      ((∀ n, (sc.name, n) ∉ builtinsRegister) →
        (builtinsResolve p).syscalls[i]? = some sc) := by
  refine ⟨rfl, by simp [builtinsResolve], fun i sc hi => ?_⟩
  have hget : (builtinsResolve p).syscalls[i]? = some (match builtinsMap.lookup sc.name with
      | some b => { sc with call := some b.ptr }
      | none => sc) := by
    simp only [builtinsResolve, List.getElem?_map, hi, Option.map_some]
    rfl
  have table : builtinsRegister.map Prod.fst = builtinsMap.map Prod.fst := by decide
  have hkey : ∀ (l : List (Str × Builtin)) (n : Str), n ∈ l.map Prod.fst →
      ∃ b, l.lookup n = some b ∧ (n, b) ∈ l := by
    intro l
    induction l with
    | nil => intro n h; cases h
    | cons q l ih =>
      obtain ⟨k, v⟩ := q
      intro n h
      rw [List.lookup_cons]
      split
      · rename_i hk
        exact ⟨v, rfl, by rw [beq_iff_eq.mp hk]; exact List.mem_cons_self ..⟩
      · rename_i hk
        rw [List.map_cons, List.mem_cons] at h
        rcases h with h | h
        · exact absurd (beq_iff_eq.mpr h) (by rw [hk]; decide)
        · obtain ⟨b, h1, h2⟩ := ih n h
          exact ⟨b, h1, List.mem_cons_of_mem _ h2⟩
  have hnot : ∀ (l : List (Str × Builtin)) (n : Str), n ∉ l.map Prod.fst → l.lookup n = none := by
    intro l
    induction l with
    | nil => intro n h; rfl
    | cons q l ih =>
      obtain ⟨k, v⟩ := q
      intro n h
      rw [List.map_cons, List.mem_cons, not_or] at h
      rw [List.lookup_cons]
      have : (n == k) = false := by simpa using h.1
      rw [this]
      exact ih n h.2
  constructor
  · rintro ⟨n, hn⟩
    have : sc.name ∈ builtinsMap.map Prod.fst := by
      rw [← table]; exact List.mem_map.mpr ⟨_, hn, rfl⟩
    obtain ⟨b, h1, h2⟩ := hkey _ _ this
    rw [h1] at hget
    refine ⟨b, b.ptr, h2, hget, ?_⟩
    cases b <;> rfl
  · intro h
    rw [hnot] at hget
    · exact hget
    · rw [← table]
      intro hc
      obtain ⟨⟨k, n⟩, h1, h2⟩ := List.mem_map.mp hc
      exact h n (by have : k = sc.name := h2; rw [← this]; exact h1)

/-- A program calling `wait` and a host function of its own. -/
example : (builtinsResolve { Program.empty with
    syscalls := [⟨str "wait", none⟩, ⟨str "print", some 77⟩] }).syscalls =
    [⟨str "wait", some Builtin.wait.ptr⟩, ⟨str "print", some 77⟩] := by decide

end Ccml.Props
