import Verif.Steps
/-!
The built-in functions as the evaluator sees them, and that the machine does the same.
-/
set_option linter.unusedSimpArgs false
namespace Ccml
namespace Sem

/-! ### Specification -/

/-- A number as an integer; floats are cut off, which is undefined outside 32 bits. -/
def integer (fl : FloatOps) : View → Option Ans
  | .int v => some (.val (.int v))
  | .float f => some (match fl.toInt f with
    | some v => .val (.int v)
    | none => .fault .ub)
  | _ => none

/-- Functions of one number. -/
def math (fl : FloatOps) (f : F32 → F32) (v : Val) (w : State) : Res Val :=
  look v w fun x =>
    match number fl x with
    | some x => .ok (.float (f x)) w
    | none => .err .bad_argument w

/-- The second argument if it is better than the first. -/
def pick (fl : FloatOps) (better : F32 → F32 → Bool) (a b : Val) (w : State) : Res Val :=
  look b w fun bv => look a w fun av =>
    match number fl bv, number fl av with
    | some y, some x => .ok (.float (if better y x then y else x)) w
    | _, _ => .err .bad_argument w

/-- Whether values can be handed to another thread: arrays cannot. -/
def handOver (m : Store) : List Val → Option Fault
  | [] => none
  | v :: vs =>
    match v.view m with
    | .error f => some f
    | .ok (.arr _) => some .assert
    | .ok _ => handOver m vs

/-- A thread about to start in a function. -/
def startThread (start : Int) (args : List Val) : Thread Val :=
  { (Thread.fresh : Thread Val) with
    stack := args.reverse
    pc := start
    frames := [⟨args.length, start, start, true⟩] }

/-- What each built-in does when called with the registered number of arguments. -/
def builtin (fl : FloatOps) (prog : Program) : Builtin → List Val → State → Res Val
  | .abs, [v], w => look v w fun x =>
      match x with
      | .int a => if a.toInt < 0 then (exact (-a.toInt)).res w else .ok (.int a) w
      | .float f => .ok (.float (if fl.lt f fl.zero then fl.neg f else f)) w
      | _ => .err .bad_argument w
  | .min, [a, b], w => pick fl fl.lt a b w
  | .max, [a, b], w => pick fl fl.gt a b w
  | .bitand, [a, b], w => look b w fun bv => look a w fun av =>
      match bv, av with
      | .int y, .int x => .ok (.int (y &&& x)) w
      | _, _ => .err .bad_argument w
  | .sin, [v], w => math fl fl.sin v w
  | .cos, [v], w => math fl fl.cos v w
  | .tan, [v], w => math fl fl.tan v w
  | .len, [v], w => look v w fun x =>
      match x with
      | .arr n => .ok (.int (BitVec.ofNat 32 n)) w
      | .str s => .ok (.int (BitVec.ofNat 32 s.length)) w
      | _ => .err .bad_argument w
  | .chr, [v], w => look v w fun x =>
      match x with
      | .int a => .ok (.str (if a.setWidth 8 = (0 : Byte) then [] else [a.setWidth 8])) w
      | _ => .err .bad_argument w
  | .round, [v], w => math fl fl.round v w
  | .ceil, [v], w => math fl fl.ceil v w
  | .floor, [v], w => math fl fl.floor v w
  | .sqrt, [v], w => math fl fl.sqrt v w
  | .new_thread, [], w => .err .bad_argument w
  | .new_thread, f :: args, w => look f w fun x =>
      match x with
      | .func a =>
        match prog.findByPc a with
        | none => .err .bad_argument w
        | some F =>
          if F.numArgs ≠ args.length then .err .bad_argument w
          else match handOver w.mem args with
            | some x => .fault x
            | none => .ok (.int 0)
                { w with before := startThread F.codeStart.toInt args :: w.before }
      | _ => .err .bad_argument w
  | .wait, [v], w => look v w fun x =>
      match integer fl x with
      | none => .err .bad_argument w
      | some (.val (.int n)) => .ok (.int 0) { w with waits := n }
      | some a => a.res w
  | .new_array, [v], w => look v w fun x =>
      match integer fl x with
      | none => .err .bad_argument w
      | some (.val (.int n)) =>
        if n.toInt ≤ 0 then .err .bad_argument w
        else .ok (.arr w.mem.length) { w with mem := w.mem ++ [List.replicate n.toInt.toNat .none] }
      | some a => a.res w
  | _, _, _ => .undef

/-- Writing. -/
def State.write (w : State) (s : Str) : State := { w with io := { w.io with output := w.io.output ++ s } }

/-- The next line of the input, without its newline, but at most 79 characters of it. -/
def nextLine (s : Str) : Str := (s.take 79).takeWhile (· ≠ ch '\n')

/-- What is left of the input behind it. -/
def behindLine (s : Str) : Str :=
  let r := s.drop (nextLine s).length
  if (nextLine s).length < 79 then r.drop 1 else r

/-- Looking at values one after the other; the views come out in reverse. -/
def lookAll : List Val → List View → State → (List View → Res Val) → Res Val
  | [], acc, _, k => k acc
  | v :: vs, acc, w, k => look v w fun x => lookAll vs (x :: acc) w k

/-- The value a function of the graphical driver leaves. -/
def ofRet : Sdl.Ret → Val
  | .none => .none
  | .int v => .int v

/-- What each function of the drivers does when called with the registered number of
arguments.  Text ends at a NUL character.  A function of the graphical driver looks at its arguments, the
last one first, takes the next answer of SDL and draws what `Sdl.Fn.call` says (see Props/Sdl.lean). -/
def hostFn (fl : FloatOps) : HostFn → List Val → State → Res Val
  | .putc, [v], w => look v w fun x =>
      match x with
      | .none => .fault .assert
      | .int c => .ok (.int 0) (w.write [c.setWidth 8])
      | _ => .err .bad_argument w
  | .puts, [v], w => look v w fun x =>
      match x with
      | .none => .fault .assert
      | .str s => .ok (.int 0) (w.write (s ++ [ch '\n']))
      | _ => .err .bad_argument w
  | .getc, [], w =>
      match w.io.input with
      | [] => .ok (.int (-1)) w
      | c :: cs => .ok (.int (c.setWidth 32)) { w with io := { w.io with input := cs } }
  | .gets, [], w =>
      if w.io.input = [] then .fault .ub
      else .ok (.str ((nextLine w.io.input).takeWhile (· ≠ 0)))
        { w with io := { w.io with input := behindLine w.io.input } }
  | .rand, [], w =>
      .ok (.int (xorshift32 w.io.seed &&& 0x7fffff))
        { w with io := { w.io with seed := xorshift32 w.io.seed } }
  | .sdl fn, args, w =>
      if args.length = fn.arity then
        lookAll args.reverse [] w fun xs =>
          match fn.call fl (w.io.outside w.io.asked) xs { w.io.sdl with halted := false } with
          | .error f => .fault f
          | .ok (d, r) => .ok (ofRet r) { w with io := { w.io with
              sdl := { d with halted := false }, asked := w.io.asked + 1 } }
      else .undef
  | _, _, _ => .undef

/-- The host functions of a machine that has the built-ins and the functions of the drivers. -/
def builtins (fl : FloatOps) (prog : Program) (fn : FnPtr) (args : List Val) (w : State) : Res Val :=
  match Builtin.ofPtr fn with
  | some b => builtin fl prog b args w
  | none =>
    match HostFn.ofPtr fn with
    | some b => hostFn fl b args w
    | none => .fault .ub

end Sem

/-! ### The machine agrees -/
open Sem (State Res look)

/-- What a host function has to do. -/
def HostDoes (x : VM Val Store Unit) (s : St Val Store) (rest : List Val) : Res Val → Prop
  | .ok v w => ∃ s', x s = .ok ((), s') ∧ s'.th.stack = v :: rest ∧
      s'.th.pc = s.th.pc ∧ s'.th.frames = s.th.frames ∧ s'.th.finished = false ∧
      s'.th.error = .success ∧ stOf s' = w
  | .err x' w => ∃ s', x s = .ok ((), s') ∧ Failed s' x' w
  | .fault f => x s = .error f
  | .timeout => False
  | .undef => True

theorem HostDoes.congr {x y : VM Val Store Unit} {s s' : St Val Store} {rest : List Val} {r : Res Val}
    (hpc : s'.th.pc = s.th.pc) (hfr : s'.th.frames = s.th.frames)
    (h : x s = y s') (hy : HostDoes y s' rest r) : HostDoes x s rest r := by
  cases r with
  | ok v w =>
    obtain ⟨t, h1, h2, h3, h4, h5⟩ := hy
    exact ⟨t, h.trans h1, h2, h3.trans hpc, h4.trans hfr, h5⟩
  | err x' w =>
    obtain ⟨t, h1, h2⟩ := hy
    exact ⟨t, h.trans h1, h2⟩
  | fault f => exact h.trans hy
  | timeout => exact hy
  | undef => trivial

section
variable {e : Env Val Store} {s : St Val Store} {rest : List Val}

theorem HostDoes.view {v : Val} {g : View → VM Val Store Unit} {r : View → Res Val} {w : State}
    (he : e.mem = Mem.abs) (hw : w.mem = s.mem)
    (h : ∀ x, v.view s.mem = .ok x → HostDoes (g x) s rest (r x)) :
    HostDoes (view e v >>= g) s rest (look v w r) := by
  unfold look
  rw [hw]
  cases hv : v.view s.mem with
  | error f =>
    have : Ccml.view e v s = .error f := by
      simp only [Ccml.view, lift, he, Mem.abs, hv]
    show _ = _
    rw [vm_bind_error this]
  | ok x =>
    have : Ccml.view e v s = .ok (x, s) := view_ok (by rw [he]; exact hv)
    exact .congr rfl rfl (vm_bind_ok this) (h x hv)

theorem HostDoes.pop {v : Val} {g : Val → VM Val Store Unit} {r : Res Val} {l : List Val}
    (hs : s.th.stack = v :: l) (h : HostDoes (g v) (s.withStack l) rest r) :
    HostDoes (Ccml.pop >>= g) s rest r :=
  .congr (s' := s.withStack l) (y := g v) rfl rfl (vm_bind_ok (pop_cons hs)) h

theorem HostDoes.raise {x : TErr} {w : State} (hw : stOf s = w) :
    HostDoes (Ccml.raise x) s rest (.err x w) :=
  ⟨_, rfl, rfl, rfl, hw⟩

theorem HostDoes.done {v : Val} {w : State} {f : Store → Out (Val × Store)}
    (hf : s.th.finished = false) (hx : s.th.error = .success) (hs : s.th.stack = rest)
    (h : f s.mem = .ok (v, w.mem)) (hw : { stOf s with mem := w.mem } = w) :
    HostDoes (pushNew f) s rest (.ok v w) := by
  refine ⟨{ s with mem := w.mem, th := { s.th with stack := v :: s.th.stack } },
    by simp only [pushNew, h], by simp only [hs], rfl, rfl, hf, hx, ?_⟩
  rw [← hw]
  rfl

theorem num_number (fl : FloatOps) (x : View) : x.num? fl = Sem.number fl x := by cases x <;> rfl

theorem does_math (he : e.mem = Mem.abs) (hf : s.th.finished = false) (hx : s.th.error = .success)
    (f : F32 → F32) (v : Val) (hs : s.th.stack = v :: rest) :
    HostDoes (builtinMath e f) s rest (Sem.math e.fl f v (stOf s)) := by
  refine .pop hs (.view he rfl fun x _ => ?_)
  rw [num_number]
  cases Sem.number e.fl x with
  | none => exact .raise rfl
  | some a => exact .done hf hx rfl (by rw [he]; rfl) rfl

theorem does_pick (he : e.mem = Mem.abs) (hf : s.th.finished = false) (hx : s.th.error = .success)
    (c : F32 → F32 → Bool) (a b : Val) (hs : s.th.stack = b :: a :: rest) :
    HostDoes (builtinPick e c) s rest (Sem.pick e.fl c a b (stOf s)) := by
  refine .pop hs (.pop rfl (.view he rfl fun y _ => .view he rfl fun x _ => ?_))
  rw [num_number, num_number]
  cases Sem.number e.fl y with
  | none => exact .raise rfl
  | some y =>
    cases Sem.number e.fl x with
    | none => exact .raise rfl
    | some x => exact .done hf hx rfl (by rw [he]; rfl) rfl

theorem popArgs_run : ∀ (xs acc l : List Val) (s : St Val Store), s.th.stack = xs ++ l →
    popArgs xs.length acc s = .ok (xs.reverse ++ acc, s.withStack l)
  | [], acc, l, s, hs => by
    show Except.ok _ = _
    have : s.withStack l = s := by
      rw [← show s.th.stack = l from hs]
      rfl
    rw [this]
    rfl
  | x :: xs, acc, l, s, hs => by
    rw [List.length_cons, popArgs, vm_bind_ok (pop_cons hs), popArgs_run xs (x :: acc) l _ rfl]
    simp

theorem copyVal_abs (he : e.mem = Mem.abs) (m : Store) (v : Val) :
    copyVal e m v = match v.view m with
      | .error f => .error f
      | .ok (.arr _) => .error .assert
      | .ok _ => .ok (v, m) := by
  unfold copyVal
  rw [he]
  cases v with
  | arr l =>
    simp only [Mem.abs, Val.view]
    cases m[l]? <;> rfl
  | _ => rfl

theorem copyArgs_abs (he : e.mem = Mem.abs) (m : Store) : ∀ (vs acc : List Val),
    copyArgs e m acc vs = match Sem.handOver m vs with
      | some f => .error f
      | none => .ok (vs.reverse ++ acc, m)
  | [], acc => rfl
  | v :: vs, acc => by
    rw [copyArgs, copyVal_abs he, Sem.handOver]
    cases v.view m with
    | error f => rfl
    | ok x =>
      cases x with
      | arr n => rfl
      | _ =>
        dsimp only
        rw [copyArgs_abs he m vs (v :: acc)]
        cases Sem.handOver m vs <;> simp

theorem prepare_abs (he : e.mem = Mem.abs) (m : Store) (F : Function) (args : List Val)
    (hn : F.numArgs = args.length) :
    prepare e m F args = match Sem.handOver m args with
      | some f => .error f
      | none => .ok (some (Sem.startThread F.codeStart.toInt args, m)) := by
  unfold prepare
  rw [if_neg (by omega), copyArgs_abs he]
  cases Sem.handOver m args with
  | some f => rfl
  | none => simp [Sem.startThread]

theorem does_newThread (he : e.mem = Mem.abs) (hf : s.th.finished = false)
    (hx : s.th.error = .success) (f : Val) (args : List Val) (hl : args.length + 1 < 2147483648)
    (hs : s.th.stack = args.reverse ++ f :: rest) :
    HostDoes (builtinNewThread e (i32 (args.length + 1))) s rest
      (Sem.builtin e.fl e.prog .new_thread (f :: args) (stOf s)) := by
  have hn : (i32 (args.length + 1)).toNat = args.length + 1 := by
    simp only [i32, BitVec.toNat_ofNat]
    omega
  have hi : (i32 (args.length + 1)).toInt = args.length + 1 := by
    rw [BitVec.toInt_eq_toNat_cond, hn]
    omega
  unfold builtinNewThread
  rw [if_neg (by omega), hn]
  have hp := popArgs_run args.reverse [] (f :: rest) s hs
  rw [List.length_reverse] at hp
  refine .congr (y := _) (s' := s.withStack (f :: rest)) rfl rfl
    (vm_bind_ok (by rw [Nat.add_sub_cancel]; exact hp)) (.pop rfl ?_)
  rw [List.reverse_reverse, List.append_nil]
  show HostDoes _ _ _ (look f (stOf s) _)
  refine .view he rfl fun x hv => ?_
  cases x with
  | func a =>
    dsimp only
    cases e.prog.findByPc a with
    | none => exact .raise rfl
    | some F =>
      dsimp only
      by_cases hc : F.numArgs = args.length
      · rw [if_neg (by omega), if_neg (by omega)]
        have hpr := prepare_abs he s.mem F args hc
        show HostDoes (spawn e F args >>= _) _ _ (match Sem.handOver s.mem args with | some _ => _ | none => _)
        cases ho : Sem.handOver s.mem args with
        | some x =>
          rw [ho] at hpr
          show _ = _
          refine vm_bind_error ?_
          show spawn e F args (s.withStack rest) = _
          simp only [spawn, withStack_mem, hpr]
        | none =>
          rw [ho] at hpr
          have hsp : spawn e F args (s.withStack rest) = .ok (true,
              { s.withStack rest with
                before := Sem.startThread F.codeStart.toInt args :: s.before }) := by
            simp only [spawn, withStack_mem, hpr]
            rfl
          rw [withStack_withStack]
          refine .congr (s' := { s.withStack rest with
                before := Sem.startThread F.codeStart.toInt args :: s.before }) rfl rfl
            (vm_bind_ok hsp) ?_
          exact .done hf hx rfl (by rw [he]; rfl) rfl
      · rw [if_pos (by omega), if_pos hc]
        exact .raise rfl
  | _ => exact .raise rfl

theorem int_integer (fl : FloatOps) (x : View) : Sem.integer fl x = match x.int? fl with
    | none => none
    | some (.ok n) => some (.val (.int n))
    | some (.error f) => some (.fault f) := by
  cases x <;> try rfl
  simp only [Sem.integer, View.int?]
  split <;> simp_all

theorem does_wait (he : e.mem = Mem.abs) (hf : s.th.finished = false)
    (hx : s.th.error = .success) (v : Val) (hs : s.th.stack = v :: rest) :
    HostDoes (builtinWait e) s rest (Sem.builtin e.fl e.prog .wait [v] (stOf s)) := by
  show HostDoes _ _ _ (look v (stOf s) _)
  refine .pop hs (.view he rfl fun x _ => ?_)
  rw [int_integer]
  cases x.int? e.fl with
  | none => exact .raise rfl
  | some o =>
    cases o with
    | error f => rfl
    | ok n =>
      dsimp only
      by_cases hn : n.toInt > 0
      · refine ⟨{ s with th := { s.th with waits := n, stack := .int 0 :: rest, halted := true } }, ?_,
          rfl, rfl, rfl, hf, hx, rfl⟩
        rw [vm_bind_ok (show lift (.ok n) _ = .ok (n, _) from rfl), vm_bind_ok rfl, pushInt, he,
          vm_bind_ok rfl, if_pos hn]
        rfl
      · refine ⟨{ s with th := { s.th with waits := n, stack := .int 0 :: rest } }, ?_,
          rfl, rfl, rfl, hf, hx, rfl⟩
        rw [vm_bind_ok (show lift (.ok n) _ = .ok (n, _) from rfl), vm_bind_ok rfl, pushInt, he,
          vm_bind_ok rfl, if_neg hn]
        rfl

theorem does_newArray (he : e.mem = Mem.abs) (hf : s.th.finished = false)
    (hx : s.th.error = .success) (v : Val) (hs : s.th.stack = v :: rest) :
    HostDoes (builtinNewArray e) s rest (Sem.builtin e.fl e.prog .new_array [v] (stOf s)) := by
  show HostDoes _ _ _ (look v (stOf s) _)
  refine .pop hs (.view he rfl fun x _ => ?_)
  rw [int_integer]
  cases x.int? e.fl with
  | none => exact .raise rfl
  | some o =>
    cases o with
    | error f => rfl
    | ok n =>
      refine .congr rfl rfl (vm_bind_ok (show lift (.ok n) _ = .ok (n, _) from rfl)) ?_
      dsimp only
      by_cases hn : n.toInt ≤ 0
      · rw [if_pos hn, if_pos hn]
        exact .raise rfl
      · rw [if_neg hn, if_neg hn]
        have : n.toNat = n.toInt.toNat := by
          have := BitVec.toInt_eq_toNat_cond n
          split at this <;> omega
        refine .done hf hx rfl (by rw [he, this]; rfl) rfl

theorem does_builtin (he : e.mem = Mem.abs) (hf : s.th.finished = false)
    (hx : s.th.error = .success) (b : Builtin) (args : List Val) (hl : args.length < 2147483648)
    (hs : s.th.stack = args.reverse ++ rest) :
    HostDoes (b.run e (i32 args.length)) s rest (Sem.builtin e.fl e.prog b args (stOf s)) := by
  have one : ∀ v, args = [v] → s.th.stack = v :: rest := by rintro v rfl; exact hs
  have two : ∀ x y, args = [x, y] → s.th.stack = y :: x :: rest := by rintro x y rfl; exact hs
  cases b with
  | new_thread =>
    cases args with
    | nil => exact .raise rfl
    | cons f args => exact does_newThread he hf hx f args hl (by simpa using hs)
  | min =>
    match args, two with
    | [x, y], two => exact does_pick he hf hx _ x y (two _ _ rfl)
    | [], _ => trivial
    | [_], _ => trivial
    | _ :: _ :: _ :: _, _ => trivial
  | max =>
    match args, two with
    | [x, y], two => exact does_pick he hf hx _ x y (two _ _ rfl)
    | [], _ => trivial
    | [_], _ => trivial
    | _ :: _ :: _ :: _, _ => trivial
  | bitand =>
    match args, two with
    | [x, y], two =>
      show HostDoes _ _ _ (look y (stOf s) fun bv => look x (stOf s) _)
      refine .pop (two _ _ rfl) (.pop rfl (.view he rfl fun y _ => .view he rfl fun x _ => ?_))
      cases y with
      | int b =>
        cases x with
        | int a => exact .done hf hx rfl (by rw [he]; rfl) rfl
        | _ => exact .raise rfl
      | _ => exact .raise rfl
    | [], _ => trivial
    | [_], _ => trivial
    | _ :: _ :: _ :: _, _ => trivial
  | abs =>
    match args, one with
    | [v], one =>
      show HostDoes _ _ _ (look v (stOf s) _)
      refine .pop (one _ rfl) (.view he rfl fun x _ => ?_)
      cases x with
      | int a =>
        dsimp only
        by_cases hn : a.toInt < 0
        · rw [if_pos hn, if_pos hn]
          unfold ret32 Sem.exact
          have hb := a.le_toInt
          by_cases hr : fits32 (-a.toInt) = true
          · rw [if_pos hr, if_pos (by simpa [fits32] using hr)]
            exact .congr rfl rfl (vm_bind_ok (show lift (.ok _) _ = .ok (_, _) from rfl))
              (.done hf hx rfl (by rw [he]; rfl) rfl)
          · rw [if_neg hr, if_neg (by simpa [fits32] using hr)]
            rfl
        · rw [if_neg hn, if_neg hn]
          exact .congr rfl rfl (vm_bind_ok (show lift (.ok _) _ = .ok (_, _) from rfl))
            (.done hf hx rfl (by rw [he]; rfl) rfl)
      | float f => exact .done hf hx rfl (by rw [he]; rfl) rfl
      | _ => exact .raise rfl
    | [], _ => trivial
    | _ :: _ :: _, _ => trivial
  | len =>
    match args, one with
    | [v], one =>
      show HostDoes _ _ _ (look v (stOf s) _)
      refine .pop (one _ rfl) (.view he rfl fun x _ => ?_)
      cases x with
      | arr n => exact .done hf hx rfl (by rw [he]; rfl) rfl
      | str n => exact .done hf hx rfl (by rw [he]; rfl) rfl
      | _ => exact .raise rfl
    | [], _ => trivial
    | _ :: _ :: _, _ => trivial
  | chr =>
    match args, one with
    | [v], one =>
      show HostDoes _ _ _ (look v (stOf s) _)
      refine .pop (one _ rfl) (.view he rfl fun x _ => ?_)
      cases x with
      | int a =>
        refine .done hf hx rfl ?_ rfl
        rw [he]
        show Except.ok _ = _
        simp only [cstr]
        by_cases h : a.setWidth 8 = (0 : Byte)
        · rw [if_pos h, h]; rfl
        · rw [if_neg h]
          have : ((a.setWidth 8 : Byte) != 0) = true := by simpa using h
          simp only [List.takeWhile, this]
          rfl
      | _ => exact .raise rfl
    | [], _ => trivial
    | _ :: _ :: _, _ => trivial
  | wait =>
    match args, one with
    | [v], one => exact does_wait he hf hx v (one _ rfl)
    | [], _ => trivial
    | _ :: _ :: _, _ => trivial
  | new_array =>
    match args, one with
    | [v], one => exact does_newArray he hf hx v (one _ rfl)
    | [], _ => trivial
    | _ :: _ :: _, _ => trivial
  | _ =>
    match args, one with
    | [v], one => exact does_math he hf hx _ v (one _ rfl)
    | [], _ => trivial
    | _ :: _ :: _, _ => trivial

theorem fgets_line (n : Nat) (s : Str) :
    (fgets n s).1.takeWhile (· ≠ ch '\n') = (s.take n).takeWhile (· ≠ ch '\n') ∧
    (fgets n s).2 = (let k := ((s.take n).takeWhile (· ≠ ch '\n')).length
      if k < n then (s.drop k).drop 1 else s.drop k) := by
  induction n generalizing s with
  | zero => simp [fgets]
  | succ n ih =>
    cases s with
    | nil => simp [fgets]
    | cons c s =>
      rw [fgets]
      by_cases hc : c = ch '\n'
      · simp [hc]
      · obtain ⟨h1, h2⟩ := ih s
        rw [if_neg hc, List.take_succ_cons, List.takeWhile_cons, List.takeWhile_cons]
        simp only [ne_eq, hc, not_false_eq_true, decide_true, if_true, List.length_cons, List.drop_succ_cons,
          Nat.add_lt_add_iff_right]
        exact ⟨by rw [← h1], h2⟩

theorem cstr_newline (s : Str) : cstr (s.map fun c => if c = ch '\n' then 0 else c) =
    (s.takeWhile (· ≠ ch '\n')).takeWhile (· ≠ 0) := by
  unfold cstr
  induction s with
  | nil => rfl
  | cons c s ih =>
    by_cases hc : c = ch '\n'
    · simp [hc]
    · by_cases h0 : c = 0
      · rw [List.map_cons, if_neg hc, h0, List.takeWhile_cons, List.takeWhile_cons]
        rw [h0] at hc
        simp only [ne_eq, hc, not_false_eq_true, decide_true, if_true, List.takeWhile_cons]
        rfl
      · rw [List.map_cons, if_neg hc, List.takeWhile_cons, ih, List.takeWhile_cons]
        simp only [ne_eq, hc, not_false_eq_true, decide_true, if_true, List.takeWhile_cons, h0, bne_iff_ne]

theorem HostDoes.getIo {g : Io → VM Val Store Unit} {r : Res Val}
    (h : HostDoes (g s.io) s rest r) : HostDoes (Ccml.getIo >>= g) s rest r :=
  .congr rfl rfl (vm_bind_ok (show Ccml.getIo s = .ok (s.io, s) from rfl)) h

theorem HostDoes.modIo {f : Io → Io} {g : Unit → VM Val Store Unit} {r : Res Val}
    (h : HostDoes (g ()) { s with io := f s.io } rest r) : HostDoes (Ccml.modIo f >>= g) s rest r :=
  .congr (s' := { s with io := f s.io }) rfl rfl
    (vm_bind_ok (show Ccml.modIo f s = .ok ((), { s with io := f s.io }) from rfl)) h

/-- An error, and still a value is left behind. -/
theorem HostDoes.raisePush {x : TErr} {w : State} {f : Store → Out (Val × Store)} {v : Val}
    (h : f s.mem = .ok (v, s.mem)) (hw : stOf s = w) :
    HostDoes (Ccml.raise x >>= fun _ => pushNew f) s rest (.err x w) := by
  refine ⟨{ s with th := { s.th with error := x, finished := true, stack := v :: s.th.stack } }, ?_, rfl, rfl,
    hw⟩
  rw [vm_bind_ok (show Ccml.raise x s = .ok ((), _) from rfl)]
  simp only [pushNew, h]

theorem vm_assoc {P M α β γ : Type} (x : VM P M α) (f : α → VM P M β) (g : β → VM P M γ) :
    (x >>= f >>= g) = (x >>= fun a => f a >>= g) := by
  funext s
  show (StateT.bind (StateT.bind x f) g) s = StateT.bind x (fun a => StateT.bind (f a) g) s
  simp only [StateT.bind]
  cases x s <;> rfl

/-- Popping and reading the arguments. -/
theorem HostDoes.views {g : List View → VM Val Store Unit} {r : List View → Res Val} {w : State}
    (he : e.mem = Mem.abs) : ∀ (xs : List Val) (acc : List View) (s : St Val Store), w.mem = s.mem →
    s.th.stack = xs ++ rest → (∀ ys, HostDoes (g ys) (s.withStack rest) rest (r ys)) →
    HostDoes (popViews e xs.length acc >>= g) s rest (Sem.lookAll xs acc w r)
  | [], acc, s, hw, hs, h => by
    have : s.withStack rest = s := by
      rw [← show s.th.stack = rest from hs]
      rfl
    rw [this] at h
    exact h acc
  | x :: xs, acc, s, hw, hs, h => by
    rw [List.length_cons, popViews, vm_assoc]
    refine .pop hs ?_
    rw [vm_assoc]
    refine .view he hw fun y _ => ?_
    exact HostDoes.views he xs (y :: acc) (s.withStack (xs ++ rest)) hw rfl h

theorem does_sdl (he : e.mem = Mem.abs) (hf : s.th.finished = false) (hx : s.th.error = .success)
    (fn : Sdl.Fn) (args : List Val) (hs : s.th.stack = args.reverse ++ rest) :
    HostDoes (hostSdl e fn) s rest (Sem.hostFn e.fl (.sdl fn) args (stOf s)) := by
  show HostDoes _ _ _ (if args.length = fn.arity then _ else _)
  by_cases ha : args.length = fn.arity
  · rw [if_pos ha]
    unfold hostSdl
    rw [← ha, ← List.length_reverse]
    refine HostDoes.views he _ _ _ rfl hs fun xs => .getIo ?_
    show HostDoes _ _ _ (match fn.call e.fl (s.io.outside s.io.asked) xs { s.io.sdl with halted := false } with
      | .error f => _ | .ok (d, r) => _)
    show HostDoes (lift (fn.call e.fl (s.io.outside s.io.asked) xs { s.io.sdl with halted := false }) >>= _) _ _ _
    rcases fn.call e.fl (s.io.outside s.io.asked) xs { s.io.sdl with halted := false } with f | ⟨d, r⟩
    · rfl
    · refine .congr rfl rfl (vm_bind_ok (show lift (.ok (d, r)) _ = .ok ((d, r), _) from rfl)) (.modIo ?_)
      dsimp only
      cases hd : d.halted with
      | false =>
        cases r with
        | none => exact ⟨_, rfl, by rw [he]; rfl, rfl, rfl, hf, hx, rfl⟩
        | int v =>
          refine .congr rfl rfl (vm_bind_ok rfl) ?_
          show HostDoes (pushInt e v) _ _ _
          exact .done hf hx rfl (by rw [he]; rfl) rfl
      | true =>
        cases r with
        | none => exact ⟨_, rfl, by rw [he]; rfl, rfl, rfl, hf, hx, rfl⟩
        | int v =>
          refine .congr ?_ ?_ (vm_bind_ok rfl) (y := pushInt e v) ?_
          · rfl
          · rfl
          · exact .done hf hx rfl (by rw [he]; rfl) rfl
  · rw [if_neg ha]
    trivial

theorem does_hostFn (he : e.mem = Mem.abs) (hf : s.th.finished = false) (hx : s.th.error = .success)
    (b : HostFn) (args : List Val) (hs : s.th.stack = args.reverse ++ rest) :
    HostDoes (b.run e) s rest (Sem.hostFn e.fl b args (stOf s)) := by
  have one : ∀ v, args = [v] → s.th.stack = v :: rest := fun v h => by rw [hs, h]; rfl
  have zero : args = [] → s.th.stack = rest := fun h => by rw [hs, h]; rfl
  cases b with
  | putc =>
    match args, one with
    | [v], one =>
      show HostDoes _ _ _ (look v (stOf s) _)
      refine .pop (one _ rfl) (.view he rfl fun x _ => ?_)
      cases x with
      | none => rfl
      | int c => exact .modIo (.done hf hx rfl (by rw [he]; rfl) rfl)
      | _ => exact .raisePush (by rw [he]; rfl) rfl
    | [], _ => trivial
    | _ :: _ :: _, _ => trivial
  | puts =>
    match args, one with
    | [v], one =>
      show HostDoes _ _ _ (look v (stOf s) _)
      refine .pop (one _ rfl) (.view he rfl fun x _ => ?_)
      cases x with
      | none => rfl
      | str c => exact .modIo (.done hf hx rfl (by rw [he]; rfl) rfl)
      | _ => exact .raisePush (by rw [he]; rfl) rfl
    | [], _ => trivial
    | _ :: _ :: _, _ => trivial
  | getc =>
    match args, zero with
    | [], zero =>
      refine .getIo ?_
      show HostDoes _ _ _ (match s.io.input with | [] => _ | c :: cs => _)
      cases s.io.input with
      | nil => exact .done hf hx (zero rfl) (by rw [he]; rfl) rfl
      | cons c cs => exact .modIo (.done hf hx (zero rfl) (by rw [he]; rfl) rfl)
    | _ :: _, _ => trivial
  | gets =>
    match args, zero with
    | [], zero =>
      refine .getIo ?_
      show HostDoes _ _ _ (if s.io.input = [] then _ else _)
      cases hi : s.io.input with
      | nil => rfl
      | cons c cs =>
        rw [if_neg (by nofun)]
        dsimp only
        obtain ⟨h1, h2⟩ := fgets_line 79 (c :: cs)
        refine .modIo (.done hf hx (zero rfl) (w := { stOf s with io := { (stOf s).io with input := Sem.behindLine (stOf s).io.input } }) ?_ ?_)
        · rw [he]
          show Except.ok (Val.str _, _) = _
          rw [cstr_newline, h1]
          show _ = Except.ok (Val.str ((Sem.nextLine s.io.input).takeWhile _), _)
          rw [hi]
          rfl
        · show State.mk _ _ _ _ _ { s.io with input := (fgets 79 s.io.input).2 } = State.mk _ _ _ _ _ { s.io with input := Sem.behindLine s.io.input }
          rw [hi, h2]
          rfl
    | _ :: _, _ => trivial
  | rand =>
    match args, zero with
    | [], zero => exact .getIo (.modIo (.done hf hx (zero rfl) (by rw [he]; rfl) rfl))
    | _ :: _, _ => trivial
  | sdl fn => exact does_sdl he hf hx fn args hs

end

/-- The built-ins of the machine do what the specification says. -/
theorem builtins_ok (prog : Program) (fl : FloatOps) :
    HostOk (Env.std prog fl Mem.abs) (Sem.builtins fl prog) := by
  intro fn args rest s hl hs hf hx
  have : HostDoes ((Env.std prog fl Mem.abs).native fn (i32 args.length)) s rest
      (Sem.builtins fl prog fn args (stOf s)) := by
    unfold Sem.builtins Env.std nativeBuiltins
    dsimp only
    cases Builtin.ofPtr fn with
    | none =>
      dsimp only
      cases HostFn.ofPtr fn with
      | none => rfl
      | some b => exact does_hostFn rfl hf hx b args hs
    | some b => exact does_builtin rfl hf hx b args hl hs
  unfold HostDoes at this
  split at this <;> simp_all

end Ccml
