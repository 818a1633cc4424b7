import Verif.Props.Thread
/-!
The scheduler: C36 (dropping finished threads), C37 (passes), C38 (wait), C48 (new threads).
-/
namespace Ccml.Props
open Ccml
variable {P M : Type}

/-! ### C37 One quantum per pass -/

/-- What a pass makes of the threads `ts`, in list order: `kept` are the threads that stay,
`spawned` the ones created on the way, the latest first.  Each thread is treated once: one that
waits counts down; a finished or failed one is dropped; any other runs for one quantum, with the
threads behind it still as they were before the pass. -/
inductive Visited (e : Env P M) (n : I32) :
    (ts spawned kept : List (Thread P)) → Prop
  | done : Visited e n [] [] []
  | sleep {t ts sp ks} : t.waits ≠ 0 → Visited e n ts sp ks →
      Visited e n (t :: ts) sp ({ t with waits := t.waits - 1 } :: ks)
  | drop {t ts sp ks} : t.waits = 0 → t.finished = true ∨ t.error ≠ .success →
      Visited e n ts sp ks → Visited e n (t :: ts) sp ks
  | run {t ts sp ks m g io before s new} : t.waits = 0 → t.finished = false → t.error = .success →
      resume e n { th := t, mem := m, globals := g, before := before, after := ts, io := io } =
        .ok (true, s) → s.before = new ++ before → s.after = ts →
      Visited e n ts sp ks → Visited e n (t :: ts) (sp ++ new) (s.th :: ks)

/-- Requirements on the host: it changes no other thread than the running one (but may add some in
front), and the memory does not move what it keeps. -/
structure Isolated (e : Env P M) : Prop where
  mem : KeepsRoots e.mem
  host : HostPres OthersUntouched e
  finish : FinishPres OthersUntouched e

theorem isolated_std (prog : Program) (fl : FloatOps) : Isolated (Env.std prog fl Mem.abs) where
  mem := abs_keepsRoots
  host := C39_builtins_isolated _ _ _
  finish := { error := nofun, finish := nofun }

theorem ret32_pred (w v : I32) (h : ret32 (w.toInt - 1) = .ok v) : v = w - 1 := by
  unfold ret32 at h
  split at h
  · cases h
    apply BitVec.eq_of_toInt_eq
    rename_i hf
    rw [toInt_ofInt32 hf]
    unfold fits32 at hf
    rw [BitVec.toInt_sub]
    simp only [decide_eq_true_eq] at hf
    have : (1 : I32).toInt = 1 := rfl
    rw [this, Int.bmod_eq_of_le] <;> omega
  · cases h

theorem passLoop_visited (e : Env P M) (he : Isolated e) (n : I32) (fuel : Nat) :
    ∀ (m : M) (g : List P) (io : Io) (before after : List (Thread P)) (v' : VmState P M),
      passLoop e n fuel m g io before after = .ok (true, v') →
      ∃ spawned kept, Visited e n after spawned kept ∧
        v'.threads = spawned ++ before ++ kept := by
  induction fuel with
  | zero =>
    intro m g io before after v' h
    cases after with
    | nil =>
      unfold passLoop at h; cases h
      exact ⟨[], [], .done, by simp⟩
    | cons => unfold passLoop at h; cases h
  | succ f ih =>
    intro m g io before after v' h
    cases after with
    | nil =>
      unfold passLoop at h; cases h
      exact ⟨[], [], .done, by simp⟩
    | cons t ts =>
      unfold passLoop at h
      split at h
      · rename_i hw
        split at h
        · cases h
        · rename_i w hr
          have := ret32_pred _ _ hr
          subst this
          obtain ⟨sp, ks, h1, h2⟩ := ih _ _ _ _ _ _ h
          exact ⟨sp, _, .sleep hw h1, by rw [h2]; simp⟩
      · rename_i hw
        have hw : t.waits = 0 := by simpa using hw
        split at h
        · rename_i hd
          obtain ⟨sp, ks, h1, h2⟩ := ih _ _ _ _ _ _ h
          refine ⟨sp, _, .drop hw ?_ h1, h2⟩
          simpa [Thread.hasError] using hd
        · rename_i hd
          split at h
          · cases h
          · rename_i ok s hr
            have hd : t.finished = false ∧ t.error = .success := by
              simpa [Thread.hasError] using hd
            split at h
            · rename_i hok
              have hok : ok = true := hok
              subst hok
              have iso := C39_resume_untouched e he.mem he.host he.finish _ _ _ _ hr
              obtain ⟨new, hn⟩ := iso.before
              obtain ⟨sp, ks, h1, h2⟩ := ih _ _ _ _ _ _ h
              have ha : s.after = ts := iso.after
              rw [ha] at h1
              refine ⟨sp ++ new, s.th :: ks, .run hw hd.1 hd.2 hr hn ha h1, ?_⟩
              rw [h2, hn]; simp
            · split at h <;> cases h

/-- C37: a pass of `vm_t::resume` that reports success treats every thread of the list exactly once
and in order; the threads created meanwhile are put in front, in the state they were created in. -/
theorem C37_pass (e : Env P M) (he : Isolated e) (n : I32) (v v' : VmState P M)
    (h : v.resume e n = .ok (true, v')) :
    ∃ spawned kept, Visited e n v.threads spawned kept ∧ v'.threads = spawned ++ kept := by
  obtain ⟨sp, ks, h1, h2⟩ := passLoop_visited e he n _ _ _ _ _ _ _ h
  exact ⟨sp, ks, h1, by simpa using h2⟩

/-- C36: a finished or failed thread that is not waiting is gone after the next pass: no thread of
the list comes from it. -/
theorem C36_dropped (e : Env P M) (n : I32) (t : Thread P) (ts spawned kept : List (Thread P))
    (h : Visited e n (t :: ts) spawned kept) (hw : t.waits = 0)
    (hf : t.finished = true ∨ t.error ≠ .success) : Visited e n ts spawned kept := by
  cases h with
  | sleep h => exact absurd hw h
  | drop _ _ h => exact h
  | run _ h1 h2 =>
    rcases hf with h | h
    · rw [h1] at h; cases h
    · exact absurd h2 h

/-- C37: a runnable thread runs in the pass. -/
theorem C37_runs (e : Env P M) (n : I32) (t : Thread P) (ts spawned kept : List (Thread P))
    (h : Visited e n ts spawned kept) (ht : t ∈ ts) (hw : t.waits = 0) (hf : t.finished = false)
    (he : t.error = .success) :
    ∃ m g io before after s, s.th ∈ kept ∧
      resume e n { th := t, mem := m, globals := g, before := before, after := after, io := io } =
        .ok (true, s) := by
  induction h with
  | done => cases ht
  | sleep hw' _ ih =>
    cases ht with
    | head => exact absurd hw hw'
    | tail _ ht =>
      obtain ⟨m, g, io, b, a, s, h1, h2⟩ := ih ht
      exact ⟨m, g, io, b, a, s, .tail _ h1, h2⟩
  | drop _ hd _ ih =>
    cases ht with
    | head =>
      rcases hd with h | h
      · rw [hf] at h; cases h
      · exact absurd he h
    | tail _ ht => exact ih ht
  | @run t' ts sp ks m g io before s new _ _ _ hr _ _ _ ih =>
    cases ht with
    | head => exact ⟨m, g, io, before, ts, s, .head _, hr⟩
    | tail _ ht =>
      obtain ⟨m, g, io, b, a, s, h1, h2⟩ := ih ht
      exact ⟨m, g, io, b, a, s, .tail _ h1, h2⟩

/-! ### C38 wait(n) -/

/-- A history of successful passes, each with its own quantum. -/
inductive Passes (e : Env P M) : Nat → VmState P M → VmState P M → Prop
  | none (v) : Passes e 0 v v
  | pass {k v v1 v' n} : Passes e k v v1 → v1.resume e n = .ok (true, v') → Passes e (k + 1) v v'

theorem visited_sleep (e : Env P M) (n : I32) (t : Thread P) (ts spawned kept : List (Thread P))
    (h : Visited e n ts spawned kept) (ht : t ∈ ts) (hw : t.waits ≠ 0) :
    { t with waits := t.waits - 1 } ∈ kept := by
  induction h with
  | done => cases ht
  | sleep hw' _ ih =>
    cases ht with
    | head => exact .head _
    | tail _ ht => exact .tail _ (ih ht)
  | drop hw' hd _ ih =>
    cases ht with
    | head => exact absurd hw' hw
    | tail _ ht => exact ih ht
  | run hw' _ _ _ _ _ _ ih =>
    cases ht with
    | head => exact absurd hw' hw
    | tail _ ht => exact .tail _ (ih ht)

theorem passes_wait (e : Env P M) (he : Isolated e) (k : Nat) (t : Thread P) (v v' : VmState P M)
    (h : Passes e k v v') (ht : t ∈ v.threads)
    (hw : ∀ i < k, t.waits - BitVec.ofNat 32 i ≠ 0) :
    { t with waits := t.waits - BitVec.ofNat 32 k } ∈ v'.threads := by
  induction h with
  | none => simpa using ht
  | @pass k v v1 v' n hp hr ih =>
    have := ih ht fun i hi => hw i (by omega)
    obtain ⟨sp, ks, h1, h2⟩ := C37_pass e he n v1 v' hr
    have h3 := visited_sleep e n _ _ _ _ h1 this (hw k (by omega))
    rw [h2]
    refine List.mem_append_right _ ?_
    have e1 : t.waits - BitVec.ofNat 32 k - 1 = t.waits - BitVec.ofNat 32 (k + 1) := by
      apply BitVec.eq_of_toNat_eq
      simp only [BitVec.toNat_sub, BitVec.toNat_ofNat, BitVec.ofNat_eq_ofNat]
      omega
    simp only [e1] at h3
    exact h3

/-- C38: a thread that is to wait for `n ≥ 0` passes is in the list during the next `n` passes and
nothing but its counter changes. -/
theorem C38_sleeps (e : Env P M) (he : Isolated e) (t : Thread P) (n k : Nat) (v v' : VmState P M)
    (ht : t ∈ v.threads) (hn : t.waits.toInt = n) (hk : k ≤ n) (h : Passes e k v v') :
    ∃ t' ∈ v'.threads, t'.waits.toInt = ((n - k : Nat) : Int) ∧
      { t' with waits := t.waits } = t := by
  have hnat : t.waits.toNat = n := by
    have := BitVec.toInt_eq_toNat_cond t.waits
    have := t.waits.isLt
    split at * <;> omega
  have hlt : n < 2147483648 := by
    have := BitVec.toInt_eq_toNat_cond t.waits
    have := t.waits.isLt
    split at * <;> omega
  have hsub : ∀ i ≤ n, (t.waits - BitVec.ofNat 32 i).toNat = n - i := by
    intro i hi
    rw [BitVec.toNat_sub, BitVec.toNat_ofNat, hnat]
    omega
  refine ⟨_, passes_wait e he k t v v' h ht fun i hi h0 => ?_, ?_, rfl⟩
  · have := hsub i (by omega)
    rw [h0] at this
    simp at this
    omega
  · have h1 := hsub k hk
    have := BitVec.toInt_eq_toNat_cond (t.waits - BitVec.ofNat 32 k)
    rw [this, h1]
    split <;> omega

/-- C38: and after these `n` passes it runs in the next one. -/
theorem C38_wakes (e : Env P M) (he : Isolated e) (t : Thread P) (n : Nat) (q : I32)
    (v v1 v' : VmState P M) (ht : t ∈ v.threads) (hn : t.waits.toInt = n)
    (hf : t.finished = false) (hs : t.error = .success) (h : Passes e n v v1)
    (hr : v1.resume e q = .ok (true, v')) :
    ∃ m g io before after s, s.th ∈ v'.threads ∧
      resume e q { th := { t with waits := 0 }, mem := m, globals := g, before := before,
                   after := after, io := io } = .ok (true, s) := by
  obtain ⟨t', h1, h2, h3⟩ := C38_sleeps e he t n n v v1 ht hn (Nat.le_refl n) h
  have hw : t'.waits = 0 := BitVec.eq_of_toInt_eq (by rw [h2]; simp)
  have ht' : t' = { t with waits := 0 } := by
    rw [← h3, ← hw]
  obtain ⟨sp, ks, h4, h5⟩ := C37_pass e he q v1 v' hr
  obtain ⟨m, g, io, b, a, s, h6, h7⟩ := C37_runs e q t' _ _ _ h4 h1 hw
    (by rw [ht']; exact hf) (by rw [ht']; exact hs)
  refine ⟨m, g, io, b, a, s, by rw [h5]; exact List.mem_append_right _ h6, ?_⟩
  rw [← ht']; exact h7

/-- C38, violated for negative arguments: the thread counts down and away from zero, so that it does
not run in any number of passes (as long as the counter does not overflow, which is undefined). -/
theorem C38_negative_never_runs (e : Env P M) (he : Isolated e) (t : Thread P) (k : Nat)
    (v v' : VmState P M) (ht : t ∈ v.threads) (hn : t.waits.toInt < 0)
    (hk : -2147483648 ≤ t.waits.toInt - k) (h : Passes e k v v') :
    ∃ t' ∈ v'.threads, t'.waits.toInt = t.waits.toInt - k ∧ { t' with waits := t.waits } = t := by
  have c := BitVec.toInt_eq_toNat_cond t.waits
  have hl := t.waits.isLt
  have hsub : ∀ i ≤ k, (t.waits - BitVec.ofNat 32 i).toNat = t.waits.toNat - i := by
    intro i hi
    rw [BitVec.toNat_sub, BitVec.toNat_ofNat]
    split at c <;> omega
  refine ⟨_, passes_wait e he k t v v' h ht fun i hi h0 => ?_, ?_, rfl⟩
  · have := hsub i (by omega)
    rw [h0] at this
    simp at this
    split at c <;> omega
  · have h1 := hsub k (Nat.le_refl k)
    have c' := BitVec.toInt_eq_toNat_cond (t.waits - BitVec.ofNat 32 k)
    rw [c', h1]
    split at c <;> split <;> omega

/-- C38: what the built-in does: it consumes its argument, leaves 0, sets the counter, and for a
positive count stops the thread so that the quantum ends. -/
theorem C38_wait (e : Env Val Store) (he : e.mem = Mem.abs) (s : St Val Store) (n : I32)
    (rest : List Val) (hs : s.th.stack = .int n :: rest) :
    builtinWait e s = .ok ((), { s with th := { s.th with
      stack := .int 0 :: rest, waits := n,
      halted := s.th.halted || decide (0 < n.toInt) } }) := by
  have hx := view_live he (s := s.withStack rest) (v := .int n) trivial
  simp only [builtinWait, vm_bind, pop_cons hs, hx, Val.viewL, View.int?, lift, modTh, pushInt,
    pushNew, he, Mem.abs]
  split
  · rename_i h
    have : 0 < n.toInt := h
    simp [this, St.withStack, modTh]
  · rename_i h
    have : ¬ 0 < n.toInt := h
    simp [this, St.withStack]
    rfl

/-! ### C48 New threads -/

/-- The thread `new_thread(f, args)` is to start: at the entry of `f`, without error, with the
arguments on its stack below the frame. -/
structure StartsAt (t : Thread Val) (f : Function) (args : List Val) : Prop where
  pc : t.pc = f.codeStart.toInt
  running : t.finished = false ∧ t.error = .success ∧ t.waits = 0 ∧ t.halted = false
  /-- one frame, after which the thread ends -/
  frame : ∃ fr, t.frames = [fr] ∧ fr.terminal = true ∧
    /- parameter `i` of `n` is read at offset `i - n` from the frame -/
    ∀ i (h : i < args.length), stackAt t.stack (fr.sp + ((i : Int) - args.length)) = some args[i]
  height : t.stack.length = args.length

/-- Not an array. -/
def Flat : Val → Prop
  | .arr _ => False
  | _ => True

theorem copyVal_flat (e : Env Val Store) (he : e.mem = Mem.abs) (m : Store) (v : Val) (hv : Flat v) :
    copyVal e m v = .ok (v, m) := by
  unfold copyVal
  rw [he]
  cases v <;> first | rfl | exact hv.elim

theorem copyArgs_flat (e : Env Val Store) (he : e.mem = Mem.abs) (m : Store) (args : List Val)
    (h : ∀ v ∈ args, Flat v) : ∀ acc, copyArgs e m acc args = .ok (args.reverse ++ acc, m) := by
  induction args with
  | nil => intro acc; rfl
  | cons a as ih =>
    intro acc
    unfold copyArgs
    rw [copyVal_flat e he m a (h a (List.mem_cons_self ..))]
    simp only [ih (fun v hv => h v (List.mem_cons_of_mem _ hv)) (a :: acc), List.reverse_cons,
      List.append_assoc, List.singleton_append]

theorem popArgs_stack (s : St P M) (args rest : List P) : ∀ acc, s.th.stack = args ++ rest →
    popArgs args.length acc s = .ok (args.reverse ++ acc, s.withStack rest) := by
  induction args generalizing s with
  | nil => intro acc hs; simp only [List.nil_append] at hs; rw [← hs]; rfl
  | cons a as ih =>
    intro acc hs
    unfold List.length popArgs
    rw [vm_bind_ok (pop_cons (r := as ++ rest) hs)]
    rw [ih (s.withStack (as ++ rest)) (a :: acc) rfl]
    simp

/-- C48: `new_thread(f, a1, ..., an)` consumes its arguments, returns 0 and puts one new thread in
front of the list, which starts at `f` with parameters `a1 ... an`, provided `f` is a function
taking `n` arguments and no argument is an array. -/
theorem C48_new_thread (e : Env Val Store) (he : e.mem = Mem.abs) (s : St Val Store) (addr : I32)
    (f : Function) (args rest : List Val) (hs : s.th.stack = args.reverse ++ .func addr :: rest)
    (hf : e.prog.findByPc addr = some f) (hn : f.numArgs = args.length)
    (hfl : ∀ v ∈ args, Flat v) (hlen : args.length + 1 < 2147483648) :
    ∃ t, builtinNewThread e (BitVec.ofNat 32 (args.length + 1)) s = .ok ((),
        { s with th := { s.th with stack := .int 0 :: rest }, before := t :: s.before }) ∧
      StartsAt t f args := by
  have h1 : ¬ (BitVec.ofNat 32 (args.length + 1)).toInt ≤ 0 := by
    rw [BitVec.toInt_eq_toNat_cond, BitVec.toNat_ofNat]
    split <;> omega
  have h2 : (BitVec.ofNat 32 (args.length + 1)).toNat = args.length + 1 := by
    rw [BitVec.toNat_ofNat]; omega
  have h3 := popArgs_stack s args.reverse (.func addr :: rest) [] (by simpa using hs)
  have h3 : popArgs args.length [] s = .ok (args, s.withStack (.func addr :: rest)) := by
    simpa using h3
  have hx := view_live he (s := s.withStack rest) (v := .func addr) trivial
  have hp : prepare e s.mem f args = .ok (some ({ (Thread.fresh : Thread Val) with
        stack := args.reverse
        pc := f.codeStart.toInt
        frames := [⟨args.reverse.length, f.codeStart.toInt, f.codeStart.toInt, true⟩] }, s.mem)) := by
    unfold prepare
    rw [if_neg (by omega), copyArgs_flat e he _ _ hfl]
    simp
  refine ⟨{ (Thread.fresh : Thread Val) with
        stack := args.reverse
        pc := f.codeStart.toInt
        frames := [⟨args.reverse.length, f.codeStart.toInt, f.codeStart.toInt, true⟩] }, ?_, ?_⟩
  · unfold builtinNewThread
    rw [if_neg h1, h2, Nat.add_sub_cancel, vm_bind_ok h3, vm_bind_ok (pop_cons rfl), withStack_withStack, vm_bind_ok hx]
    simp only [Val.viewL, hf]
    rw [if_neg (by omega)]
    have hsp : spawn e f args (s.withStack rest) = .ok (true, { s.withStack rest with
        before := { (Thread.fresh : Thread Val) with
          stack := args.reverse
          pc := f.codeStart.toInt
          frames := [⟨args.reverse.length, f.codeStart.toInt, f.codeStart.toInt, true⟩] } :: s.before }) := by
      unfold spawn
      rw [show (s.withStack rest).mem = s.mem from rfl, hp]
      rfl
    rw [vm_bind_ok hsp]
    simp only [pushInt, pushNew, he, Mem.abs]
    rfl
  · refine ⟨rfl, ⟨rfl, rfl, rfl, rfl⟩, ⟨_, rfl, rfl, fun i hi => ?_⟩, by simp⟩
    simp only [List.length_reverse, stackAt]
    rw [if_pos (by omega)]
    have : ((args.length : Int) + ((i : Int) - args.length)).toNat = i := by omega
    rw [this, List.reverse_reverse]
    exact List.getElem?_eq_getElem hi

/-- C48: with the wrong number of arguments no thread is started and the caller stops with
`bad_argument`. -/
theorem C48_wrong_count (e : Env Val Store) (he : e.mem = Mem.abs) (s : St Val Store) (addr : I32)
    (f : Function) (args rest : List Val) (hs : s.th.stack = args.reverse ++ .func addr :: rest)
    (hf : e.prog.findByPc addr = some f) (hn : f.numArgs ≠ args.length)
    (hlen : args.length + 1 < 2147483648) :
    builtinNewThread e (BitVec.ofNat 32 (args.length + 1)) s = .ok ((),
      { s with th := { s.th with stack := rest, error := .bad_argument, finished := true } }) := by
  have h1 : ¬ (BitVec.ofNat 32 (args.length + 1)).toInt ≤ 0 := by
    rw [BitVec.toInt_eq_toNat_cond, BitVec.toNat_ofNat]
    split <;> omega
  have h2 : (BitVec.ofNat 32 (args.length + 1)).toNat = args.length + 1 := by
    rw [BitVec.toNat_ofNat]; omega
  have h3 := popArgs_stack s args.reverse (.func addr :: rest) [] (by simpa using hs)
  have h3 : popArgs args.length [] s = .ok (args, s.withStack (.func addr :: rest)) := by
    simpa using h3
  have hx := view_live he (s := s.withStack rest) (v := .func addr) trivial
  unfold builtinNewThread
  rw [if_neg h1, h2, Nat.add_sub_cancel, vm_bind_ok h3, vm_bind_ok (pop_cons rfl), withStack_withStack, vm_bind_ok hx]
  simp only [Val.viewL, hf]
  rw [if_pos (by omega)]
  rfl

/-- C48: the host function `vm_t::new_thread` does the same. -/
theorem C48_host_new_thread (e : Env Val Store) (he : e.mem = Mem.abs) (v : VmState Val Store)
    (f : Function) (args : List Val) (hfl : ∀ v ∈ args, Flat v) :
    (f.numArgs = args.length → ∃ t, StartsAt t f args ∧
      v.newThread e f args = .ok (true, { v with threads := t :: v.threads })) ∧
    (f.numArgs ≠ args.length → v.newThread e f args = .ok (false, v)) := by
  constructor
  · intro hn
    refine ⟨{ (Thread.fresh : Thread Val) with
        stack := args.reverse
        pc := f.codeStart.toInt
        frames := [⟨args.reverse.length, f.codeStart.toInt, f.codeStart.toInt, true⟩] },
      ⟨rfl, ⟨rfl, rfl, rfl, rfl⟩, ⟨_, rfl, rfl, fun i hi => ?_⟩, by simp⟩, ?_⟩
    · simp only [List.length_reverse, stackAt]
      rw [if_pos (by omega)]
      have : ((args.length : Int) + ((i : Int) - args.length)).toNat = i := by omega
      rw [this, List.reverse_reverse]
      exact List.getElem?_eq_getElem hi
    · unfold VmState.newThread prepare
      rw [if_neg (by omega), copyArgs_flat e he _ _ hfl]
      simp
  · intro hn
    unfold VmState.newThread prepare
    rw [if_pos hn]

/-! ### Examples -/

/-- `f(x)` at address 6: returns its argument; the main code at 0 is `return 7`. -/
def toyProg : Program :=
  { Program.empty with
    code := Op.NEW_INT.code :: le32 7 ++ Op.RET.code :: le32 0 ++ -- 0..9
      Op.GETV.code :: le32 (-1) ++ Op.RET.code :: le32 1           -- 10..19
    functions := [⟨str "f", 10, 20, [], [⟨str "x", 0⟩]⟩] }

def toyMachine : Env Val Store := Env.std toyProg toyFl Mem.abs

example : toyMachine.prog.findByPc 10 = some ⟨str "f", 10, 20, [], [⟨str "x", 0⟩]⟩ := by decide

/-- One thread asleep, one failed, one about to execute `return 7`. -/
def toyVm : VmState Val Store :=
  { mem := [], globals := [], io := { input := [], output := [], seed := 12345 },
    threads := [{ Thread.fresh with waits := 3 },
                { Thread.fresh with finished := true, error := .bad_argument },
                { Thread.fresh with frames := [⟨0, 0, 0, true⟩] }] }

example : (match toyVm.resume toyMachine 100 with
    | .ok (true, v') => v'.threads.map (fun t => (t.waits, t.finished, t.stack))
    | _ => []) = [(2, false, []), (0, true, [.int 7])] := by
  decide +kernel

example : Isolated toyMachine := isolated_std _ _

end Ccml.Props
