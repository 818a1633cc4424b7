import Verif.IoFacts
import Verif.Props.Refine
import Verif.SampleProg
/-!
C63: the functions of the command line driver that programs read and write with.
-/
namespace Ccml.Props
open Ccml

/-! ### Over a whole run -/

/-- C63: whatever program runs, whatever the host calls and whenever the collector runs: what has been
written stays, new output comes behind it; input is taken from the front; and the random numbers are
those of one sequence, none skipped or drawn twice. -/
theorem C63_history {P M : Type} (prog : Program) (fl : FloatOps) (mem : MemOps P M) (ops : List HostOp)
    (v v' : VmState P M) (os : List HostOut) (h : session (Env.std prog fl mem) v ops = (os, .ok v')) :
    (∃ written, v'.io.output = v.io.output ++ written) ∧ (∃ taken, v.io.input = taken ++ v'.io.input) ∧
      ∃ k, v'.io.seed = Nat.repeat xorshift32 k v.io.seed := by
  obtain ⟨⟨w, hw⟩, ⟨t, ht⟩, h3⟩ := session_io prog fl mem h
  exact ⟨⟨w, hw.symm⟩, ⟨t, ht.symm⟩, h3⟩

/-! ### The generator -/

theorem xor_cancel : ∀ {a b c : Bool}, (a ^^ c) = (b ^^ c) → a = b := by decide

theorem shl_xor_inj {w : Nat} (k : Nat) (hk : 0 < k) {x y : BitVec w} (h : x ^^^ (x <<< k) = y ^^^ (y <<< k)) :
    x = y := by
  refine BitVec.eq_of_getLsbD_eq fun i hi => ?_
  induction i using Nat.strongRecOn with
  | ind i ih =>
    have h1 := congrArg (fun z => z.getLsbD i) h
    simp only [BitVec.getLsbD_xor, BitVec.getLsbD_shiftLeft, hi, decide_true, Bool.true_and] at h1
    by_cases hik : i < k
    · simpa [hik] using h1
    · have h2 := ih (i - k) (by omega) (by omega)
      simp only [hik, decide_false, Bool.not_false, Bool.true_and, h2] at h1
      exact xor_cancel h1

theorem shr_xor_inj {w : Nat} (k : Nat) (hk : 0 < k) {x y : BitVec w} (h : x ^^^ (x >>> k) = y ^^^ (y >>> k)) :
    x = y := by
  have key : ∀ j i, i + j = w → x.getLsbD i = y.getLsbD i := by
    intro j
    induction j using Nat.strongRecOn with
    | ind j ih =>
      intro i hij
      have h1 := congrArg (fun z => z.getLsbD i) h
      simp only [BitVec.getLsbD_xor, BitVec.getLsbD_ushiftRight] at h1
      have h2 : x.getLsbD (k + i) = y.getLsbD (k + i) := by
        by_cases hw : w ≤ k + i
        · rw [BitVec.getLsbD_of_ge _ _ hw, BitVec.getLsbD_of_ge _ _ hw]
        · exact ih (w - (k + i)) (by omega) (k + i) (by omega)
      rw [h2] at h1
      exact xor_cancel h1
  exact BitVec.eq_of_getLsbD_eq fun i hi => key (w - i) i (by omega)

/-- Different seeds lead to different seeds: the generator runs through cycles. -/
theorem C63_injective (x y : BitVec 32) (h : xorshift32 x = xorshift32 y) : x = y :=
  shl_xor_inj 13 (by omega) (shr_xor_inj 17 (by omega) (shl_xor_inj 5 (by omega) h))

theorem repeat_nonzero {x : BitVec 32} (h : x ≠ 0) : ∀ k, Nat.repeat xorshift32 k x ≠ 0
  | 0 => h
  | k + 1 => fun h1 => repeat_nonzero h k (C63_injective _ 0 (h1.trans (by decide)))

/-- C63: the generator of the driver, which starts with 12345, never gets to the seed 0, where it would
stay, whatever runs. -/
theorem C63_alive {P M : Type} (prog : Program) (fl : FloatOps) (mem : MemOps P M) (ops : List HostOp)
    (m0 : M) (input output : Str) (v' : VmState P M) (os : List HostOut)
    (h : session (Env.std prog fl mem) ⟨m0, [], [], { input := input, output := output, seed := 12345 }⟩ ops = (os, .ok v')) :
    v'.io.seed ≠ 0 := by
  obtain ⟨_, _, k, hk⟩ := C63_history prog fl mem ops _ v' os h
  rw [hk]
  exact repeat_nonzero (show (12345 : BitVec 32) ≠ 0 by decide) k

/-! ### The functions -/

section
variable (e : Env Val Store)

/-- The state after a host function: the value it leaves, and input and output. -/
def gives (s : St Val Store) (vs : List Val) (io : Io) : St Val Store :=
  { s with th := { s.th with stack := vs ++ s.th.stack }, io := io }

/-- Run a host function `n` times. -/
def times (x : VM Val Store Unit) : Nat → VM Val Store Unit
  | 0 => pure ()
  | n + 1 => do x; times x n

theorem look_abs (he : e.mem = Mem.abs) {v : Val} {x : View} {s : St Val Store} (hv : v.view s.mem = .ok x) :
    view e v s = .ok (x, s) := by
  unfold view
  rw [he]
  show lift (v.view s.mem) s = _
  rw [hv]
  rfl

/-- C63: `rand` leaves a number from 0 to 0x7fffff. -/
theorem C63_rand (he : e.mem = Mem.abs) (s : St Val Store) :
    ∃ v : I32, 0 ≤ v.toInt ∧ v.toInt ≤ 0x7fffff ∧
      HostFn.rand.run e s = .ok ((), gives s [.int v] { s.io with seed := xorshift32 s.io.seed }) := by
  refine ⟨xorshift32 s.io.seed &&& 0x7fffff, ?_, ?_, ?_⟩
  · rw [BitVec.toInt_eq_toNat_of_lt]
    · omega
    · have : (xorshift32 s.io.seed &&& 0x7fffff).toNat ≤ 0x7fffff := by
        rw [BitVec.toNat_and]; exact Nat.and_le_right
      omega
  · have : (xorshift32 s.io.seed &&& 0x7fffff).toNat ≤ 0x7fffff := by
      rw [BitVec.toNat_and]; exact Nat.and_le_right
    rw [BitVec.toInt_eq_toNat_of_lt (by omega)]
    omega
  · simp only [HostFn.run, hostRand, pushInt, he]
    rfl

/-- C63: `getc` called repeatedly gives the characters of the input one after the other, as numbers
from 0 to 255. -/
theorem C63_getc (he : e.mem = Mem.abs) : ∀ (cs rest : Str) (s : St Val Store), s.io.input = cs ++ rest →
    times (HostFn.getc.run e) cs.length s =
      .ok ((), gives s (cs.map fun c => .int (BitVec.ofNat 32 c.toNat)).reverse { s.io with input := rest })
  | [], rest, s, h => by
    rw [List.nil_append] at h
    rw [← h]
    rfl
  | c :: cs, rest, s, h => by
    have h1 : HostFn.getc.run e s =
        .ok ((), gives s [.int (BitVec.ofNat 32 c.toNat)] { s.io with input := cs ++ rest }) := by
      have : BitVec.ofNat 32 c.toNat = c.setWidth 32 := by
        apply BitVec.eq_of_toNat_eq
        simp
      rw [this]
      simp only [HostFn.run, hostGetc, pushInt, he]
      rw [vm_bind]
      simp only [getIo, h, List.cons_append]
      rfl
    have h2 := C63_getc he cs rest (gives s [.int (BitVec.ofNat 32 c.toNat)] { s.io with input := cs ++ rest }) rfl
    show (HostFn.getc.run e >>= fun _ => times (HostFn.getc.run e) cs.length) s = _
    rw [vm_bind, h1]
    dsimp only
    rw [h2]
    simp [gives]

/-- C63: at the end of the input `getc` gives -1, which is no character. -/
theorem C63_getc_end (he : e.mem = Mem.abs) (s : St Val Store) (h : s.io.input = []) :
    HostFn.getc.run e s = .ok ((), gives s [.int (-1)] s.io) ∧
      ∀ c : Byte, (BitVec.ofNat 32 c.toNat : I32) ≠ -1 := by
  refine ⟨?_, fun c hc => ?_⟩
  · simp only [HostFn.run, hostGetc, pushInt, he]
    rw [vm_bind]
    simp only [getIo, h]
    rfl
  · have := congrArg BitVec.toNat hc
    have hc := c.isLt
    rw [BitVec.toNat_ofNat, Nat.mod_eq_of_lt (by omega)] at this
    rw [show (-1 : BitVec 32).toNat = 4294967295 from rfl] at this
    omega

/-- C63: `putc` writes the lowest eight bits of its argument and leaves 0. -/
theorem C63_putc (he : e.mem = Mem.abs) (s : St Val Store) (c : I32) (st : List Val)
    (h : s.th.stack = .int c :: st) :
    HostFn.putc.run e s = .ok ((), { s with
      th := { s.th with stack := .int 0 :: st }
      io := { s.io with output := s.io.output ++ [BitVec.ofNat 8 (c.toNat % 256)] } }) := by
  simp only [HostFn.run, hostPutc, pushInt, he]
  rw [vm_bind]
  simp only [pop, h]
  rw [vm_bind, look_abs e he (x := .int c) rfl]
  have : (c.setWidth 8 : Byte) = BitVec.ofNat 8 (c.toNat % 256) := by
    apply BitVec.eq_of_toNat_eq
    simp
  rw [← this]
  rfl

/-- C63: `puts` writes its argument and a newline and leaves 0. -/
theorem C63_puts (he : e.mem = Mem.abs) (s : St Val Store) (l : Str) (st : List Val)
    (h : s.th.stack = .str l :: st) :
    HostFn.puts.run e s = .ok ((), { s with
      th := { s.th with stack := .int 0 :: st }
      io := { s.io with output := s.io.output ++ (l ++ str "\n") } }) := by
  simp only [HostFn.run, hostPuts, pushInt, he]
  rw [vm_bind]
  simp only [pop, h]
  rw [vm_bind, look_abs e he (x := .str l) rfl]
  rfl

/-- C63: a value of another type is an error of the program, and nothing is written. -/
theorem C63_wrong_type (he : e.mem = Mem.abs) (s : St Val Store) (v : Val) (x : View) (st : List Val)
    (h : s.th.stack = v :: st) (hv : v.view s.mem = .ok x) :
    ((∀ c, x ≠ .int c) → x ≠ .none → ∃ s', HostFn.putc.run e s = .ok ((), s') ∧ s'.th.error = .bad_argument ∧ s'.io = s.io) ∧
    ((∀ l, x ≠ .str l) → x ≠ .none → ∃ s', HostFn.puts.run e s = .ok ((), s') ∧ s'.th.error = .bad_argument ∧ s'.io = s.io) := by
  constructor
  · intro h1 h2
    simp only [HostFn.run, hostPutc, pushInt, he]
    rw [vm_bind]
    simp only [pop, h]
    rw [vm_bind, look_abs e he (x := x) (by exact hv)]
    cases x with
    | int c => exact absurd rfl (h1 c)
    | none => exact absurd rfl h2
    | _ => exact ⟨_, rfl, rfl, rfl⟩
  · intro h1 h2
    simp only [HostFn.run, hostPuts, pushInt, he]
    rw [vm_bind]
    simp only [pop, h]
    rw [vm_bind, look_abs e he (x := x) (by exact hv)]
    cases x with
    | str c => exact absurd rfl (h1 c)
    | none => exact absurd rfl h2
    | _ => exact ⟨_, rfl, rfl, rfl⟩

/-- C63 fails: writing `none` ends the process with a failed assertion instead of an error of the
program. -/
theorem C63_none (he : e.mem = Mem.abs) (s : St Val Store) (st : List Val) (h : s.th.stack = .none :: st) :
    HostFn.putc.run e s = .error .assert ∧ HostFn.puts.run e s = .error .assert := by
  constructor
  · simp only [HostFn.run, hostPutc, pushInt, he]
    rw [vm_bind]
    simp only [pop, h]
    rw [vm_bind, look_abs e he (x := .none) rfl]
    rfl
  · simp only [HostFn.run, hostPuts, pushInt, he]
    rw [vm_bind]
    simp only [pop, h]
    rw [vm_bind, look_abs e he (x := .none) rfl]
    rfl

/-- A line of text: no newline, no NUL. -/
def Plain (l : Str) : Prop := ∀ c ∈ l, c ≠ ch '\n' ∧ c ≠ 0

instance (l : Str) : Decidable (Plain l) := by unfold Plain; infer_instance

theorem fgets_line : ∀ (n : Nat) (l rest : Str), Plain l → l.length < n →
    fgets n (l ++ ch '\n' :: rest) = (l ++ [ch '\n'], rest)
  | 0, l, rest, h, hn => by omega
  | n + 1, [], rest, h, hn => by
    simp [fgets]
  | n + 1, c :: l, rest, h, hn => by
    have hc := (h c (by simp)).1
    have ih := fgets_line n l rest (fun d hd => h d (List.mem_cons_of_mem _ hd)) (by simp at hn; omega)
    rw [List.cons_append, fgets, if_neg hc, ih]
    rfl

theorem fgets_full : ∀ (l rest : Str), Plain l → fgets l.length (l ++ rest) = (l, rest)
  | [], rest, h => by simp [fgets]
  | c :: l, rest, h => by
    have hc := (h c (by simp)).1
    have ih := fgets_full l rest fun d hd => h d (List.mem_cons_of_mem _ hd)
    rw [List.cons_append, List.length_cons, fgets, if_neg hc, ih]

theorem map_plain {l : Str} (h : Plain l) : (l.map fun c => if c = ch '\n' then 0 else c) = l := by
  conv => rhs; rw [← List.map_id l]
  apply List.map_congr_left
  intro c hc
  rw [if_neg (h c hc).1]
  rfl

theorem cstr_plain {l : Str} (h : Plain l) (rest : Str) : cstr (l ++ 0 :: rest) = l := by
  unfold cstr
  rw [List.takeWhile_append_of_pos]
  · simp
  · intro c hc
    simpa using (h c hc).2

theorem gets_line (he : e.mem = Mem.abs) {l rest : Str} {s : St Val Store} (hl : Plain l) (hn : l.length < 79)
    (h : s.io.input = l ++ ch '\n' :: rest) :
    HostFn.gets.run e s = .ok ((), gives s [.str l] { s.io with input := rest }) := by
  have hne : ∃ c cs, s.io.input = c :: cs := by
    rw [h]
    cases l <;> exact ⟨_, _, rfl⟩
  obtain ⟨c, cs, hc⟩ := hne
  have h1 : (fgets 79 (c :: cs)) = (l ++ [ch '\n'], rest) := by rw [← hc, h]; exact fgets_line 79 l rest hl hn
  have h2 : cstr ((l ++ [ch '\n']).map fun c => if c = ch '\n' then 0 else c) = l := by
    rw [List.map_append, map_plain hl]
    exact cstr_plain hl []
  simp only [HostFn.run, hostGets, pushStr, he]
  rw [vm_bind]
  simp only [getIo, hc, h1]
  rw [vm_bind]
  simp only [modIo, hc, h1, h2]
  rfl

/-- C63: `gets` called repeatedly gives the lines of the input one after the other.  Partial: this
needs lines of fewer than 79 characters (`C63_gets_long`), and a line to be there (`C63_gets_end`). -/
theorem C63_gets_partial (he : e.mem = Mem.abs) : ∀ (ls : List Str) (rest : Str) (s : St Val Store),
    (∀ l ∈ ls, Plain l ∧ l.length < 79) → s.io.input = (ls.flatMap fun l => l ++ str "\n") ++ rest →
    times (HostFn.gets.run e) ls.length s = .ok ((), gives s (ls.map Val.str).reverse { s.io with input := rest })
  | [], rest, s, _, h => by
    rw [List.flatMap_nil, List.nil_append] at h
    rw [← h]
    rfl
  | l :: ls, rest, s, hl, h => by
    have h1 : HostFn.gets.run e s =
        .ok ((), gives s [.str l] { s.io with input := (ls.flatMap fun l => l ++ str "\n") ++ rest }) := by
      refine gets_line e he (hl l (by simp)).1 (hl l (by simp)).2 ?_
      rw [h, List.flatMap_cons, List.append_assoc, List.append_assoc]
      rfl
    have h2 := C63_gets_partial he ls rest
      (gives s [.str l] { s.io with input := (ls.flatMap fun l => l ++ str "\n") ++ rest })
      (fun l' hl' => hl l' (List.mem_cons_of_mem _ hl')) rfl
    show (HostFn.gets.run e >>= fun _ => times (HostFn.gets.run e) ls.length) s = _
    rw [vm_bind, h1]
    dsimp only
    rw [h2]
    simp [gives]

/-- C63 fails: a line of exactly 79 characters is followed by an empty line that is not in the
input. -/
theorem C63_gets_long (he : e.mem = Mem.abs) (l rest : Str) (s : St Val Store) (hl : Plain l) (hn : l.length = 79)
    (h : s.io.input = (l ++ str "\n") ++ rest) :
    times (HostFn.gets.run e) 2 s = .ok ((), gives s [.str [], .str l] { s.io with input := rest }) := by
  have h1 : HostFn.gets.run e s = .ok ((), gives s [.str l] { s.io with input := ch '\n' :: rest }) := by
    have hne : ∃ c cs, s.io.input = c :: cs := by
      rw [h]
      cases l
      · cases hn
      · exact ⟨_, _, rfl⟩
    obtain ⟨c, cs, hc⟩ := hne
    have h1 : (fgets 79 (c :: cs)) = (l, ch '\n' :: rest) := by
      rw [← hc, h, List.append_assoc, ← hn]; exact fgets_full l _ hl
    have h2 : cstr (l.map fun c => if c = ch '\n' then 0 else c) = l := by
      rw [map_plain hl]
      exact cstr_eq fun c hc => (hl c hc).2
    simp only [HostFn.run, hostGets, pushStr, he]
    rw [vm_bind]
    simp only [getIo, hc, h1]
    rw [vm_bind]
    simp only [modIo, hc, h1, h2]
    rfl
  have h2 : HostFn.gets.run e (gives s [.str l] { s.io with input := ch '\n' :: rest }) =
      .ok ((), gives s [.str [], .str l] { s.io with input := rest }) :=
    gets_line e he (l := []) (rest := rest) (by simp [Plain]) (by simp) rfl
  show (HostFn.gets.run e >>= fun _ => HostFn.gets.run e >>= fun _ => pure ()) s = _
  rw [vm_bind, h1]
  dsimp only
  rw [vm_bind, h2]
  rfl

/-- C63 fails: at the end of the input `gets` reads a buffer nothing was written to. -/
theorem C63_gets_end (s : St Val Store) (h : s.io.input = []) : HostFn.gets.run e s = .error .ub := by
  simp only [HostFn.run, hostGets]
  rw [vm_bind]
  simp only [getIo, h]
  rfl

/-- C63: what was printed line by line is read back line by line. -/
theorem C63_round_trip (he : e.mem = Mem.abs) (ls : List Str) (hl : ∀ l ∈ ls, Plain l ∧ l.length < 79)
    (s : St Val Store) (st : List Val) (h : s.th.stack = ls.map Val.str ++ st) :
    ∃ s' written, times (do HostFn.puts.run e; let _ ← pop; pure ()) ls.length s = .ok ((), s') ∧
      s'.th.stack = st ∧ s'.io.output = s.io.output ++ written ∧
      ∀ s2 : St Val Store, s2.io.input = written → times (HostFn.gets.run e) ls.length s2 =
        .ok ((), gives s2 (ls.map Val.str).reverse { s2.io with input := [] }) := by
  have key : ∀ (ls : List Str) (s : St Val Store), s.th.stack = ls.map Val.str ++ st →
      ∃ s', times (do HostFn.puts.run e; let _ ← pop; pure ()) ls.length s = .ok ((), s') ∧
        s'.th.stack = st ∧ s'.io.output = s.io.output ++ ls.flatMap fun l => l ++ str "\n" := by
    intro ls
    induction ls with
    | nil => exact fun s h => ⟨s, rfl, h, by simp⟩
    | cons l ls ih =>
      intro s h
      have h1 := C63_puts e he s l (ls.map Val.str ++ st) h
      obtain ⟨s', k1, k2, k3⟩ := ih { s with
        th := { s.th with stack := ls.map Val.str ++ st }
        io := { s.io with output := s.io.output ++ (l ++ str "\n") } } rfl
      refine ⟨s', ?_, k2, ?_⟩
      · have h2 : (do HostFn.puts.run e; let _ ← pop; pure () : VM Val Store Unit) s = .ok ((), { s with
            th := { s.th with stack := ls.map Val.str ++ st }
            io := { s.io with output := s.io.output ++ (l ++ str "\n") } }) := by
          rw [vm_bind, h1]
          rfl
        show ((do HostFn.puts.run e; let _ ← pop; pure () : VM Val Store Unit) >>= fun _ => times _ ls.length) s = _
        rw [vm_bind, h2]
        exact k1
      · rw [k3, List.flatMap_cons, List.append_assoc, List.append_assoc]
  obtain ⟨s', k1, k2, k3⟩ := key ls s h
  refine ⟨s', _, k1, k2, k3, fun s2 h2 => ?_⟩
  exact C63_gets_partial e he ls [] s2 hl (by rw [h2, List.append_nil])

end

/-! ### Examples -/

/-- A machine reading a text. -/
def ioSt (input : Str) (stack : List Val) : St Val Store :=
  { th := { (Thread.fresh : Thread Val) with stack := stack }, mem := [], globals := [], before := [], after := [],
    io := { input := input, output := [], seed := 12345 } }

/-- The reference machine without a program. -/
def ioEnv : Env Val Store := Env.std Program.empty toyFl Mem.abs

/-- `C63_gets_partial`: two lines, and more behind them. -/
example : times (HostFn.gets.run ioEnv) 2 (ioSt (str "ab\n\nrest") []) =
    .ok ((), ioSt (str "rest") [.str [], .str (str "ab")]) :=
  C63_gets_partial ioEnv rfl [str "ab", []] (str "rest") _ (by decide +kernel) (by decide +kernel)

/-- `C63_gets_long`: the hypotheses can be met. -/
example (rest : Str) : times (HostFn.gets.run ioEnv) 2 (ioSt (List.replicate 79 (ch 'a') ++ str "\n" ++ rest) []) =
    .ok ((), gives (ioSt (List.replicate 79 (ch 'a') ++ str "\n" ++ rest) []) [.str [], .str (List.replicate 79 (ch 'a'))]
      { input := rest, output := [], seed := 12345 }) :=
  C63_gets_long ioEnv rfl _ rest _ (by decide +kernel) (by decide +kernel) rfl

/-- `C63_round_trip` for two lines. -/
example : ∃ s' written, times (do HostFn.puts.run ioEnv; let _ ← pop; pure ()) 2
      (ioSt [] [.str (str "ab"), .str (str "c")]) = .ok ((), s') ∧ s'.io.output = written ∧
      times (HostFn.gets.run ioEnv) 2 (ioSt written []) = .ok ((), ioSt [] [.str (str "c"), .str (str "ab")]) := by
  obtain ⟨s', w, h1, _, h2, h3⟩ := C63_round_trip ioEnv rfl [str "ab", str "c"] (by decide +kernel)
    (ioSt [] [.str (str "ab"), .str (str "c")]) [] rfl
  exact ⟨s', w, h1, h2, h3 (ioSt w []) rfl⟩

/-- `C63_getc` and its end. -/
example : times (HostFn.getc.run ioEnv) 2 (ioSt (str "a\nb") []) = .ok ((), ioSt (str "b") [.int 10, .int 97]) ∧
    HostFn.getc.run ioEnv (ioSt [] []) = .ok ((), ioSt [] [.int (-1)]) :=
  ⟨C63_getc ioEnv rfl (str "a\n") (str "b") _ (by decide +kernel), (C63_getc_end ioEnv rfl (ioSt [] []) rfl).1⟩

/-- `C63_putc` writes one byte. -/
example : ∃ s', HostFn.putc.run ioEnv (ioSt [] [.int 321]) = .ok ((), s') ∧ s'.io.output = str "A" :=
  ⟨_, C63_putc ioEnv rfl (ioSt [] [.int 321]) 321 [] rfl, by decide +kernel⟩

/-- `C63_wrong_type`: a number is not printed. -/
example : ∃ s', HostFn.puts.run ioEnv (ioSt [] [.int 1]) = .ok ((), s') ∧ s'.th.error = .bad_argument ∧ s'.io.output = [] := by
  obtain ⟨s', h1, h2, h3⟩ := (C63_wrong_type ioEnv rfl (ioSt [] [.int 1]) (.int 1) (.int 1) [] rfl rfl).2 nofun nofun
  exact ⟨s', h1, h2, by rw [h3]; rfl⟩

/-- `C63_rand`: the first number. -/
example : ∃ s', HostFn.rand.run ioEnv (ioSt [] []) = .ok ((), s') ∧ s'.th.stack = [.int 6648954] ∧ s'.io.seed ≠ 12345 :=
  ⟨_, rfl, by decide +kernel, by decide +kernel⟩

end Ccml.Props
