import Verif.Reset
import Verif.Props.Startup
import Verif.Props.EndToEnd
import Verif.Props.Lines
/-!
C72: a machine that was reset is as good as new.
-/
namespace Ccml.Props
open Ccml

/-! ### Specification -/

/-- A machine nothing has run on. -/
def blank {P M : Type} (fresh : M) (io : Io) : VmState P M := ⟨fresh, [], [], io⟩

/-! ### Proofs -/

section
variable {P M : Type} {L : Layout} {opt : Bool} {p : Prog Unit} {q : Prog Ref} {prog : Program}

/-- The first instruction of the initialisation code. -/
theorem init_code (fl : FloatOps) (h : Compiles L opt p q prog) (hi : ∀ x ∈ p, x.declName ≠ initName) :
    ∃ (F : Function) (pre post : List Byte), prog.findByName initName = some F ∧ F.numArgs = 0 ∧
      F.codeStart.toInt = pre.length ∧
      prog.code = pre ++ Op.GLOBALS.code :: (le32 (i32 (globalCount q)) ++ post) := by
  have hn := h.func hi
  obtain ⟨q0, k1, k2, k3⟩ := h
  obtain ⟨segs, es, G⟩ := codegen_generated hn k3
  obtain ⟨l, a, i, h1, h2, h3, h4⟩ := G.funcs
  have hs : i ∈ segs := by rw [h4]; simp
  have hsp : i.pc < 2147483648 := by
    have := G.small i hs
    unfold Seg.stop at this
    omega
  obtain ⟨fs, h5, h6⟩ := G.table
  have hF : place segs ⟨initName, 0, 0, [], []⟩ ∈ prog.functions := by
    rw [G.functions, h6]
    exact List.mem_map_of_mem (List.mem_append_right _ (List.mem_singleton.2 rfl))
  have hpl := place_eq G.names hs (F := ⟨initName, 0, 0, [], []⟩) (by rw [h3])
  have hnod : (prog.functions.map Function.name).Nodup := by rw [G.fnames]; exact G.names
  obtain ⟨pre, post, hc, hl⟩ := G.chain.codeAt (e := Env.std prog fl Mem.abs) (pre := [])
    (by rw [show (Env.std prog fl Mem.abs).prog.code = prog.code from rfl, G.code]; rfl) rfl i hs
  have ha : i.asm = a := by rw [h3]
  unfold asmInit at h2
  obtain ⟨b, hb, h2⟩ := bind_ok.1 h2
  cases h2
  have hpc : ∃ post', prog.code = pre ++ Op.GLOBALS.code :: (le32 (i32 (globalCount q)) ++ post') := by
    have hc : prog.code = pre ++ (bytesOf _ i.asm ++ post) := hc
    rw [ha, bytesOf_append, bytesOf_append, bytesOf_append] at hc
    rw [hc, globalCount_eq]
    simp only [List.append_assoc, bytesOf, one, AIns.resolve, Ins.bytes]
    exact ⟨_, rfl⟩
  obtain ⟨post', hpc⟩ := hpc
  refine ⟨_, pre, post', find?_unique hF (by rw [hpl]; simp) ?_, ?_, ?_, hpc⟩
  · intro y hy hyn
    exact fname_unique hnod hy hF (by rw [hpl]; simpa using hyn)
  · rw [hpl]; rfl
  · rw [hpl, hl]; exact toInt_i32 hsp

/-- `GLOBALS` forgets what was there. -/
theorem step_globals (e : Env P M) (s : St P M) (g : List P) {pre post : List Byte} {n : I32}
    (hc : e.prog.code = pre ++ Op.GLOBALS.code :: (le32 n ++ post)) (hp : s.th.pc = pre.length) (hn : n ≠ 0) :
    stepImp e { s with globals := g } = stepImp e s := by
  have hl : 4 < e.prog.code.length := by
    rw [hc]; simp [le32]; omega
  have hr : ∀ t : St P M, t.th.pc = pre.length → readOpcode e t =
      .ok (Op.GLOBALS.code, { t with th := { t.th with pc := t.th.pc + 1 } }) := by
    intro t ht
    unfold readOpcode
    rw [if_neg (by simpa using hl), ht, if_neg (by omega)]
    simp [hc]
  have ho : ∀ t : St P M, t.th.pc = pre.length + 1 → readOperand e t =
      .ok (n, { t with th := { t.th with pc := t.th.pc + 4 } }) := by
    intro t ht
    exact C55_operand e t (pre ++ [Op.GLOBALS.code]) post n (by rw [hc]; simp) (by rw [ht]; simp) hl
  unfold stepImp
  rw [vm_bind_ok (hr s hp), vm_bind_ok (hr { s with globals := g } hp), ofByte_code]
  simp only [exec, doGLOBALS]
  simp only [vm_bind]
  rw [ho _ (by simp [hp]), ho _ (by simp [hp])]
  simp only [if_neg hn]
  by_cases h0 : n.toInt < 0
  · simp only [if_pos h0, fault]
  · simp only [if_neg h0]

/-- The initialisation code does not see the globals there were. -/
theorem init_blind (fresh : M) (fl : FloatOps) (h : Compiles L opt p q prog)
    (hi : ∀ x ∈ p, x.declName ≠ initName) (e : Env P M) (he : e.mem.shouldCollect fresh = false)
    (hcode : e.prog.code = prog.code) (hfun : e.prog.functions = prog.functions) (g : List P) (io : Io)
    (hg : g = [] ∨ i32 (globalCount q) ≠ 0) :
    VmState.callInit e (⟨fresh, g, [], io⟩ : VmState P M) = VmState.callInit e (⟨fresh, [], [], io⟩ : VmState P M) := by
  rcases hg with rfl | hg
  · rfl
  obtain ⟨F, pre, post, hF, ha, hs, hc⟩ := init_code fl h hi
  have hF' : e.prog.findByName (str "@init") = some F := by
    have : e.prog.findByName (str "@init") = prog.findByName initName := by
      unfold Program.findByName
      rw [hfun]
      rfl
    rw [this, hF]
  unfold VmState.callInit
  rw [hF']
  simp only [VmState.newThread, prepare, copyArgs, ha]
  rw [if_neg (by simp)]
  simp only [VmState.resume, List.length_cons, List.length_nil, passLoop]
  have key : ∀ t : Thread P, t.pc = pre.length → t.finished = false →
      resume e 8192 ⟨t, fresh, g, [], [], io⟩ = resume e 8192 ⟨t, fresh, [], [], [], io⟩ := by
    intro t ht hf
    have hloop : ∀ (t : Thread P), t.pc = pre.length →
        resumeLoop e 8192 ⟨t, fresh, g, [], [], io⟩ = resumeLoop e 8192 ⟨t, fresh, [], [], [], io⟩ := by
      intro t ht
      rw [show (8192 : Nat) = 8191 + 1 from rfl, resumeLoop]
      have hk : ∀ g', tickGc e (⟨t, fresh, g', [], [], io⟩ : St P M) = .ok ((), ⟨t, fresh, g', [], [], io⟩) := by
        intro g'
        simp only [tickGc, he]
        rfl
      rw [vm_bind_ok (hk g), vm_bind_ok (hk []), vm_bind, vm_bind,
        ← step_globals e ⟨t, fresh, [], [], [], io⟩ g (hcode ▸ hc) ht hg]
    have hq : ∀ g', resume e 8192 (⟨t, fresh, g', [], [], io⟩ : St P M) =
        match resumeLoop e 8192 ⟨{ t with halted := false }, fresh, g', [], [], io⟩ with
        | .ok (_, s1) => .ok (!s1.th.hasError, s1)
        | .error f => .error f := by
      intro g'
      unfold resume
      rw [vm_bind_ok (show getTh (⟨t, fresh, g', [], [], io⟩ : St P M) = .ok (t, ⟨t, fresh, g', [], [], io⟩) from rfl),
        if_neg (by rw [hf]; decide)]
      rw [vm_bind_ok (show modTh _ (⟨t, fresh, g', [], [], io⟩ : St P M) =
        .ok ((), ⟨{ t with halted := false }, fresh, g', [], [], io⟩) from rfl)]
      unfold runQuantum
      rw [if_pos (by decide), vm_bind, vm_bind]
      have : (8192 : I32).toNat = 8192 := rfl
      rw [this]
      cases resumeLoop e 8192 (⟨{ t with halted := false }, fresh, g', [], [], io⟩ : St P M) with
      | error f => rfl
      | ok r => obtain ⟨b, s1⟩ := r; rfl
    rw [hq, hq, hloop { t with halted := false } ht]
  rw [key _ (by simpa using hs) rfl]
  simp only [show (Thread.fresh : Thread P).waits = 0 from rfl, ne_eq, not_true_eq_false, if_false,
    show (Thread.fresh : Thread P).finished = false from rfl, show (Thread.fresh : Thread P).error = .success from rfl,
    Thread.hasError, bne_self_eq_false, Bool.false_eq_true, or_self]

/-- C72: nothing is left of what ran before once the initialisation code of the program starts again:
every sequence of calls that begins with `call_init` does and gives back the same as with a new machine.
`should` tells when the memory asks for a collection: an empty one does not. -/
theorem C72_restart_partial (hc : Compiles L opt p q prog) (hi : ∀ x ∈ p, x.declName ≠ initName) (fl : FloatOps)
    (depth : Nat) (should : Heap → Bool) (hs : should Heap.empty = false) (v : VmState (Option Ptr) Heap)
    (hg : 0 < globalCount q ∧ globalCount q < 4294967296 ∨ v.globals = []) (ops : List HostOp) :
    session (Env.std (driverResolve prog) fl (Mem.gc depth should)) (v.reset Heap.empty) (.init :: ops) =
      session (Env.std (driverResolve prog) fl (Mem.gc depth should)) (blank Heap.empty v.io) (.init :: ops) := by
  have h := init_blind Heap.empty fl hc hi (Env.std (driverResolve prog) fl (Mem.gc depth should)) hs rfl rfl
    v.globals v.io (by
      rcases hg with ⟨h1, h2⟩ | h
      · right
        intro h0
        have := congrArg BitVec.toNat h0
        rw [show BitVec.toNat (0 : I32) = 0 from rfl] at this
        simp only [i32, BitVec.toNat_ofNat, Nat.mod_eq_of_lt h2] at this
        omega
      · exact .inl h)
  simp only [session, hostStep, VmState.reset, blank, h]

/-- C72: without global variables no sequence of calls can tell the difference. -/
theorem C72_no_globals (e : Env (Option Ptr) Heap) (v : VmState (Option Ptr) Heap) (hg : v.globals = [])
    (ops : List HostOp) : session e (v.reset Heap.empty) ops = session e (blank Heap.empty v.io) ops := by
  unfold VmState.reset blank
  rw [hg]

end

/-! ### Programs -/

/-- A program with a global array, and a function that does not use it. -/
def resetText : Str := str "var g = [1, 2]\nfunction f()\n  return 7\nend\n"

def resetEnv : Env (Option Ptr) Heap := Env.std (driverResolve (memProg resetText)) toyFl (Mem.gc 10)

def resetFn : Function := ((memProg resetText).findByName (str "f")).getD ⟨[], 0, 0, [], []⟩

/-- A session that fails at its first call. -/
def failsB {P M : Type} (x : List HostOut × Out (VmState P M)) : Bool :=
  match x with
  | ([], .error .ub) => true
  | _ => false

/-- A session of one call that returns an integer. -/
def givesB {P M : Type} (n : I32) (x : List HostOut × Out (VmState P M)) : Bool :=
  match x with
  | ([.returned (.value r)], .ok _) => (match r [] with | .ok (.int k) => k == n | _ => false)
  | _ => false

theorem fails_iff {P M : Type} {x : List HostOut × Out (VmState P M)} (h : failsB x = true) : x = ([], .error .ub) := by
  unfold failsB at h
  split at h
  · rfl
  · cases h

theorem gives_iff {P M : Type} {n : I32} {x : List HostOut × Out (VmState P M)} (h : givesB n x = true) :
    ∃ r v, x = ([.returned (.value r)], .ok v) ∧ r [] = .ok (.int n) := by
  unfold givesB at h
  split at h
  · rename_i r v
    split at h
    · rename_i k hk
      exact ⟨r, v, rfl, by rw [hk, eq_of_beq h]⟩
    · cases h
  · cases h

/-- C72: the intended statement, for calls that do not begin with `call_init`, does not hold.  The first
thing `call_once` does is to collect garbage; the globals that are still there point into the emptied
memory.  On a new machine the same call gives back 7. -/
theorem C72_stale_globals : ∃ v : VmState (Option Ptr) Heap,
    session resetEnv (blank Heap.empty Io.fresh) [.init] = ([.flag true], .ok v) ∧
    session resetEnv (v.reset Heap.empty) [.call resetFn [] 10] = ([], .error .ub) ∧
    ∃ r v', session resetEnv (blank Heap.empty v.io) [.call resetFn [] 10] = ([.returned (.value r)], .ok v') ∧
      r [] = .ok (.int 7) := by
  have h : (match session resetEnv (blank Heap.empty Io.fresh) [.init] with
      | ([.flag true], .ok v) => failsB (session resetEnv (v.reset Heap.empty) [.call resetFn [] 10]) &&
          givesB 7 (session resetEnv (blank Heap.empty v.io) [.call resetFn [] 10])
      | _ => false) = true := by decide +kernel
  split at h
  · rename_i v hv
    obtain ⟨h1, h2⟩ := Bool.and_eq_true_iff.1 h
    exact ⟨v, hv, fails_iff h1, gives_iff h2⟩
  · cases h

/-- `C72_restart_partial` for this program and any machine it has run on. -/
example (v : VmState (Option Ptr) Heap) (ops : List HostOp) :
    session resetEnv (v.reset Heap.empty) (.init :: ops) = session resetEnv (blank Heap.empty v.io) (.init :: ops) := by
  obtain ⟨q, hq⟩ := mem_compiles (text := resetText) (by decide +kernel)
  have hk : ∀ q, Compiles sampleLayout true (memRead resetText).1 q (memProg resetText) → globalCount q = 1 := by
    rintro q ⟨q0, h1, h2, -⟩
    have : (match runSema sampleLayout (memRead resetText).1 with
      | .ok q0 => (match runOptimize true q0 with | .ok q => globalCount q | .error _ => 1)
      | .error _ => 1) = 1 := by decide +kernel
    rw [h1] at this
    dsimp only at this
    rw [h2] at this
    exact this
  exact C72_restart_partial hq (by decide +kernel) toyFl 10 gcShould (by decide +kernel) v
    (.inl ⟨by rw [hk q hq]; decide, by rw [hk q hq]; decide⟩) ops

example : givesB 7 ((session resetEnv (blank Heap.empty Io.fresh) [.init, .call resetFn [] 10]).map List.tail id) = true := by
  decide +kernel

end Ccml.Props
