import Verif.RunCall
import Verif.HostSpec
import Verif.SemaFacts
import Verif.Build
/-!
A compiled program in a machine: the definitions the statements about the whole compiler use, and the
lemmas that connect them with the simulation.
-/
set_option linter.unusedSimpArgs false
namespace Ccml
open Sem (State Res)

/-- The passes of the compiler behind the parser succeed: `q` is the tree the code is made from. -/
def Compiles (L : Layout) (opt : Bool) (p : Prog Unit) (q : Prog Ref) (prog : Program) : Prop :=
  ∃ q0, runSema L p = .ok q0 ∧ runOptimize opt q0 = .ok q ∧ codegen q = .ok prog

/-- The variables of function `i` that share their stack slot with no other variable. -/
def ownSlots (q : Prog Ref) (i : Nat) (r : Ref) : Bool :=
  match q[i]? with
  | some (.func f) =>
    let ls := funcLocals f.body
    (match r with | .loc _ => true | _ => false) && (ls.map LocalVar.ref).contains r &&
      (ls.map LocalVar.ref).all fun x => x == r || localOffset ls x != localOffset ls r
  | _ => false

/-- A machine that runs program `prog` made from the tree `cx.prog`, with host functions that do what
`cx.host` says. -/
structure Running (e : Env Val Store) (cx : Sem.Ctx) (prog : Program) : Prop where
  /-- only the addresses of the host functions were filled in -/
  program : e.prog = { prog with syscalls := cx.table }
  names : cx.table.map Syscall.name = prog.syscalls.map Syscall.name
  /-- the reference memory -/
  mem : e.mem = Mem.abs
  fl : e.fl = cx.fl
  handlers : e.handlers = {}
  host : HostOk e cx.host
  /-- a function value is the address of the function -/
  addr : ∀ (i : Nat) f F, cx.prog[i]? = some (.func f) → prog.findByName f.name.str = some F →
    cx.funAddr i = F.codeStart
  /-- limits of the 32-bit counters -/
  tableSmall : cx.table.length < 2147483648
  slots : cx.slot cx.prog.length < 2147483648
  locals : ∀ (i : Nat) f, cx.prog[i]? = some (.func f) →
    f.args.length + stackSize (funcLocals f.body) < 2147483648

theorem ownSlots_own {q : Prog Ref} {i : Nat} {f : FuncDecl Ref} (h : q[i]? = some (.func f)) :
    OwnSlot f (ownSlots q i) := by
  intro r hr
  unfold ownSlots at hr
  rw [h] at hr
  dsimp only at hr
  rw [Bool.and_eq_true, Bool.and_eq_true] at hr
  obtain ⟨⟨h1, h2⟩, h3⟩ := hr
  refine ⟨?_, by simpa using h2, ?_⟩
  · cases r with
    | loc k => exact ⟨k, rfl⟩
    | _ => simp at h1
  · intro x hx hne
    have := List.all_eq_true.1 h3 x hx
    simp only [Bool.or_eq_true, beq_iff_eq, bne_iff_ne] at this
    rcases this with h | h
    · exact absurd h hne
    · exact h

/-- The names of a compiled program. -/
theorem Compiles.names {L : Layout} {opt : Bool} {p : Prog Unit} {q : Prog Ref} {prog : Program}
    (h : Compiles L opt p q prog) :
    q.map Item.declName = p.map Item.declName ∧ (q.map Item.declName).Nodup ∧ LocalsOk q := by
  obtain ⟨q0, h1, h2, h3⟩ := h
  obtain ⟨a, b, c⟩ := runSema_spec h1
  have hl := runOptimize_less h2
  exact ⟨hl.names.trans a, hl.names ▸ b, hl.localsOk c⟩

theorem funcNames_mem {D : Type} {q : Prog D} {n : Str} : n ∈ funcNames q ↔
    ∃ f, Item.func f ∈ q ∧ f.name.str = n := by
  induction q with
  | nil => simp [funcNames]
  | cons x q ih =>
    cases x with
    | func f =>
      simp only [funcNames, List.mem_cons, ih]
      constructor
      · rintro (h | ⟨g, hg, h⟩)
        · exact ⟨f, .inl rfl, h.symm⟩
        · exact ⟨g, .inr hg, h⟩
      · rintro ⟨g, hg | hg, h⟩
        · cases hg; exact .inl h.symm
        · exact .inr ⟨g, hg, h⟩
    | _ =>
      simp only [funcNames, List.mem_cons, ih]
      constructor
      · rintro ⟨g, hg, h⟩
        exact ⟨g, .inr hg, h⟩
      · rintro ⟨g, hg | hg, h⟩
        · cases hg
        · exact ⟨g, hg, h⟩

theorem Compiles.func {L : Layout} {opt : Bool} {p : Prog Unit} {q : Prog Ref} {prog : Program}
    (h : Compiles L opt p q prog) (hi : ∀ x ∈ p, x.declName ≠ initName) :
    (funcNames q ++ [initName]).Nodup := by
  obtain ⟨h1, h2, h3⟩ := h.names
  refine List.nodup_append.2 ⟨h2.sublist (funcNames_sub q), by simp, ?_⟩
  intro a ha b hb hab
  rw [List.mem_singleton] at hb
  have : initName ∈ p.map Item.declName := by
    rw [← h1]
    exact (funcNames_sub q).subset (hb ▸ hab ▸ ha)
  obtain ⟨x, hx, hn⟩ := List.mem_map.1 this
  exact hi x hx hn

section
variable {L : Layout} {opt : Bool} {p : Prog Unit} {q : Prog Ref} {prog : Program}
  {e : Env Val Store} {cx : Sem.Ctx}

/-- The entry of a function in the table. -/
theorem Compiles.entry (h : Compiles L opt p q prog) (hi : ∀ x ∈ p, x.declName ≠ initName)
    {i : Nat} {f : FuncDecl Ref} (hf : q[i]? = some (.func f)) :
    ∃ F, prog.findByName f.name.str = some F ∧ F ∈ prog.functions ∧ F.name = f.name.str ∧
      F.numArgs = f.args.length ∧ 0 ≤ F.codeStart.toInt := by
  have hn := h.func hi
  obtain ⟨q0, h1, h2, h3⟩ := h
  obtain ⟨segs, es, G⟩ := codegen_generated hn h3
  obtain ⟨l, hl, hes⟩ := G.table
  obtain ⟨E, hE, he, ha⟩ := entriesOf_mem hl (List.mem_of_getElem? hf)
  have hmem : place segs E ∈ prog.functions := by
    rw [G.functions]
    exact List.mem_map_of_mem (by rw [hes]; exact List.mem_append_left _ hE)
  have hname : (place segs E).name = E.name := by unfold place; split <;> rfl
  have hargs : (place segs E).args = E.args := by unfold place; split <;> rfl
  have hnod : (prog.functions.map Function.name).Nodup := by rw [G.fnames]; exact G.names
  refine ⟨place segs E, ?_, hmem, hname.trans he, by rw [Function.numArgs, hargs, ha], ?_⟩
  · refine find?_unique hmem (by rw [hname, he]; simp) ?_
    intro y hy hyn
    refine fname_unique hnod hy hmem ?_
    rw [hname, he]
    simpa using hyn
  · obtain ⟨s, hs, _, hstart, _⟩ := G.entry hmem
    have h4 := G.small s hs
    unfold Seg.stop at h4
    rw [hstart, toInt_i32 (by omega)]
    omega

theorem Running.setting (h : Compiles L opt p q prog) (hi : ∀ x ∈ p, x.declName ≠ initName)
    (hq : cx.prog = q) (R : Running e cx prog) : Setting e cx prog (ownSlots q) := by
  refine ⟨R.program, R.names, R.mem, R.fl, R.handlers, R.host, ?_, R.tableSmall, R.slots, R.locals,
    ?_, ?_⟩
  · intro i f hf
    obtain ⟨F, h1, h2, h3, _⟩ := h.entry hi (hq ▸ hf)
    exact ⟨F, h2, h3, (R.addr i f F hf h1).symm⟩
  · intro i f hf
    rw [funcLocals_refs]
    exact h.names.2.2 f (List.mem_of_getElem? (hq ▸ hf))
  · intro i f hf
    exact ownSlots_own (hq ▸ hf)

/-- The limits of the 32-bit counters for a tree and its program. -/
structure Fits (q : Prog Ref) (prog : Program) : Prop where
  table : prog.syscalls.length < 2147483648
  slots : q.countP Item.isSlot < 2147483648
  locals : ∀ (i : Nat) f, q[i]? = some (.func f) →
    f.args.length + stackSize (funcLocals f.body) < 2147483648

/-- The evaluator for a compiled program with the built-in functions and those of a driver: function values are the
addresses in the function table, host functions the entries that were filled in (driver/driver.cpp:176-183,
driver_sdl/driver.cpp:357-367). -/
def stdCtx (q : Prog Ref) (prog : Program) (fl : FloatOps) (names : List (Str × HostFn) := driverMap) : Sem.Ctx where
  prog := q
  fl := fl
  funAddr i :=
    match q[i]? with
    | some (.func f) =>
      match prog.findByName f.name.str with
      | some F => F.codeStart
      | none => 0
    | _ => 0
  table := (resolveWith names prog).syscalls
  host := Sem.builtins fl (resolveWith names prog)

/-- The machine with the built-in functions runs compiled programs. -/
theorem std_running {q : Prog Ref} {prog : Program} {names : List (Str × HostFn)} (fl : FloatOps) (h : Fits q prog) :
    Running (Env.std (resolveWith names prog) fl Mem.abs) (stdCtx q prog fl names) prog := by
  refine ⟨rfl, ?_, rfl, rfl, rfl, builtins_ok _ fl, ?_, ?_, ?_, h.locals⟩
  · simp only [stdCtx, resolveWith, builtinsResolve, List.map_map]
    apply List.map_congr_left
    intro s _
    simp only [Function.comp]
    split <;> split <;> rfl
  · intro i f F hf hF
    simp only [stdCtx] at hf ⊢
    simp only [hf, hF]
  · simp only [stdCtx, resolveWith, builtinsResolve, List.length_map]
    exact h.table
  · have := h.slots
    rw [List.countP_eq_length_filter] at this
    simp only [Sem.Ctx.slot, stdCtx, List.take_length]
    refine Nat.lt_of_le_of_lt (Nat.le_of_eq (congrArg List.length (List.filter_congr ?_))) this
    intro x _
    cases x with
    | var t c i => cases c <;> rfl
    | _ => rfl

/-- What the evaluator starts with when the host calls a function. -/
def callState (v : VmState Val Store) : State := ⟨v.mem, v.globals, [], v.threads, 0, v.io⟩

/-- The machine after a call: thread `t` has run it. -/
def leftBy (w : State) (t : Thread Val) : VmState Val Store := ⟨w.mem, w.globals, w.before ++ t :: w.after, w.io⟩

/-- The state in which a call starts to run. -/
def startSt (v : VmState Val Store) (start : Int) (args : List Val) : St Val Store :=
  { th := Sem.startThread start args, mem := v.mem, globals := v.globals, before := [], after := v.threads,
    io := v.io }

theorem callOnce_eq (hm : e.mem = Mem.abs) {v : VmState Val Store} {F : Function} {args : List Val}
    (hn : F.numArgs = args.length) (ho : Sem.handOver v.mem args = none) (fuel : Nat) :
    v.callOnce e fuel F args = match callLoop e fuel (startSt v F.codeStart.toInt args) with
      | .error x => .error x
      | .ok (_, s) =>
        if s.th.hasError then .ok (.error s.th.error, leftBy (stOf s) s.th)
        else match s.th.returnValue e with
          | .error x => .error x
          | .ok p => .ok (.value p, leftBy (stOf s) s.th) := by
  have hp := prepare_abs hm v.mem F args hn
  rw [ho] at hp
  unfold VmState.callOnce VmState.newThread
  rw [hp]
  dsimp only
  rw [vm_bind_ok (collect_id hm _)]
  unfold startSt
  generalize callLoop e fuel _ = r
  rcases r with f | ⟨_, s⟩
  · rfl
  · dsimp only
    split
    · rfl
    · cases s.th.returnValue e <;> rfl

theorem startSt_at {v : VmState Val Store} {pc : Nat} {start : Int} (h : start = pc) (args : List Val) :
    At (startSt v start args) pc args.reverse [⟨args.length, start, start, true⟩] (callState v) :=
  ⟨h, rfl, rfl, rfl, rfl, rfl⟩

/-- The whole run of a call follows the evaluation. -/
theorem call_follows (h : Compiles L opt p q prog) (hi : ∀ x ∈ p, x.declName ≠ initName)
    (hq : cx.prog = q) (R : Running e cx prog) {i : Nat} {f : FuncDecl Ref} {F : Function}
    (hf : q[i]? = some (.func f)) (hF : prog.findByName f.name.str = some F) (v : VmState Val Store)
    (args : List Val) (ha : args.length = f.args.length) (n : Nat) :
    Follows e n (startSt v F.codeStart.toInt args)
      (Returned ⟨args.length, F.codeStart.toInt, F.codeStart.toInt, true⟩ [] [])
      (Sem.callFn cx (ownSlots q) n i args (callState v)) := by
  obtain ⟨F', h1, h2, h3, h4, h5⟩ := h.entry hi hf
  rw [hF] at h1
  cases h1
  have S := R.setting h hi hq
  have hn := h.func hi
  obtain ⟨q0, k1, k2, k3⟩ := h
  obtain ⟨segs, es, G⟩ := codegen_generated hn k3
  have L := G.loaded hq (List.Nodup.sublist (List.sublist_append_left _ _) hn) S
  have hstart : cx.funAddr i = F.codeStart := R.addr i f F (hq.symm ▸ hf) hF
  refine follow_call L n i f args [] _ _ [] _ (hq.symm ▸ hf) ha ?_ rfl
  rw [hstart, List.append_nil]
  exact startSt_at (by omega) args

end
end Ccml
