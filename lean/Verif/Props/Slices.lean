import Verif.LoopGoes
import Verif.Without
import Verif.Props.Refine
import Verif.Props.EndToEnd
/-!
C71: running a function in slices does what running it at once does.
-/
namespace Ccml.Props
open Ccml

/-! ### Specification -/

/-- The calls `resume(n)` for each of `ns`: the function is run in slices. -/
def slices (ns : List I32) : List HostOp := ns.map .resume

/-- The number of instructions the slices allow. -/
def allowed (ns : List I32) : Int := (ns.map BitVec.toInt).sum

/-- A thread without the number of passes it has still to wait. -/
def unwaited {P : Type} (t : Thread P) : Thread P := { t with waits := 0 }

/-- What `call_once` gives back for a thread that has ended. -/
def outcome (t : Thread Seen) : Option (CallResult Seen) :=
  if t.error = .success then t.stack.head?.map .value else some (.error t.error)

/-- The first thread of a machine, the globals and what host functions read and wrote. -/
def front {P M : Type} (mem : MemOps P M) (v : VmState P M) : Option (Thread Seen × List Seen × Io) :=
  v.threads.head?.map fun t => (unwaited (t.seen (Ccml.peek mem v.mem)), v.globals.map (Ccml.peek mem v.mem), v.io)

/-! ### Proofs -/

section
variable {prog : Program} {fl : FloatOps}

theorem Goes.awake (hsp : NoSpawn prog) (hw : NoWait prog) {n : Nat} {s s' : St Val Store} (h : Goes prog fl n s s') :
    s.th.breakpoints = [] → s'.th.breakpoints = [] ∧ s'.th.waits = s.th.waits := by
  induction h with
  | done => exact fun hb => ⟨hb, rfl⟩
  | step hf hs _ ih =>
    intro hb
    obtain ⟨h1, -, h3⟩ := step_awake prog fl hsp hw hs hb
    obtain ⟨h4, h5⟩ := ih h1
    exact ⟨h4, h5.trans h3⟩

/-- A quantum of a thread that does not wait: so many instructions, or up to the end. -/
theorem loop_counts (hsp : NoSpawn prog) (hw : NoWait prog) : ∀ (n j : Nat) (s s' : St Val Store), Goes prog fl j s s' →
    s'.th.finished = true → s.th.halted = false → s.th.breakpoints = [] → 0 < j →
    (n < j → ∃ s1, resumeLoop (Env.std prog fl Mem.abs) n s = .ok (false, s1) ∧ Goes prog fl n s s1 ∧
      Goes prog fl (j - n) s1 s' ∧ s1.th.halted = false) ∧
    (j ≤ n → resumeLoop (Env.std prog fl Mem.abs) n s = .ok (true, s')) := by
  intro n
  induction n with
  | zero => intro j s s' h hq hh hb hj; exact ⟨fun _ => ⟨s, rfl, .done _, h, hh⟩, fun _ => by omega⟩
  | succ n ih =>
    intro j s s' h hq hh hb hj
    cases h with
    | done => omega
    | step hf hs k =>
      rename_i j s1
      obtain ⟨hb1, hh1, -⟩ := step_awake prog fl hsp hw hs hb
      have hh1 : s1.th.halted = false := hh1
      have hs' := hs
      rw [started_awake hh] at hs'
      rw [resumeLoop_abs, hs']
      dsimp only
      cases j with
      | zero =>
        cases k
        rw [if_pos hq]
        exact ⟨fun _ => by omega, fun _ => rfl⟩
      | succ j =>
        have hf1 : s1.th.finished = false := by cases k; assumption
        rw [if_neg (by simp [hf1]), if_neg (by simp [hh1])]
        obtain ⟨i1, i2⟩ := ih (j + 1) s1 s' k hq hh1 hb1 (by omega)
        refine ⟨fun hn => ?_, fun hn => i2 (by omega)⟩
        obtain ⟨s2, a1, a2, a3, a4⟩ := i1 (by omega)
        refine ⟨s2, a1, .step hf hs a2, ?_, a4⟩
        rwa [show j + 1 + 1 - (n + 1) = j + 1 - n by omega]

theorem toInt_nat {n : I32} (h : 0 ≤ n.toInt) : (n.toNat : Int) = n.toInt := by
  have h1 := BitVec.toInt_eq_toNat_cond n
  have := n.isLt
  split at h1 <;> omega

theorem session_flag {e : Env Val Store} {n : I32} {ns : List I32} {v v1 : VmState Val Store} {b : Bool}
    (h : v.resume e n = .ok (b, v1)) : session e v (slices (n :: ns)) =
      (.flag b :: (session e v1 (slices ns)).1, (session e v1 (slices ns)).2) := by
  simp only [slices, List.map_cons, session]
  have hst : hostStep e v (.resume n) = (v.resume e n >>= fun p => pure (.flag p.1, p.2)) := rfl
  rw [hst, h]
  rfl

/-- A pass over an unfinished thread and dead ones. -/
theorem pass_runs (hsp : NoSpawn prog) {v : VmState Val Store} {n : I32} {b : Bool} {t : Thread Val}
    {ds : List (Thread Val)} {s : St Val Store} (hv : v.threads = t :: ds) (hd : ∀ t ∈ ds, Dead t)
    (hw : t.waits = 0) (hf : t.finished = false) (he : ErrorStops (headSt v t ds))
    (h : resume (Env.std prog fl Mem.abs) n (headSt v t ds) = .ok (b, s)) :
    v.resume (Env.std prog fl Mem.abs) n =
      .ok (b, ⟨s.mem, s.globals, s.th :: (if b then [] else ds), s.io⟩) := by
  unfold VmState.resume
  rw [hv, List.length_cons]
  unfold passLoop
  have hx : t.hasError = false := hasError_false (s := headSt v t ds) he hf
  rw [if_neg (by simpa using hw), if_neg (by rw [hf, hx]; simp)]
  rw [show (⟨t, v.mem, v.globals, [], ds, v.io⟩ : St Val Store) = headSt v t ds from rfl, h]
  dsimp only
  obtain ⟨⟨j, hj⟩, hb⟩ := resume_goes n _ _ _ hf h
  obtain ⟨h1, h2⟩ := hj.others hsp
  have h1 : s.before = [] := h1
  have h2 : s.after = ds := h2
  cases b with
  | true => rw [if_pos rfl, h1, h2, pass_dead _ _ _ _ _ _ _ _ (Nat.le_refl _) hd]; rfl
  | false => rw [if_neg (by decide), if_pos (by simpa using hb), h1, h2]; rfl

/-- The last slice of a thread that does not wait. -/
theorem slices_last (hsp : NoSpawn prog) (hw : NoWait prog) (n : I32) (hn : 0 ≤ n.toInt) (j : Nat)
    (v : VmState Val Store) (t : Thread Val) (ds : List (Thread Val)) (s' : St Val Store)
    (hv : v.threads = t :: ds) (hd : ∀ t ∈ ds, Dead t) (hw0 : t.waits = 0) (hb : t.breakpoints = [])
    (he : ErrorStops (headSt v t ds)) (hg : Goes prog fl j (headSt v t ds) s') (hq : s'.th.finished = true)
    (hlo : 0 < j) (hhi : (j : Int) ≤ n.toInt) :
    ∃ rest, session (Env.std prog fl Mem.abs) v (slices [n]) =
      ([.flag (!s'.th.hasError)], .ok ⟨s'.mem, s'.globals, s'.th :: rest, s'.io⟩) := by
  have hf : t.finished = false := by
    cases hg with
    | done => omega
    | step hf => exact hf
  have hgo : Goes prog fl j (started (headSt v t ds)) s' := by
    cases hg with
    | done => omega
    | step a b c => exact .step a b c
  have hnn := toInt_nat hn
  have hl := (loop_counts hsp hw n.toNat j _ s' hgo hq rfl hb (by omega)).2 (by omega)
  have hr : resume (Env.std prog fl Mem.abs) n (headSt v t ds) = .ok (!s'.th.hasError, s') := by
    rw [resume_std _ _ hn hf, hl]
  have := pass_runs hsp hv hd hw0 hf he hr
  refine ⟨if (!s'.th.hasError) = true then [] else ds, ?_⟩
  rw [session_flag this]
  rfl

theorem allowed_cons (n : I32) (ns : List I32) : allowed (n :: ns) = n.toInt + allowed ns := by simp [allowed]

theorem allowed_nonneg : ∀ l : List I32, (∀ m ∈ l, 0 ≤ m.toInt) → 0 ≤ allowed l
  | [], _ => by simp [allowed]
  | a :: l, h => by
    have h1 := h a List.mem_cons_self
    have h2 := allowed_nonneg l fun m hm => h m (List.mem_cons_of_mem _ hm)
    have := allowed_cons a l
    omega

theorem allowed_append (ns : List I32) (n : I32) : allowed (ns ++ [n]) = allowed ns + n.toInt := by
  simp [allowed]

/-- The slices before the last one of a thread that does not wait. -/
theorem slices_before (hsp : NoSpawn prog) (hw : NoWait prog) : ∀ (ns : List I32) (j : Nat)
    (v : VmState Val Store) (t : Thread Val) (ds : List (Thread Val)) (s' : St Val Store),
    v.threads = t :: ds → (∀ t ∈ ds, Dead t) → t.waits = 0 → t.breakpoints = [] → ErrorStops (headSt v t ds) →
    Goes prog fl j (headSt v t ds) s' → s'.th.finished = true → (∀ m ∈ ns, 0 ≤ m.toInt) →
    allowed ns < j →
    ∃ v1 t1 ds1 i b c w, session (Env.std prog fl Mem.abs) v (slices ns) = (ns.map fun _ => .flag true, .ok v1) ∧
      v1.threads = t1 :: ds1 ∧ (∀ t ∈ ds1, Dead t) ∧ t1.waits = 0 ∧ t1.breakpoints = [] ∧
      ErrorStops (headSt v1 t1 ds1) ∧ Goes prog fl i (headSt v1 t1 ds1) (s'.mask b c w) ∧
      (i : Int) + allowed ns = j ∧ t1.finished = false ∧ t1.cycles = t.cycles + BitVec.ofInt 32 (allowed ns) := by
  intro ns
  induction ns with
  | nil =>
    intro j v t ds s' hv hd hw0 hb he hg hq _ hlo
    have hlo : (0 : Int) < j := hlo
    refine ⟨v, t, ds, j, s'.before, s'.after, s'.th.waits, rfl, hv, hd, hw0, hb, he, ?_, by simp [allowed], ?_,
      by simp [allowed]⟩
    · rw [St.mask_self]; exact hg
    · cases hg with
      | done => omega
      | step hf => exact hf
  | cons m ns ih =>
    intro j v t ds s' hv hd hw0 hb he hg hq hm hlo
    have hm0 := hm m List.mem_cons_self
    have hal := allowed_cons m ns
    have hpos := allowed_nonneg ns fun m h => hm m (List.mem_cons_of_mem _ h)
    rw [hal] at hlo
    have hmn := toInt_nat hm0
    have hf : t.finished = false := by
      cases hg with
      | done => omega
      | step hf => exact hf
    have hgo : Goes prog fl j (started (headSt v t ds)) s' := by
      cases hg with
      | done => omega
      | step a b c => exact .step a b c
    obtain ⟨s1, a1, a2, a3, a4⟩ := (loop_counts hsp hw m.toNat j _ s' hgo hq rfl hb (by omega)).1 (by omega)
    have hf1 : s1.th.finished = false := by
      cases hx : j - m.toNat with
      | zero => omega
      | succ i => rw [hx] at a3; cases a3; assumption
    have he1 : ErrorStops s1 := a2.errorStops he
    have hx1 := hasError_false he1 hf1
    obtain ⟨hb1, hw1⟩ := a2.awake hsp hw hb
    have hr : resume (Env.std prog fl Mem.abs) m (headSt v t ds) = .ok (true, s1) := by
      rw [resume_std _ _ hm0 hf, a1]
      dsimp only
      rw [hx1]
      rfl
    have hp := pass_runs hsp hv hd hw0 hf he hr
    have hmask : headSt ⟨s1.mem, s1.globals, s1.th :: [], s1.io⟩ s1.th [] = s1.mask [] [] s1.th.waits := rfl
    obtain ⟨b2, c2, w2, hg2⟩ := a3.mask [] [] s1.th.waits
    rw [← hmask] at hg2
    obtain ⟨v1, t1, ds1, i, b, c, w, r1, r2, r3, r4, r5, r6, r7, r8, r9, r10⟩ :=
      ih (j - m.toNat) ⟨s1.mem, s1.globals, s1.th :: [], s1.io⟩ s1.th [] _ rfl (by simp)
        (hw1.trans hw0) hb1 he1 hg2 hq (fun m h => hm m (List.mem_cons_of_mem _ h)) (by omega)
    rw [St.mask_mask] at r7
    refine ⟨v1, t1, ds1, i, b, c, w, ?_, r2, r3, r4, r5, r6, r7, by omega, r9, ?_⟩
    · rw [session_flag hp]
      simp only [if_true]
      rw [r1]
      rfl
    · have hcy : s1.th.cycles = t.cycles + BitVec.ofNat 32 m.toNat := a2.cycles
      rw [r10, hcy, hal, ← hmn, BitVec.ofInt_add, BitVec.ofInt_natCast, BitVec.add_assoc]

/-- A call and the start of a thread begin alike. -/
theorem call_spawn {v w : VmState Val Store} {f : Function} {args : List View} {fuel : Nat} {o : HostOut}
    (h : hostStep (Env.std prog fl Mem.abs) v (.call f args fuel) = .ok (o, w)) :
    ∃ u t s', hostStep (Env.std prog fl Mem.abs) v (.spawn f args) = .ok (.flag true, u) ∧
      u.threads = t :: v.threads ∧ t.waits = 0 ∧ t.finished = false ∧ t.error = .success ∧ t.breakpoints = [] ∧
      t.cycles = 0 ∧ callLoop (Env.std prog fl Mem.abs) fuel (headSt u t v.threads) = .ok ((), s') ∧
      w = ⟨s'.mem, s'.globals, s'.before ++ s'.th :: s'.after, s'.io⟩ ∧
      ∃ r, o = .returned r ∧ outcome (Thread.seen (Ccml.peek Mem.abs s'.mem) s'.th) = some r := by
  unfold hostStep at h ⊢
  dsimp only at h ⊢
  cases hv : hostValues (Env.std prog fl Mem.abs) v.mem args with
  | error x => rw [hv] at h; cases h
  | ok p =>
    obtain ⟨ps, m⟩ := p
    rw [hv] at h
    change (VmState.callOnce (Env.std prog fl Mem.abs) fuel { v with mem := m } f ps >>= _) = _ at h
    show ∃ u t s', (VmState.newThread (Env.std prog fl Mem.abs) { v with mem := m } f ps >>= fun p =>
      pure (HostOut.flag p.1, p.2)) = .ok (.flag true, u) ∧ _
    cases hn : VmState.newThread (Env.std prog fl Mem.abs) { v with mem := m } f ps with
    | error x =>
      unfold VmState.callOnce at h
      rw [hn] at h
      cases h
    | ok p =>
      obtain ⟨b, u⟩ := p
      unfold VmState.callOnce at h
      rw [hn] at h
      cases b with
      | false => cases h
      | true =>
        dsimp only at h
        unfold VmState.newThread at hn
        cases hp : prepare (Env.std prog fl Mem.abs) m f ps with
        | error x => rw [hp] at hn; cases hn
        | ok q =>
          rw [hp] at hn
          cases q with
          | none => cases hn
          | some q =>
            obtain ⟨t, m1⟩ := q
            cases hn
            dsimp only at h
            have ht : t.waits = 0 ∧ t.finished = false ∧ t.error = .success ∧ t.breakpoints = [] ∧ t.cycles = 0 := by
              unfold prepare at hp
              split at hp
              · cases hp
              · split at hp
                · cases hp
                · cases hp
                  exact ⟨rfl, rfl, rfl, rfl, rfl⟩
            obtain ⟨t1, t2, t3, t4, t5⟩ := ht
            have hgc : gcCollect (Env.std prog fl Mem.abs) (headSt { v with mem := m1, threads := t :: v.threads } t v.threads) =
                .ok ((), headSt { v with mem := m1, threads := t :: v.threads } t v.threads) := by
              have hex : ∃ s1, gcCollect (Env.std prog fl Mem.abs) (headSt { v with mem := m1, threads := t :: v.threads } t v.threads) =
                  .ok ((), s1) ∧ s1.mem = m1 := by
                unfold gcCollect
                dsimp only [headSt, Env.std, Mem.abs]
                rw [splitLike_flatten]
                dsimp only
                rw [withStacks_self]
                exact ⟨_, rfl, rfl⟩
              obtain ⟨s1, hs1, hm1⟩ := hex
              have := gcCollect_keeps (e := Env.std prog fl Mem.abs) abs_keepsRoots hs1
              rw [hs1, this, hm1]
              rfl
            rw [show (⟨t, m1, v.globals, [], v.threads, v.io⟩ : St Val Store) =
              headSt { v with mem := m1, threads := t :: v.threads } t v.threads from rfl, vm_bind, hgc] at h
            dsimp only at h
            cases hl : callLoop (Env.std prog fl Mem.abs) fuel (headSt { v with mem := m1, threads := t :: v.threads } t v.threads) with
            | error x => rw [hl] at h; cases h
            | ok q =>
              obtain ⟨⟨⟩, s'⟩ := q
              rw [hl] at h
              dsimp only at h
              refine ⟨_, t, s', rfl, rfl, t1, t2, t3, t4, t5, hl, ?_⟩
              obtain ⟨-, hq⟩ := call_goes fuel _ _ _ (fun hne => absurd t3 hne) hl
              cases hx : s'.th.hasError with
              | true =>
                rw [if_pos hx] at h
                cases h
                refine ⟨rfl, _, rfl, ?_⟩
                unfold outcome
                rw [if_neg (by simpa [Thread.hasError, Thread.seen] using hx)]
                rfl
              | false =>
                rw [if_neg (by rw [hx]; decide)] at h
                unfold Thread.returnValue at h
                rw [if_pos hq] at h
                cases hst : s'.th.stack with
                | nil => rw [hst] at h; cases h
                | cons x xs =>
                  rw [hst] at h
                  cases h
                  refine ⟨rfl, _, rfl, ?_⟩
                  unfold outcome
                  rw [if_pos (by simpa [Thread.hasError, Thread.seen] using hx)]
                  simp [Thread.seen, hst]
                  rfl

/-- A session that goes on after another. -/
theorem session_split {e : Env Val Store} {v v1 : VmState Val Store} {ops : List HostOp} {op : HostOp}
    {os : List HostOut} (h : session e v (op :: ops) = (os, .ok v1)) :
    ∃ o os' u, hostStep e v op = .ok (o, u) ∧ session e u ops = (os', .ok v1) ∧ os = o :: os' := by
  unfold session at h
  cases hs : hostStep e v op with
  | error f => rw [hs] at h; cases h
  | ok p =>
    obtain ⟨o, u⟩ := p
    rw [hs] at h
    rcases hx : session e u ops with ⟨os', r⟩
    dsimp only at h
    rw [hx] at h
    cases h
    exact ⟨o, os', u, rfl, hx, rfl⟩

end

theorem seen_dead {P M P' M' : Type} {mem : MemOps P M} {mem' : MemOps P' M'} {v : VmState P M} {u : VmState P' M'}
    (h : v.seen mem = u.seen mem') (hd : ∀ t ∈ v.threads, Dead t) : ∀ t ∈ u.threads, Dead t := by
  have h2 : v.threads.map (Thread.seen (Ccml.peek mem v.mem)) = u.threads.map (Thread.seen (Ccml.peek mem' u.mem)) :=
    congrArg (fun x => x.2.1) h
  intro t ht
  have := List.mem_map_of_mem (f := Thread.seen (Ccml.peek mem' u.mem)) ht
  rw [← h2] at this
  obtain ⟨t', h3, h4⟩ := List.mem_map.1 this
  obtain ⟨a, b⟩ := hd t' h3
  have e1 : t'.waits = t.waits := congrArg Thread.waits h4
  have e2 : t'.finished = t.finished := congrArg Thread.finished h4
  have e3 : t'.error = t.error := congrArg Thread.error h4
  unfold Dead
  rw [← e1, ← e2, ← e3]
  exact ⟨a, b⟩

theorem seen_front {P M P' M' : Type} {mem : MemOps P M} {mem' : MemOps P' M'} {v : VmState P M} {u : VmState P' M'}
    (h : v.seen mem = u.seen mem') : front mem v = front mem' u := by
  have h1 : v.globals.map (Ccml.peek mem v.mem) = u.globals.map (Ccml.peek mem' u.mem) := congrArg (fun x => x.1) h
  have h2 : v.threads.map (Thread.seen (Ccml.peek mem v.mem)) = u.threads.map (Thread.seen (Ccml.peek mem' u.mem)) :=
    congrArg (fun x => x.2.1) h
  have h3 : v.io = u.io := congrArg (fun x => x.2.2) h
  unfold front
  rw [h1, h3]
  cases hv : v.threads with
  | nil =>
    cases hu : u.threads with
    | nil => rfl
    | cons b bs => rw [hv, hu] at h2; cases h2
  | cons a as =>
    cases hu : u.threads with
    | nil => rw [hv, hu] at h2; cases h2
    | cons b bs =>
      rw [hv, hu] at h2
      simp only [List.map_cons, List.cons.injEq] at h2
      simp only [List.head?_cons, Option.map_some]
      rw [h2.1]

/-! ### Taking host functions away -/

section
variable {prog : Program} {fl : FloatOps} {fs : List FnPtr}

theorem noCall_without {p : FnPtr} (h : p ∈ fs) : ∀ s ∈ (prog.without fs).syscalls, s.call ≠ some p := by
  intro s hs hc
  obtain ⟨y, -, rfl⟩ := List.mem_map.1 hs
  have := (Option.filter_eq_some_iff.1 hc).2
  simp [h] at this

theorem noSpawn_without (h : Builtin.new_thread.ptr ∈ fs) : NoSpawn (prog.without fs) := noCall_without h

theorem noWait_without (h : Builtin.wait.ptr ∈ fs) (h' : (HostFn.sdl .sleep).ptr ∈ fs) : NoWait (prog.without fs) :=
  fun s hs => ⟨noCall_without h s hs, noCall_without h' s hs⟩

theorem noPause_without (h : Builtin.wait.ptr ∈ fs) : NoPause (prog.without fs) := noCall_without h

/-- A pass over one thread and dead ones that fails an assertion. -/
theorem pass_assert (hsp : NoSpawn prog) {v : VmState Val Store} {n : I32} {t : Thread Val}
    {ds : List (Thread Val)} (hv : v.threads = t :: ds) (hd : ∀ t ∈ ds, Dead t)
    (h : v.resume (Env.std prog fl Mem.abs) n = .error .assert) :
    ∃ j, Stuck prog fl .assert j (headSt v t ds) := by
  unfold VmState.resume at h
  rw [hv, List.length_cons] at h
  unfold passLoop at h
  split at h
  · split at h
    · rename_i g hr
      cases h
      unfold ret32 at hr
      split at hr <;> cases hr
    · rw [pass_dead _ _ _ _ _ _ _ _ (Nat.le_refl _) hd] at h
      cases h
  · split at h
    · rw [pass_dead _ _ _ _ _ _ _ _ (Nat.le_refl _) hd] at h
      cases h
    · rename_i hf
      have hf : t.finished = false := by
        cases hx : t.finished with
        | false => rfl
        | true => exact absurd (.inl hx) hf
      rw [show (⟨t, v.mem, v.globals, [], ds, v.io⟩ : St Val Store) = headSt v t ds from rfl] at h
      cases hr : resume (Env.std prog fl Mem.abs) n (headSt v t ds) with
      | error g =>
        rw [hr] at h
        cases h
        by_cases hn : 0 ≤ n.toInt
        · rw [resume_std _ _ hn hf] at hr
          cases hl : resumeLoop (Env.std prog fl Mem.abs) n.toNat (started (headSt v t ds)) with
          | error x =>
            rw [hl] at hr
            cases hr
            obtain ⟨j, hj⟩ := resumeLoop_stuck _ (started (headSt v t ds)) _ hf rfl hl
            exact ⟨j, hj.wake⟩
          | ok p => rw [hl] at hr; cases hr
        · unfold resume at hr
          rw [vm_bind] at hr
          simp only [getTh] at hr
          rw [if_neg (by rw [show (headSt v t ds).th.finished = t.finished from rfl, hf]; decide), vm_bind] at hr
          simp only [modTh] at hr
          rw [vm_bind] at hr
          unfold runQuantum at hr
          rw [if_neg hn, vm_bind] at hr
          cases hl : resumeLoop (Env.std prog fl Mem.abs) (n.toInt + 2147483649).toNat (started (headSt v t ds)) with
          | error x =>
            rw [show ({ headSt v t ds with th := { (headSt v t ds).th with halted := false } } : St Val Store) =
              started (headSt v t ds) from rfl, hl] at hr
            cases hr
            obtain ⟨j, hj⟩ := resumeLoop_stuck _ (started (headSt v t ds)) _ hf rfl hl
            exact ⟨j, hj.wake⟩
          | ok p =>
            obtain ⟨b, s1⟩ := p
            rw [show ({ headSt v t ds with th := { (headSt v t ds).th with halted := false } } : St Val Store) =
              started (headSt v t ds) from rfl, hl] at hr
            cases b <;> cases hr
      | ok p =>
        obtain ⟨ok, s⟩ := p
        rw [hr] at h
        dsimp only at h
        obtain ⟨⟨j, hj⟩, hb⟩ := resume_goes n _ _ _ hf hr
        obtain ⟨h1, h2⟩ := hj.others hsp
        have h2 : s.after = ds := h2
        cases ok with
        | true =>
          rw [if_pos rfl, h2, pass_dead _ _ _ _ _ _ _ _ (Nat.le_refl _) hd] at h
          cases h
        | false =>
          rw [if_neg (by decide), if_pos (by simpa using hb)] at h
          cases h

theorem resumes_empty (e e' : Env Val Store) : ∀ (ns : List I32) (v : VmState Val Store), v.threads = [] →
    session e v (slices ns) = session e' v (slices ns)
  | [], _, _ => rfl
  | n :: ns, v, hv => by
    have h : ∀ e : Env Val Store, v.resume e n = .ok (true, v) := by
      intro e
      unfold VmState.resume
      obtain ⟨m, g, ts, io⟩ := v
      cases hv
      rfl
    rw [session_flag (h e), session_flag (h e'), resumes_empty e e' ns v hv]

/-- Slices of a thread that does not call what was taken away. -/
theorem slices_same (hfs : Builtin.new_thread.ptr ∈ fs) : ∀ (ns : List I32) (v v2 : VmState Val Store) (os : List HostOut)
    (t : Thread Val) (ds : List (Thread Val)), v.threads = t :: ds → (∀ t ∈ ds, Dead t) → ErrorStops (headSt v t ds) →
    (∀ j, ¬ Stuck (prog.without fs) fl .assert j (headSt v t ds)) →
    session (Env.std prog fl Mem.abs) v (slices ns) = (os, .ok v2) →
    session (Env.std (prog.without fs) fl Mem.abs) v (slices ns) = (os, .ok v2)
  | [], _, _, _, _, _, _, _, _, _, h => h
  | n :: ns, v, v2, os, t, ds, hv, hd, he, hns, h => by
    obtain ⟨b, v1, os1, hr, hs, rfl⟩ := session_resume h
    have hsp : NoSpawn (prog.without fs) := noSpawn_without hfs
    rcases vmResume_less fs prog fl Mem.abs v n with k | k
    · obtain ⟨j, hj⟩ := pass_assert hsp hv hd k
      exact absurd hj (hns j)
    · rw [hr] at k
      have key : session (Env.std (prog.without fs) fl Mem.abs) v1 (slices ns) = (os1, .ok v2) := by
        rcases pass_cases hsp hv hd he k with ⟨-, -, rfl⟩ | ⟨-, -, -, rfl⟩ | ⟨-, hf, s, hq, hb, rfl⟩
        · refine slices_same hfs ns _ v2 os1 { t with waits := t.waits - 1 } [] rfl (by simp) he (fun j hj => ?_) hs
          exact hns j (Stuck.unmask (s := headSt v t ds) (b := []) (a := []) (w := t.waits - 1) hj)
        · rw [resumes_empty _ (Env.std prog fl Mem.abs) ns _ rfl]
          exact hs
        · obtain ⟨⟨j, hj⟩, -⟩ := resume_goes n _ _ _ hf hq
          refine slices_same hfs ns _ v2 os1 s.th _ rfl (by cases b <;> simp <;> exact hd) (hj.errorStops he) (fun i hi => ?_) hs
          have hi := Stuck.unmask (s := s) (w := s.th.waits) hi
          exact hns (j + i) (hi.before hj).wake
      rw [session_flag k, key]

/-- What the slices do without some host functions they do with them. -/
theorem slices_more : ∀ {ns : List I32} {v v2 : VmState Val Store} {os : List HostOut},
    session (Env.std (prog.without fs) fl Mem.abs) v (slices ns) = (os, .ok v2) →
    session (Env.std prog fl Mem.abs) v (slices ns) = (os, .ok v2)
  | [], _, _, _, h => h
  | n :: ns, v, v2, os, h => by
    obtain ⟨b, v1, os1, hr, hs, rfl⟩ := session_resume h
    rw [session_flag ((vmResume_less fs prog fl Mem.abs v n).eq hr), slices_more hs]

theorem hostValues_without {P M : Type} (mem : MemOps P M) : ∀ (xs : List View) (m : M),
    hostValues (Env.std (prog.without fs) fl mem) m xs = hostValues (Env.std prog fl mem) m xs
  | [], _ => rfl
  | x :: xs, m => by
    unfold hostValues
    rw [show hostValue (Env.std (prog.without fs) fl mem) m x = hostValue (Env.std prog fl mem) m x by cases x <;> rfl]
    cases hostValue (Env.std prog fl mem) m x with
    | error => rfl
    | ok p => dsimp only; rw [hostValues_without mem xs]

theorem spawn_without {P M : Type} (mem : MemOps P M) (v : VmState P M) (f : Function) (args : List View) :
    hostStep (Env.std (prog.without fs) fl mem) v (.spawn f args) = hostStep (Env.std prog fl mem) v (.spawn f args) := by
  unfold hostStep
  dsimp only
  rw [hostValues_without]
  cases hostValues (Env.std prog fl mem) v.mem args with
  | error => rfl
  | ok p =>
    show (VmState.newThread (Env.std (prog.without fs) fl mem) _ f p.1 >>= _) = (VmState.newThread (Env.std prog fl mem) _ f p.1 >>= _)
    rw [newThread_without]

theorem std_mem {P M : Type} (p : Program) (fl : FloatOps) (mem : MemOps P M) : (Env.std p fl mem).mem = mem := rfl

theorem hostStep_call {P M : Type} (e : Env P M) (v : VmState P M) (f : Function) (args : List View) (fuel : Nat) :
    hostStep e v (.call f args fuel) = match hostValues e v.mem args with
      | .error x => .error x
      | .ok (ps, m) => match VmState.callOnce e fuel { v with mem := m } f ps with
        | .error x => .error x
        | .ok (r, v) => .ok (.returned (match r with
          | .value p => .value (Ccml.peek e.mem v.mem p)
          | .error x => .error x), v) := by
  rw [hostStep]
  cases hostValues e v.mem args with
  | error => rfl
  | ok p =>
    obtain ⟨ps, m⟩ := p
    simp only [bind, Except.bind]
    cases VmState.callOnce e fuel { v with mem := m } f ps with
    | error => rfl
    | ok q => rfl

theorem callStep_less {P M : Type} (mem : MemOps P M) (v : VmState P M) (f : Function) (args : List View) (fuel : Nat) :
    UpTo (hostStep (Env.std (prog.without fs) fl mem) v (.call f args fuel)) (hostStep (Env.std prog fl mem) v (.call f args fuel)) := by
  rw [hostStep_call, hostStep_call, hostValues_without]
  cases hostValues (Env.std prog fl mem) v.mem args with
  | error => exact .rfl _
  | ok p =>
    obtain ⟨ps, m⟩ := p
    dsimp only
    rw [std_mem, std_mem]
    rcases callOnce_less fs prog fl mem { v with mem := m } fuel f ps with k | k
    · rw [k]
      exact .inl rfl
    · rw [k]
      exact .rfl _

theorem call_more {P M : Type} (mem : MemOps P M) {v v1 : VmState P M} {f : Function} {args : List View} {fuel : Nat} {os : List HostOut}
    (h : session (Env.std (prog.without fs) fl mem) v [.call f args fuel] = (os, .ok v1)) :
    session (Env.std prog fl mem) v [.call f args fuel] = (os, .ok v1) := by
  rw [session] at h ⊢
  cases hx : hostStep (Env.std (prog.without fs) fl mem) v (.call f args fuel) with
  | error f => rw [hx] at h; cases h
  | ok p =>
    rw [hx] at h
    rw [(callStep_less mem v f args fuel).eq hx]
    dsimp only at h ⊢
    rw [session] at h ⊢
    exact h
end

theorem sameCalls_refl : ∀ l : List HostOp, SameCalls l l
  | [] => .nil
  | a :: l => .same a (sameCalls_refl l)

section
variable {io : Io}

/-- A session on the collected heap that gets to its end, on the store. -/
theorem to_ideal {prog : Program} {fl : FloatOps} {d : Nat} {s : Heap → Bool} (hp : CleanProgram prog) {ops : List HostOp}
    (hc : ∀ op ∈ ops, CleanCall op) {os v} (h : session (Env.std prog fl (Mem.gc d s)) (newHeapVm io) ops = (os, .ok v)) :
    ∃ u, session (Env.std prog fl Mem.abs) (newVm io) ops = (os, .ok u) ∧ v.seen (Mem.gc d s) = u.seen Mem.abs := by
  have := C45_collections_unobservable (io := io) prog fl d s hp ops ops (sameCalls_refl _) hc
  rw [h] at this
  obtain ⟨h1, u, h2, h3⟩ := this
  rcases hx : session (Env.std prog fl Mem.abs) (newVm io) ops with ⟨os', r⟩
  rw [hx] at h1 h2
  dsimp only at h1 h2
  exact ⟨u, by rw [h1, h2], h3⟩

/-- A session that gets to its end followed by a call of a program some host functions are taken away from. -/
theorem to_ideal_call {prog : Program} {fl : FloatOps} {d : Nat} {s : Heap → Bool} (hp : CleanProgram prog) {fs : List FnPtr}
    {pre : List HostOp} (hc : ∀ op ∈ pre, CleanCall op) {f : Function} {args : List View} (hargs : CleanCall (.spawn f args))
    {fuel : Nat} {os0 v0 os1 v1} (h0 : session (Env.std prog fl (Mem.gc d s)) (newHeapVm io) pre = (os0, .ok v0))
    (h1 : session (Env.std (prog.without fs) fl (Mem.gc d s)) v0 [.call f args fuel] = (os1, .ok v1)) :
    ∃ u0 u1, session (Env.std prog fl Mem.abs) (newVm io) pre = (os0, .ok u0) ∧ v0.seen (Mem.gc d s) = u0.seen Mem.abs ∧
      session (Env.std (prog.without fs) fl Mem.abs) u0 [.call f args fuel] = (os1, .ok u1) ∧
      v1.seen (Mem.gc d s) = u1.seen Mem.abs := by
  have E := std_sim prog fl d s fun s hs => cstr_eq (hp s hs)
  have E' := std_sim (prog.without fs) fl d s fun s hs => cstr_eq (hp s hs)
  have k0 := E.sessionSim (sameCalls_refl pre).alike (fun o ho => (hc o ho).ok) (new_same io)
  rw [h0] at k0
  obtain ⟨u0, w0, a1, a2⟩ := k0
  have k1 := E'.sessionSim (sameCalls_refl [.call f args fuel]).alike (fun o ho => by
    rw [List.mem_singleton] at ho
    subst ho
    exact CleanCall.ok (op := .call f args fuel) hargs) a2
  rw [h1] at k1
  obtain ⟨u1, w1, a3, a4⟩ := k1
  exact ⟨u0, u1, a1, E.seen a2, a3, E'.seen a4⟩

/-! ### C71 -/

/-- C71: a machine whose threads have all ended calls `f` and waits for it (`vm_t::call_once`), or
it starts a thread for `f` and runs it by any number of `vm_t::resume` calls with any number of
cycles each.  If the call comes back and the thread gets to its end, they have done the same: the
globals, what host functions read and wrote, the error, the number of executed instructions and every other field
of the thread except the number of passes it has to wait are the same, and the value `call_once` gives
back is the one on the stack of the thread.  Breakpoints, `wait` and collections may stop the thread
anywhere.  The call does not start threads: it also comes back if `new_thread` is not bound. -/
theorem C71_same_result (prog : Program) (fl : FloatOps) (hp : CleanProgram prog)
    (pre : List HostOp) (hpre : ∀ op ∈ pre, CleanCall op) (f : Function) (args : List View)
    (hargs : CleanCall (.spawn f args)) (fuel : Nat) (ns : List I32) (d1 d2 : Nat) (s1 s2 : Heap → Bool) {os0 v0 os1 v1 os2 v2}
    (h0 : session (Env.std prog fl (Mem.gc d1 s1)) (newHeapVm io) pre = (os0, .ok v0)) (hdead : ∀ t ∈ v0.threads, Dead t)
    (h1 : session (Env.std (prog.without [Builtin.new_thread.ptr]) fl (Mem.gc d1 s1)) v0 [.call f args fuel] = (os1, .ok v1))
    (h2 : session (Env.std prog fl (Mem.gc d2 s2)) (newHeapVm io) (pre ++ .spawn f args :: slices ns) = (os2, .ok v2))
    (t2 : Thread (Option Ptr)) (ht2 : v2.threads.head? = some t2) (hf2 : t2.finished = true) :
    session (Env.std prog fl (Mem.gc d1 s1)) v0 [.call f args fuel] = (os1, .ok v1) ∧
    front (Mem.gc d1 s1) v1 = front (Mem.gc d2 s2) v2 ∧
    ∃ r, os1 = [.returned r] ∧ outcome (Thread.seen (Ccml.peek (Mem.gc d2 s2) v2.mem) t2) = some r := by
  obtain ⟨u0, u1, i0, e0, k1, e1⟩ := to_ideal_call hp hpre hargs h0 h1
  obtain ⟨u2, i2, e2⟩ := to_ideal hp (by
    intro op ho
    rcases List.mem_append.1 ho with ho | ho
    · exact hpre op ho
    · rcases List.mem_cons.1 ho with rfl | ho
      · exact hargs
      · obtain ⟨n, -, rfl⟩ := List.mem_map.1 ho
        trivial) h2
  have hd := seen_dead e0 hdead
  rw [session_append _ _ _ _ i0] at i2
  have hsp : NoSpawn (prog.without [Builtin.new_thread.ptr]) := noSpawn_without (by simp)
  obtain ⟨o, os', w, a1, a2, a3⟩ := session_split k1
  cases a2
  have hos1 : os1 = [o] := a3
  obtain ⟨u, t, s', b1, b2, b3, b4, b5, b6, b7, b8, b9, r, b10, b11⟩ := call_spawn a1
  rw [spawn_without] at b1
  have k2 : session (Env.std prog fl Mem.abs) u0 (.spawn f args :: slices ns) =
      ((session (Env.std prog fl Mem.abs) u0 (.spawn f args :: slices ns)).1, .ok u2) :=
    Prod.ext rfl (Prod.mk.inj i2).2
  obtain ⟨o2, os2', w2, c1, c2, -⟩ := session_split k2
  rw [b1] at c1
  cases c1
  have he : ErrorStops (headSt u t u0.threads) := fun hne => absurd b5 hne
  obtain ⟨⟨j, hj⟩, hq⟩ := call_goes fuel _ _ _ he b8
  have c2 := slices_same (fs := [Builtin.new_thread.ptr]) (by simp) ns u u2 _ t u0.threads b2 hd he
    (fun i hi => hi.no_end hj hq) c2
  refine ⟨call_more _ h1, ?_⟩
  have hfr := seen_front e2
  have hth : v2.threads.map (Thread.seen (Ccml.peek (Mem.gc d2 s2) v2.mem)) = u2.threads.map (Thread.seen (Ccml.peek Mem.abs u2.mem)) :=
    congrArg (fun x => x.2.1) e2
  cases hv2 : v2.threads with
  | nil => rw [hv2] at ht2; cases ht2
  | cons t2' r2' =>
    rw [hv2] at ht2
    cases ht2
    cases hu2 : u2.threads with
    | nil => rw [hv2, hu2] at hth; cases hth
    | cons x2 y2 =>
      rw [hv2, hu2] at hth
      simp only [List.map_cons, List.cons.injEq] at hth
      have hfx : x2.finished = true := by
        rw [← hf2]
        exact (congrArg Thread.finished hth.1).symm
      obtain ⟨j2, b', a', w', -, hg⟩ := resumes_goes hsp ns u u2 _ t x2 u0.threads y2 b2 hd b4 he c2 hu2 hfx
      obtain ⟨-, hs'⟩ := hj.unique hg hq hfx
      have hoth := (hj.others hsp).1
      have hoth : s'.before = [] := hoth
      have q1 : s'.mem = u2.mem := by rw [hs']; rfl
      have q2 : s'.th = { x2 with waits := w' } := by rw [hs']; rfl
      refine ⟨?_, r, by rw [hos1, b10], ?_⟩
      · rw [seen_front e1, hfr, b9]
        unfold front
        rw [hoth, hu2, hs']
        rfl
      · rw [hth.1, ← b11, q1, q2]
        rfl

/-- C71: a call that neither starts threads nor waits (it comes back although `new_thread`, `wait` and the `sleep` of
the graphical driver are not bound) executes a fixed number `k` of instructions; the thread is at its end exactly when the `resume` calls have allowed it
as many, in slices of any sizes, and the last `resume` call reports whether it ended without an error. -/
theorem C71_instructions (prog : Program) (fl : FloatOps) (hp : CleanProgram prog)
    (pre : List HostOp) (hpre : ∀ op ∈ pre, CleanCall op) (f : Function) (args : List View)
    (hargs : CleanCall (.spawn f args)) (fuel d1 : Nat) (s1 : Heap → Bool) {os0 v0 os1 v1}
    (h0 : session (Env.std prog fl (Mem.gc d1 s1)) (newHeapVm io) pre = (os0, .ok v0)) (hdead : ∀ t ∈ v0.threads, Dead t)
    (h1 : session (Env.std (prog.without [Builtin.new_thread.ptr, Builtin.wait.ptr, (HostFn.sdl .sleep).ptr]) fl (Mem.gc d1 s1)) v0
      [.call f args fuel] = (os1, .ok v1)) :
    session (Env.std prog fl (Mem.gc d1 s1)) v0 [.call f args fuel] = (os1, .ok v1) ∧
    ∃ (k : Nat) (t1 : Thread (Option Ptr)), v1.threads.head? = some t1 ∧ t1.finished = true ∧ t1.cycles = BitVec.ofNat 32 k ∧
    (∀ (ns : List I32) (d2 : Nat) (s2 : Heap → Bool), (∀ n ∈ ns, 0 ≤ n.toInt) → allowed ns < k →
      let run := session (Env.std prog fl (Mem.gc d2 s2)) (newHeapVm io) (pre ++ .spawn f args :: slices ns)
      match run.2 with
      | .error e => e = .oom ∨ e = .diverge
      | .ok v2 => run.1 = os0 ++ .flag true :: ns.map (fun _ => .flag true) ∧
          ∃ t2, v2.threads.head? = some t2 ∧ t2.finished = false ∧ t2.cycles = BitVec.ofInt 32 (allowed ns)) ∧
    (∀ (ns : List I32) (n : I32) (d2 : Nat) (s2 : Heap → Bool), (∀ m ∈ ns ++ [n], 0 ≤ m.toInt) →
      allowed ns < k → k ≤ allowed (ns ++ [n]) →
      let run := session (Env.std prog fl (Mem.gc d2 s2)) (newHeapVm io) (pre ++ .spawn f args :: slices (ns ++ [n]))
      match run.2 with
      | .error e => e = .oom ∨ e = .diverge
      | .ok v2 => run.1 = os0 ++ .flag true :: (ns.map (fun _ => .flag true) ++ [.flag (t1.error = .success)]) ∧
          front (Mem.gc d2 s2) v2 = front (Mem.gc d1 s1) v1) := by
  refine ⟨call_more _ h1, ?_⟩
  obtain ⟨u0, u1, i0, e0, k1, e1⟩ := to_ideal_call hp hpre hargs h0 h1
  have hd := seen_dead e0 hdead
  have hsp : NoSpawn (prog.without [Builtin.new_thread.ptr, Builtin.wait.ptr, (HostFn.sdl .sleep).ptr]) := noSpawn_without (by simp)
  have hw : NoWait (prog.without [Builtin.new_thread.ptr, Builtin.wait.ptr, (HostFn.sdl .sleep).ptr]) := noWait_without (by simp) (by simp)
  obtain ⟨o, os', w, a1, a2, a3⟩ := session_split k1
  cases a2
  obtain ⟨u, t, s', b1, b2, b3, b4, b5, b6, b7, b8, b9, r, b10, b11⟩ := call_spawn a1
  rw [spawn_without] at b1
  have he : ErrorStops (headSt u t u0.threads) := fun hne => absurd b5 hne
  obtain ⟨⟨j, hj⟩, hq⟩ := call_goes fuel _ _ _ he b8
  have hoth : s'.before = [] := (hj.others hsp).1
  have hth1 : v1.threads.map (Thread.seen (Ccml.peek (Mem.gc d1 s1) v1.mem)) = u1.threads.map (Thread.seen (Ccml.peek Mem.abs u1.mem)) :=
    congrArg (fun x => x.2.1) e1
  have hu1 : u1.threads = s'.th :: s'.after := by rw [b9, hoth]; rfl
  have hfr1 := seen_front e1
  cases hv1 : v1.threads with
  | nil => rw [hv1, hu1] at hth1; cases hth1
  | cons t1 r1 =>
    rw [hv1, hu1] at hth1
    simp only [List.map_cons, List.cons.injEq] at hth1
    have hth1 := hth1.1
    refine ⟨j, t1, rfl, (congrArg Thread.finished hth1).trans hq, ?_, ?_⟩
    · refine (congrArg Thread.cycles hth1).trans ?_
      show s'.th.cycles = _
      rw [hj.cycles, show (headSt u t u0.threads).th.cycles = t.cycles from rfl, b7]
      simp
    · have hlift : ∀ (ns : List I32) (d2 : Nat) (s2 : Heap → Bool) {fs : List HostOut} {u2 : VmState Val Store},
          session (Env.std prog fl Mem.abs) u (slices ns) = (fs, .ok u2) →
          match (session (Env.std prog fl (Mem.gc d2 s2)) (newHeapVm io) (pre ++ .spawn f args :: slices ns)).2 with
          | .error e => e = .oom ∨ e = .diverge
          | .ok v2 => (session (Env.std prog fl (Mem.gc d2 s2)) (newHeapVm io) (pre ++ .spawn f args :: slices ns)).1 =
              os0 ++ .flag true :: fs ∧ v2.seen (Mem.gc d2 s2) = u2.seen Mem.abs := by
        intro ns d2 s2 fs u2 hs
        have hc := C45_collections_unobservable (io := io) prog fl d2 s2 hp (pre ++ .spawn f args :: slices ns) _ (sameCalls_refl _) (by
          intro op ho
          rcases List.mem_append.1 ho with ho | ho
          · exact hpre op ho
          · rcases List.mem_cons.1 ho with rfl | ho
            · exact hargs
            · obtain ⟨n, -, rfl⟩ := List.mem_map.1 ho
              trivial)
        dsimp only at hc
        rw [session_append _ _ _ _ i0] at hc
        have hcons : session (Env.std prog fl Mem.abs) u0 (.spawn f args :: slices ns) = (.flag true :: fs, .ok u2) := by
          rw [session, b1]
          dsimp only
          rw [hs]
        rw [hcons] at hc
        dsimp only at hc
        rcases hx : session (Env.std prog fl (Mem.gc d2 s2)) (newHeapVm io) (pre ++ .spawn f args :: slices ns) with ⟨os2, x⟩
        rw [hx] at hc
        cases x with
        | ok v2 =>
          obtain ⟨c1, u3, c2, c3⟩ := hc
          cases c2
          exact ⟨c1, c3⟩
        | error e =>
          rcases hc with ⟨-, hc⟩ | ⟨hc, -⟩
          · cases hc
          · exact hc
      have hcyc : t.cycles = 0 := b7
      refine ⟨fun ns d2 s2 hns hlt => ?_, fun ns n d2 s2 hns hlo hhi => ?_⟩
      · obtain ⟨x, tx, dx, i, _, _, _, r1, r2, r3, r4, r5, r6, r7, r8, r9, r10⟩ :=
          slices_before hsp hw ns j u t u0.threads s' b2 hd b3 b6 he hj hq hns hlt
        have := hlift ns d2 s2 (slices_more r1)
        dsimp only
        rcases hx : session (Env.std prog fl (Mem.gc d2 s2)) (newHeapVm io) (pre ++ .spawn f args :: slices ns) with ⟨os2, y⟩
        rw [hx] at this
        cases y with
        | error e => exact this
        | ok v2 =>
          obtain ⟨c1, c2⟩ := this
          refine ⟨c1, ?_⟩
          have hth : v2.threads.map (Thread.seen (Ccml.peek (Mem.gc d2 s2) v2.mem)) = x.threads.map (Thread.seen (Ccml.peek Mem.abs x.mem)) :=
            congrArg (fun x => x.2.1) c2
          rw [r2] at hth
          cases hv2 : v2.threads with
          | nil => rw [hv2] at hth; cases hth
          | cons t2 q2 =>
            rw [hv2] at hth
            simp only [List.map_cons, List.cons.injEq] at hth
            refine ⟨t2, rfl, (congrArg Thread.finished hth.1).trans r9, (congrArg Thread.cycles hth.1).trans (r10.trans ?_)⟩
            rw [hcyc]
            simp
      · obtain ⟨x, tx, dx, i, _, _, _, r1, r2, r3, r4, r5, r6, r7, r8, r9, r10⟩ :=
          slices_before hsp hw ns j u t u0.threads s' b2 hd b3 b6 he hj hq
            (fun m hm => hns m (List.mem_append_left _ hm)) hlo
        rw [allowed_append] at hhi
        obtain ⟨rest, hlast⟩ := slices_last hsp hw n (hns n (by simp)) i x tx dx _ r2 r3 r4 r5 r6 r7 hq (by omega) (by omega)
        have hall := session_append (Env.std (prog.without _) fl Mem.abs) (slices ns) (slices [n]) u r1
        rw [hlast, show slices ns ++ slices [n] = slices (ns ++ [n]) by simp [slices]] at hall
        have := hlift (ns ++ [n]) d2 s2 (slices_more hall)
        dsimp only
        rcases hx : session (Env.std prog fl (Mem.gc d2 s2)) (newHeapVm io) (pre ++ .spawn f args :: slices (ns ++ [n])) with ⟨os2, y⟩
        rw [hx] at this
        cases y with
        | error e => exact this
        | ok v2 =>
          obtain ⟨c1, c2⟩ := this
          have herr : (!(s'.th.hasError)) = decide (t1.error = .success) := by
            have e1 : t1.error = s'.th.error := congrArg Thread.error hth1
            rw [e1]
            unfold Thread.hasError
            cases s'.th.error <;> rfl
          refine ⟨?_, ?_⟩
          · rw [← herr]
            exact c1
          · rw [seen_front c2, hfr1, b9]
            unfold front
            rw [hoth]
            rfl

end

/-! ### Samples -/

/-- A program bound to the whole library, with a function that waits for two passes and makes an array. -/
def pauseProg : Program :=
  builtinsResolve { Program.empty with
    code := Op.LOCALS.code :: le32 1 ++ Op.NEW_INT.code :: le32 2 ++ Op.SCALL.code :: (le32 1 ++ le32 14) ++ Op.SETV.code :: le32 0 ++
      Op.NEW_INT.code :: le32 5 ++ Op.NEW_STR.code :: le32 0 ++ Op.ARY_INIT.code :: le32 2 ++ Op.RET.code :: le32 1
    strings := [str "ab"]
    syscalls := Builtin.all.zip builtinsRegister |>.map fun x => ⟨x.2.1, none⟩
    functions := [⟨str "f", 0, 44, [⟨str "x", 0⟩], []⟩] }

/-- Its function; after the wait it is the function of `tailFn`. -/
def pauseFn : Function := ⟨str "f", 0, 44, [⟨str "x", 0⟩], []⟩

/-- The part of the function that neither waits nor starts threads, as a function of its own. -/
def tailFn : Function := ⟨str "g", 24, 44, [], []⟩

example : CleanProgram pauseProg ∧ ¬ NoSpawn pauseProg ∧ ¬ NoWait pauseProg := by
  refine ⟨by unfold CleanProgram; decide +kernel, fun h => ?_, fun h => ?_⟩
  · exact h ⟨str "new_thread", some Builtin.new_thread.ptr⟩ (by decide +kernel) rfl
  · exact (h ⟨str "wait", some Builtin.wait.ptr⟩ (by decide +kernel)).1 rfl

/-- What a session on the collected heap, in the program without `fs` after one in the whole program, leaves behind of
its threads. -/
def sliceShow (pre : List HostOp) (fs : List FnPtr) (ops : List HostOp) : Option (List (Bool × I32 × I32)) :=
  match (session (Env.std pauseProg toyFl (Mem.gc 100)) (newHeapVm Io.fresh) pre).2 with
  | .ok v =>
    (match (session (Env.std (pauseProg.without fs) toyFl (Mem.gc 100)) v ops).2 with
    | .ok v => some (v.threads.map fun t => (t.finished, t.waits, t.cycles))
    | .error _ => none)
  | .error _ => none

theorem sliceShow_some {pre : List HostOp} {fs : List FnPtr} {ops : List HostOp} {l : List (Bool × I32 × I32)}
    (h : sliceShow pre fs ops = some l) {os0 v0}
    (h0 : session (Env.std pauseProg toyFl (Mem.gc 100)) (newHeapVm Io.fresh) pre = (os0, .ok v0)) :
    ∃ os v, session (Env.std (pauseProg.without fs) toyFl (Mem.gc 100)) v0 ops = (os, .ok v) ∧
      v.threads.map (fun t => (t.finished, t.waits, t.cycles)) = l := by
  unfold sliceShow at h
  rw [h0] at h
  dsimp only at h
  rcases hx : session (Env.std (pauseProg.without fs) toyFl (Mem.gc 100)) v0 ops with ⟨os, r⟩
  rw [hx] at h
  cases r with
  | error f => cases h
  | ok v => exact ⟨os, v, rfl, by simpa using h⟩

/-- What a session on the collected heap leaves behind of its threads. -/
def sliceEnd (ops : List HostOp) : Option (List (Bool × I32 × I32)) :=
  match (session (Env.std pauseProg toyFl (Mem.gc 100)) (newHeapVm Io.fresh) ops).2 with
  | .ok v => some (v.threads.map fun t => (t.finished, t.waits, t.cycles))
  | .error _ => none

theorem sliceEnd_some {ops : List HostOp} {l : List (Bool × I32 × I32)} (h : sliceEnd ops = some l) :
    ∃ os v, session (Env.std pauseProg toyFl (Mem.gc 100)) (newHeapVm Io.fresh) ops = (os, .ok v) ∧
      v.threads.map (fun t => (t.finished, t.waits, t.cycles)) = l := by
  unfold sliceEnd at h
  rcases hx : session (Env.std pauseProg toyFl (Mem.gc 100)) (newHeapVm Io.fresh) ops with ⟨os, r⟩
  rw [hx] at h
  cases r with
  | error f => cases h
  | ok v => exact ⟨os, v, rfl, by simpa using h⟩

/-- The hypotheses of `C71_same_result` for a program bound to the whole library: a call that has ended before, then the
function of eight instructions, one of them a `wait`, in slices. -/
example : ∃ os0 v0 os1 v1 os2 v2 t2,
    session (Env.std pauseProg toyFl (Mem.gc 100)) (newHeapVm Io.fresh) [.call tailFn [] 3] = (os0, .ok v0) ∧
    (∀ t ∈ v0.threads, Dead t) ∧ v0.threads ≠ [] ∧
    session (Env.std (pauseProg.without [Builtin.new_thread.ptr]) toyFl (Mem.gc 100)) v0 [.call pauseFn [] 30] = (os1, .ok v1) ∧
    session (Env.std pauseProg toyFl (Mem.gc 100)) (newHeapVm Io.fresh)
      ([.call tailFn [] 3] ++ .spawn pauseFn [] :: slices [2, 0, 3, 9, 9, 9]) = (os2, .ok v2) ∧
    v2.threads.head? = some t2 ∧ t2.finished = true := by
  obtain ⟨os0, v0, h0, k0⟩ := sliceEnd_some (ops := [.call tailFn [] 3]) (l := [(true, 0, 4)]) (by decide +kernel)
  obtain ⟨os1, v1, h1, -⟩ := sliceShow_some (ops := [.call pauseFn [] 30]) (fs := [Builtin.new_thread.ptr])
    (l := [(true, 2, 8), (true, 0, 4)]) (by decide +kernel) h0
  obtain ⟨os2, v2, h2, k2⟩ := sliceEnd_some (ops := [.call tailFn [] 3] ++ .spawn pauseFn [] :: slices [2, 0, 3, 9, 9, 9])
    (l := [(true, 0, 8)]) (by decide +kernel)
  cases hv : v2.threads with
  | nil => rw [hv] at k2; cases k2
  | cons t2 r2 =>
    rw [hv] at k2
    simp only [List.map_cons, List.cons.injEq, Prod.mk.injEq] at k2
    refine ⟨os0, v0, os1, v1, os2, v2, t2, h0, ?_, ?_, h1, h2, by rw [hv]; rfl, k2.1.1⟩
    · intro t ht
      have := List.mem_map_of_mem (f := fun t : Thread (Option Ptr) => (t.finished, t.waits, t.cycles)) ht
      rw [k0] at this
      simp only [List.mem_singleton, Prod.mk.injEq] at this
      exact ⟨this.2.1, .inl this.1⟩
    · intro hn
      rw [hn] at k0
      cases k0

/-- The last hypothesis of `C71_instructions`: four instructions that need neither `wait` nor `new_thread`. -/
example : sliceShow [] [Builtin.new_thread.ptr, Builtin.wait.ptr, (HostFn.sdl .sleep).ptr] [.call tailFn [] 3] =
    some [(true, 0, 4)] := by decide +kernel

/-- Three of the four instructions are not enough. -/
example : sliceEnd (.spawn tailFn [] :: slices [2, 0, 1]) = some [(false, 0, 3)] := by decide +kernel

/-- The slices of `C71_instructions` around the end of four instructions. -/
example : allowed [2, 0, 1] = 3 ∧ allowed [2, 0] = 2 ∧ allowed ([2, 0] ++ [9]) = 11 := ⟨rfl, rfl, rfl⟩

end Ccml.Props
