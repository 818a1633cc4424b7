import Verif.TraceStmt
/-!
The code of functions follows the evaluator (proof infrastructure).
-/
set_option linter.unusedSimpArgs false
namespace Ccml
open Sem (State Res Vars CallF Flow evalE evalEs evalS evalB callFn params)

/-! ### The layout of the local variables -/

theorem foldl_max_ge (ls : List LocalVar) : ∀ (n : Nat),
    n ≤ ls.foldl (fun n l => max n (l.off + 1)) n ∧
      ∀ x ∈ ls, x.off < ls.foldl (fun n l => max n (l.off + 1)) n := by
  induction ls with
  | nil => intro n; exact ⟨Nat.le_refl _, fun x hx => by cases hx⟩
  | cons a ls ih =>
    intro n
    rw [List.foldl_cons]
    obtain ⟨h1, h2⟩ := ih (max n (a.off + 1))
    refine ⟨by omega, fun x hx => ?_⟩
    rcases List.mem_cons.1 hx with rfl | hx
    · omega
    · exact h2 x hx

theorem stackSize_gt {ls : List LocalVar} {x : LocalVar} (h : x ∈ ls) : x.off < stackSize ls :=
  (foldl_max_ge ls 0).2 x h

theorem localOffset_mem {ls : List LocalVar} (hn : (ls.map LocalVar.ref).Nodup) {x : LocalVar}
    (h : x ∈ ls) : localOffset ls x.ref = x.off := by
  unfold localOffset
  induction ls with
  | nil => cases h
  | cons a ls ih =>
    rw [List.map_cons, List.nodup_cons] at hn
    rcases List.mem_cons.1 h with rfl | h
    · simp
    · have hne : (a.ref == x.ref) = false := by
        rw [beq_eq_false_iff_ne]
        intro heq
        exact hn.1 (heq ▸ List.mem_map_of_mem h)
      rw [List.find?_cons, hne]
      exact ih hn.2 h

theorem laid_func {p : Prog Ref} {f : FuncDecl Ref}
    (hn : ((funcLocals f.body).map LocalVar.ref).Nodup) :
    Laid (funcCtx p f) ((funcLocals f.body).map LocalVar.ref) (funcLocals f.body) :=
  fun _ hx => ⟨localOffset_mem hn hx, stackSize_gt hx, List.mem_map_of_mem hx⟩

/-! ### A final return -/

theorem evalS_ret {cx : Sem.Ctx} {callF : CallF} {zi : Ref → Bool} {n : Nat} {st : Stmt Ref} {ρ ρ' : Vars}
    {w w' : State} (hr : st.isRet = true) : evalS cx callF zi n st ρ w ≠ .ok (.next ρ') w' := by
  cases st with
  | ret t e =>
    cases e with
    | none => rw [evalS]; simp
    | some e =>
      rw [evalS]
      cases evalE cx callF ρ e w <;> simp [Res.bind]
  | _ => cases hr

theorem evalB_ret {cx : Sem.Ctx} {callF : CallF} {zi : Ref → Bool} {n : Nat} : ∀ {ss : List (Stmt Ref)}
    {ρ ρ' : Vars} {w w' : State}, (ss.getLast?.map Stmt.isRet).getD false = true →
      evalB cx callF zi n ss ρ w ≠ .ok (.next ρ') w'
  | [], _, _, _, _, h => by cases h
  | [st], ρ, ρ', w, w', h => by
    have hr : st.isRet = true := h
    intro he
    rw [evalB] at he
    cases hs : evalS cx callF zi n st ρ w with
    | ok f w1 =>
      cases f with
      | next ρ1 => exact evalS_ret hr hs
      | ret v => rw [hs] at he; cases he
    | _ => rw [hs] at he; cases he
  | st :: s2 :: ss, ρ, ρ', w, w', h => by
    intro he
    rw [evalB] at he
    cases hs : evalS cx callF zi n st ρ w with
    | ok f w1 =>
      rw [hs] at he
      cases f with
      | next ρ1 => exact evalB_ret (ss := s2 :: ss) (by simpa using h) he
      | ret v => cases he
    | _ => rw [hs] at he; cases he

/-! ### Functions -/

/-- The variables for which `zi` holds are locals that share their slot with no other local of the
function. -/
def OwnSlot (f : FuncDecl Ref) (zi : Ref → Bool) : Prop :=
  ∀ r, zi r = true → (∃ k, r = .loc k) ∧ r ∈ (funcLocals f.body).map LocalVar.ref ∧
    ∀ q ∈ (funcLocals f.body).map LocalVar.ref, q ≠ r →
      localOffset (funcLocals f.body) q ≠ localOffset (funcLocals f.body) r

/-- A function is in the code. -/
structure Placed (e : Env Val Store) (cx : Sem.Ctx) (fa : Str → I32) (sys : List Syscall)
    (f : FuncDecl Ref) (pc : Nat) : Prop where
  code : ∃ si asm, asmFunc cx.prog sys pc si f = .ok asm ∧ CodeAt e fa pc asm ∧ StrAt e si (strsB f.body)
  nodup : ((funcLocals f.body).map LocalVar.ref).Nodup
  small : f.args.length + stackSize (funcLocals f.body) < 2147483648

theorem agree_params {p : Prog Ref} {f : FuncDecl Ref} {zi : Ref → Bool} {args : List Val}
    (hn : ((funcLocals f.body).map LocalVar.ref).Nodup) (hz : OwnSlot f zi)
    (hl : args.length = f.args.length) :
    RegionOk (funcCtx p f) ((funcLocals f.body).map LocalVar.ref) zi 0 (params args)
      (args ++ List.replicate (stackSize (funcLocals f.body)) .none) := by
  refine ⟨?_, fun k hk => ?_, fun i hi => ?_, fun i => rfl, fun r q hr hq h => ?_, fun r v hr => ?_,
    fun r hr hf => ?_⟩
  · simp [funcCtx, hl]
  · cases hk
  · simp only [params] at hi
    split at hi
    · rename_i h
      have := (List.getElem?_eq_some_iff.1 h).1
      show i < f.args.length
      omega
    · cases hi
  · cases r with
    | arg i =>
      cases q with
      | arg j => simp only [posOf] at h; rw [h]
      | _ => cases hq
    | _ => cases hr
  · cases r with
    | arg i =>
      simp only [params] at hr
      split at hr
      · rename_i h
        cases hr
        simp only [posOf]
        rw [List.getElem?_append_left (List.getElem?_eq_some_iff.1 h).1]
        exact h
      · cases hr
    | _ => cases hr
  · obtain ⟨⟨k, rfl⟩, hm, -⟩ := hz r hr
    obtain ⟨x, hx, hxr⟩ := List.mem_map.1 hm
    have h1 := laid_func (p := p) hn x hx
    rw [hxr] at h1
    simp only [posOf]
    have : (funcCtx p f).nargs = args.length := hl.symm
    rw [this, List.getElem?_append_right (by omega)]
    simp only [Nat.add_sub_cancel_left]
    rw [List.getElem?_replicate, if_pos (by rw [h1.1]; exact h1.2.1)]

theorem follow_body {e : Env Val Store} {cx : Sem.Ctx} {fa : Str → I32} {sys : List Syscall}
    {callF : CallF} {N : Nat} {f : FuncDecl Ref} {pc : Nat} {zi : Ref → Bool} {args below : List Val}
    {fr : Frame} {outer : List Frame} {w : State} {s : St Val Store}
    (L : Linked e cx fa sys) (hC : CallOk e cx N callF) (P : Placed e cx fa sys f pc) (hz : OwnSlot f zi)
    (hl : args.length = f.args.length) (hsp : fr.sp = args.length + below.length)
    (h : At s pc (args.reverse ++ below) (fr :: outer) w) :
    Follows e (N + 1) s (Returned fr outer below)
      ((evalB cx callF zi (N + 1) f.body (params args) w).bind fun fl w => .ok (Sem.result fl) w) := by
  obtain ⟨si, asm, ha, hc, hs⟩ := P.code
  obtain ⟨b, hb, ha⟩ := bind_ok.1 ha
  cases ha
  obtain ⟨c12, c3⟩ := hc.append
  obtain ⟨c1, c2⟩ := c12.append
  have K : Within e cx fa sys (funcCtx cx.prog f) ((funcLocals f.body).map LocalVar.ref) zi below fr :=
    ⟨L, rfl, hz, by rw [hsp, hl, Nat.add_comm]; rfl, P.small⟩
  have start : ∃ k s', Steps e k s s' ∧ StAt (funcCtx cx.prog f) ((funcLocals f.body).map LocalVar.ref) zi 0
      below (fr :: outer) (pc + widthOf (asmLocals (funcCtx cx.prog f) f.name)) (params args) w s' := by
    have hA := agree_params (p := cx.prog) P.nodup hz hl
    unfold asmLocals at c1 ⊢
    split at c1
    · rename_i h0
      have lt := P.small
      obtain ⟨s', k1, k2⟩ := run_locals L.mach (k := (funcCtx cx.prog f).size)
        (by show stackSize _ < _; omega) c1 h
      refine ⟨1, s', k1, _, ?_, hA⟩
      rw [if_pos h0, List.reverse_append, List.reverse_replicate, List.append_assoc]
      exact k2
    · rename_i h0
      refine ⟨0, s, .zero s, _, ?_, hA⟩
      have : stackSize (funcLocals f.body) = 0 := by
        have : ¬ stackSize (funcLocals f.body) > 0 := h0
        omega
      rw [if_neg h0, this]
      simpa [widthOf] using h
  obtain ⟨k0, s0, j0, h0⟩ := start
  refine Follows.pre j0 ?_
  generalize hr : evalB cx callF zi (N + 1) f.body (params args) w = r
  have hf := follow_block K hC f.body 0 si _ b s0 (params args) w hb c2 hs (laid_func P.nodup) h0
  rw [hr] at hf
  have hlast : ∀ ρ' w', r = .ok (.next ρ') w' → (f.body.getLast?.map Stmt.isRet).getD false = false := by
    intro ρ' w' h1
    cases hx : (f.body.getLast?.map Stmt.isRet).getD false with
    | false => rfl
    | true => exact absurd (hr.trans h1) (evalB_ret hx)
  cases r with
  | ok fl w' =>
    obtain ⟨k, s', j1, h1⟩ := hf
    cases fl with
    | ret v => exact ⟨k, s', j1, h1⟩
    | next ρ' =>
      rw [asmEnd, if_neg (by rw [hlast ρ' w' rfl]; simp)] at c3
      obtain ⟨d1, d2⟩ := c3.append
      obtain ⟨region, h1, hA⟩ := h1
      rw [widthOf_append, ← Nat.add_assoc] at d1 d2
      obtain ⟨s2, j2, h2⟩ := run_int L.mach d1 h1
      obtain ⟨s3, j3, h3⟩ := follow_ret K d2 ⟨region, h2, hA⟩
      exact ⟨_, s3, (j1.trans j2).trans j3, h3⟩
  | _ => exact hf

/-- All functions are in the code. -/
structure Loaded (e : Env Val Store) (cx : Sem.Ctx) (fa : Str → I32) (sys : List Syscall)
    (zi : Nat → Ref → Bool) : Prop where
  link : Linked e cx fa sys
  funs : ∀ i f, cx.prog[i]? = some (.func f) → Placed e cx fa sys f (cx.funAddr i).toInt.toNat
  own : ∀ i f, cx.prog[i]? = some (.func f) → OwnSlot f (zi i)

theorem follow_call {e : Env Val Store} {cx : Sem.Ctx} {fa : Str → I32} {sys : List Syscall}
    {zi : Nat → Ref → Bool} (L : Loaded e cx fa sys zi) : ∀ n, CallOk e cx n (callFn cx zi n)
  | 0 => fun _ _ _ _ s _ _ _ _ _ _ _ => ⟨s, .zero s⟩
  | n + 1 => by
    intro i f args below s fr outer w hi hl h hsp
    rw [callFn]
    simp only [hi, if_pos hl]
    exact follow_body L.link (follow_call L n) (L.funs i f hi) (L.own i f hi) hl hsp h

/-! ### The start of a program -/

theorem initVars_eq {cx : Sem.Ctx} {callF : CallF} {zi : Ref → Bool} {n : Nat} :
    ∀ (xs : List (Item Ref)) (i : Nat) (w : State), Sem.initVars cx callF i xs w =
      (evalB cx callF zi n (initFrom i xs) (fun _ => .fresh) w).bind fun _ w => .ok () w
  | [], i, w => by rw [Sem.initVars, initFrom, evalB]; rfl
  | .var t false (some ex) :: xs, i, w => by
    rw [Sem.initVars, initFrom, evalB, evalS, Res.bind_assoc, Res.bind_assoc]
    congr 1
    funext v w1
    rw [Res.bind_assoc]
    have hs : ∀ ρ' w2, cx.set (fun _ => .fresh) (.item i) v w1 = .ok ρ' w2 → ρ' = fun _ => .fresh := by
      intro ρ' w2 h
      unfold Sem.Ctx.set at h
      simp only at h
      split at h
      · split at h
        · cases h; rfl
        · cases h
      · cases h
    cases hx : cx.set (fun _ => .fresh) (.item i) v w1 with
    | ok ρ' w2 =>
      rw [hs ρ' w2 hx]
      exact initVars_eq xs (i + 1) w2
    | _ => rfl
  | .var t false none :: xs, i, w => by
    rw [Sem.initVars, initFrom]; exact initVars_eq xs (i + 1) w; simp
  | .var t true x :: xs, i, w => by
    rw [Sem.initVars, initFrom]; exact initVars_eq xs (i + 1) w; simp
  | .func f :: xs, i, w => by
    rw [Sem.initVars, initFrom]; exact initVars_eq xs (i + 1) w; simp
  | .syscall a b :: xs, i, w => by
    rw [Sem.initVars, initFrom]; exact initVars_eq xs (i + 1) w; simp

theorem initFrom_off : ∀ (i : Nat) (xs : List (Item Ref)) (cur : Nat), (offB cur (initFrom i xs)).1 = []
  | i, [], cur => rfl
  | i, .var t false (some ex) :: xs, cur => by
    rw [initFrom, offB]; exact initFrom_off (i + 1) xs cur
  | i, .var t false none :: xs, cur => by rw [initFrom]; exact initFrom_off (i + 1) xs cur; simp
  | i, .var t true x :: xs, cur => by rw [initFrom]; exact initFrom_off (i + 1) xs cur; simp
  | i, .func f :: xs, cur => by rw [initFrom]; exact initFrom_off (i + 1) xs cur; simp
  | i, .syscall a b :: xs, cur => by rw [initFrom]; exact initFrom_off (i + 1) xs cur; simp

/-- `@init` is in the code. -/
def PlacedInit (e : Env Val Store) (cx : Sem.Ctx) (fa : Str → I32) (sys : List Syscall) (pc : Nat) : Prop :=
  ∃ si asm, asmInit cx.prog sys pc si = .ok asm ∧ CodeAt e fa pc asm ∧ StrAt e si (strsB (initBody cx.prog))

theorem initBody_flow {cx : Sem.Ctx} {callF : CallF} {zi : Ref → Bool} {n : Nat} :
    ∀ (xs : List (Item Ref)) (i : Nat) (ρ : Vars) (w w' : State) (v : Val),
      evalB cx callF zi n (initFrom i xs) ρ w ≠ .ok (.ret v) w'
  | [], i, ρ, w, w', v => by rw [initFrom, evalB]; simp
  | .var t false (some ex) :: xs, i, ρ, w, w', v => by
    rw [initFrom, evalB, evalS]
    cases evalE cx callF ρ ex w with
    | ok a w1 =>
      simp only [Res.bind]
      cases cx.set ρ (.item i) a w1 with
      | ok ρ2 w2 => exact initBody_flow xs (i + 1) ρ2 w2 w' v
      | _ => simp
    | _ => simp [Res.bind]
  | .var t false none :: xs, i, ρ, w, w', v => by
    rw [initFrom]; exact initBody_flow xs (i + 1) ρ w w' v; simp
  | .var t true x :: xs, i, ρ, w, w', v => by
    rw [initFrom]; exact initBody_flow xs (i + 1) ρ w w' v; simp
  | .func f :: xs, i, ρ, w, w', v => by
    rw [initFrom]; exact initBody_flow xs (i + 1) ρ w w' v; simp
  | .syscall a b :: xs, i, ρ, w, w', v => by
    rw [initFrom]; exact initBody_flow xs (i + 1) ρ w w' v; simp

theorem follow_init {e : Env Val Store} {cx : Sem.Ctx} {fa : Str → I32} {sys : List Syscall}
    {zi : Nat → Ref → Bool} {pc : Nat} {below : List Val} {fr : Frame} {outer : List Frame} {w : State}
    {s : St Val Store} (L : Loaded e cx fa sys zi) (P : PlacedInit e cx fa sys pc) (n : Nat)
    (hsp : fr.sp = below.length) (h : At s pc below (fr :: outer) w) :
    Follows e (n + 1) s (fun _ => Returned fr outer below (.int 0)) (Sem.startUp cx zi n w) := by
  obtain ⟨si, asm, ha, hc, hs⟩ := P
  obtain ⟨b, hb, ha⟩ := bind_ok.1 ha
  cases ha
  obtain ⟨c123, c4⟩ := hc.append
  obtain ⟨c12, c3⟩ := c123.append
  obtain ⟨c1, c2⟩ := c12.append
  have K : Within e cx fa sys (initCtx cx.prog) [] (fun _ => false) below fr :=
    ⟨L.link, rfl, fun r hr => (by cases hr), by rw [hsp]; rfl, by simp [initCtx]⟩
  have hslot : cx.prog.countP Item.isSlot = cx.slot cx.prog.length := by
    rw [← slot_eq, List.take_length]
  rw [hslot] at c1
  obtain ⟨s0, j0, h0⟩ := run_globals L.link.mach L.link.slots c1 h
  refine Follows.pre j0 ?_
  rw [Sem.startUp, initVars_eq (zi := fun _ => false) (n := n + 1)]
  generalize (if cx.slot cx.prog.length = 0 then w
      else { w with globals := List.replicate (cx.slot cx.prog.length) .none }) = w0 at h0
  have hA : RegionOk (initCtx cx.prog) [] (fun _ => false) 0 (fun _ => .fresh) [] :=
    ⟨rfl, fun k hk => (by cases hk), fun k hk => (by cases hk), fun _ => rfl,
      fun r q hr => (by cases hr), fun r v hr => (by cases hr), fun r hr => (by cases hr)⟩
  have hf := follow_block K (follow_call L n) (initBody cx.prog) 0 si _ b s0 (fun _ => .fresh) w0 hb c2 hs
    (by rw [initBody, initFrom_off]; exact fun x hx => by cases hx) ⟨[], h0, hA⟩
  show Follows e (n + 1) s0 _ (Res.bind (evalB cx (callFn cx zi n) (fun _ => false) (n + 1)
    (initBody cx.prog) (fun _ => .fresh) w0) _)
  have hnr := fun w' v => initBody_flow (cx := cx) (callF := callFn cx zi n) (zi := fun _ => false)
    (n := n + 1) cx.prog 0 (fun _ => .fresh) w0 w' v
  change ∀ w' v, evalB cx (callFn cx zi n) (fun _ => false) (n + 1) (initBody cx.prog) (fun _ => .fresh) w0
    ≠ .ok (.ret v) w' at hnr
  generalize evalB cx (callFn cx zi n) (fun _ => false) (n + 1) (initBody cx.prog) (fun _ => .fresh) w0 = r
    at hf hnr
  cases r with
  | ok fl w' =>
    obtain ⟨k, s', j1, h1⟩ := hf
    cases fl with
    | ret v => exact absurd rfl (hnr w' v)
    | next ρ' =>
      obtain ⟨region, h1, hA⟩ := h1
      simp only [widthOf_append, ← Nat.add_assoc] at c3 c4
      obtain ⟨s2, j2, h2⟩ := run_int L.link.mach c3 h1
      obtain ⟨s3, j3, h3⟩ := follow_ret K c4 ⟨region, h2, hA⟩
      exact ⟨_, s3, (j1.trans j2).trans j3, h3⟩
  | _ => exact hf

end Ccml
