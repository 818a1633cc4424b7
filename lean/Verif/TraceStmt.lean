import Verif.TraceExpr
/-!
The code of statements follows the evaluator (proof infrastructure).
-/
set_option linter.unusedSimpArgs false
namespace Ccml
open Sem (State Res Vars CallF Flow evalE evalEs evalS evalB)

/-! ### The variables on the stack -/

/-- Where a variable is among the parameters and locals of a call. -/
def posOf (g : GenCtx) : Ref → Nat
  | .arg i => i
  | .loc k => g.nargs + g.off (.loc k)
  | .item _ => 0

/-- The variables with `zi` have a slot of their own. -/
def ZiOk (g : GenCtx) (D : List Ref) (zi : Ref → Bool) : Prop :=
  ∀ r, zi r = true → (∃ k, r = .loc k) ∧ r ∈ D ∧ ∀ q ∈ D, q ≠ r → g.off q ≠ g.off r

/-- The contents of the region of a call agree with the variables. -/
structure RegionOk (g : GenCtx) (D : List Ref) (zi : Ref → Bool) (cur : Nat) (ρ : Vars)
    (region : List Val) : Prop where
  len : region.length = g.nargs + g.size
  loc : ∀ k, (ρ (.loc k)).live = true → g.off (.loc k) < cur ∧ g.off (.loc k) < g.size ∧ .loc k ∈ D
  arg : ∀ i, (ρ (.arg i)).live = true → i < g.nargs
  item : ∀ i, (ρ (.item i)).live = false
  inj : ∀ r q, (ρ r).live = true → (ρ q).live = true → posOf g r = posOf g q → r = q
  val : ∀ r v, ρ r = .val v → region[posOf g r]? = some v
  none : ∀ r, zi r = true → ρ r = .fresh → region[posOf g r]? = some .none

theorem live_val {x : Sem.Slot} {v : Val} (h : x = .val v) : x.live = true := by subst h; rfl

namespace RegionOk
variable {g : GenCtx} {D : List Ref} {zi : Ref → Bool} {cur : Nat} {ρ ρ' : Vars} {region : List Val}

theorem pos_lt (h : RegionOk g D zi cur ρ region) {r : Ref} (hr : (ρ r).live = true) :
    posOf g r < g.nargs + g.size := by
  cases r with
  | item i => rw [h.item i] at hr; cases hr
  | arg i => have := h.arg i hr; simp only [posOf]; omega
  | loc k => have := h.loc k hr; simp only [posOf]; omega

theorem sole (h : RegionOk g D zi cur ρ region) (hz : ZiOk g D zi) {r q : Ref} (hr : (ρ r).live = true)
    (hq : zi q = true) (hne : r ≠ q) : posOf g r ≠ posOf g q := by
  obtain ⟨⟨k, rfl⟩, -, h2⟩ := hz q hq
  cases r with
  | item i => rw [h.item i] at hr; cases hr
  | arg i => have := h.arg i hr; simp only [posOf]; omega
  | loc j =>
    have := h2 _ (h.loc j hr).2.2 hne
    simp only [posOf]
    omega

/-- Assigning a live variable. -/
theorem set (h : RegionOk g D zi cur ρ region) (hz : ZiOk g D zi) {r : Ref} {v : Val}
    (hr : (ρ r).live = true) :
    RegionOk g D zi cur (ρ.set r (.val v)) (region.set (posOf g r) v) := by
  have live : ∀ q, ((ρ.set r (.val v)) q).live = true → (ρ q).live = true := by
    intro q hq
    unfold Vars.set at hq
    split at hq
    · subst_vars; exact hr
    · exact hq
  refine ⟨by simp [h.len], fun k hk => h.loc k (live _ hk), fun i hi => h.arg i (live _ hi), fun i => ?_,
    fun a b ha hb => h.inj a b (live _ ha) (live _ hb), fun a x ha => ?_, fun a ha hf => ?_⟩
  · have := live (.item i)
    cases hx : ((ρ.set r (.val v)) (.item i)).live with
    | false => rfl
    | true => rw [h.item i] at this; exact absurd (this hx) (by simp)
  · unfold Vars.set at ha
    split at ha
    · subst_vars
      cases ha
      rw [List.getElem?_set_self (by rw [h.len]; exact h.pos_lt hr)]
    · rename_i hne
      rw [List.getElem?_set_ne]
      · exact h.val a x ha
      · intro hp
        exact hne (h.inj _ _ (live_val ha) hr hp.symm)
  · unfold Vars.set at hf
    split at hf
    · cases hf
    · rename_i hne
      rw [List.getElem?_set_ne (h.sole hz hr ha (Ne.symm hne))]
      exact h.none a ha hf

/-- A declaration without changing the region. -/
theorem declare (h : RegionOk g D zi cur ρ region) {k : Nat} (hoff : g.off (.loc k) = cur)
    (hs : cur < g.size) (hD : .loc k ∈ D) {x : Sem.Slot} (hx : x.live = true)
    (hv : ∀ v, x = .val v → region[posOf g (.loc k)]? = some v) :
    RegionOk g D zi (cur + 1) (ρ.set (.loc k) x) region := by
  have live : ∀ q, ((ρ.set (.loc k) x) q).live = true → q = .loc k ∨ (ρ q).live = true := by
    intro q hq
    unfold Vars.set at hq
    split at hq
    · exact .inl (by assumption)
    · exact .inr hq
  have ne : ∀ q, (ρ q).live = true → posOf g q ≠ posOf g (.loc k) := by
    intro q hq
    cases q with
    | item i => rw [h.item i] at hq; cases hq
    | arg i => have := h.arg i hq; simp only [posOf]; omega
    | loc j => have := h.loc j hq; simp only [posOf]; omega
  refine ⟨h.len, fun j hj => ?_, fun i hi => ?_, fun i => ?_, fun a b ha hb hab => ?_, fun a y ha => ?_,
    fun a ha hf => ?_⟩
  · rcases live _ hj with hj | hj
    · cases hj; exact ⟨by omega, by omega, hD⟩
    · have := h.loc j hj; exact ⟨by omega, this.2⟩
  · rcases live _ hi with hi | hi
    · cases hi
    · exact h.arg i hi
  · exact h.item i
  · rcases live _ ha with ha | ha <;> rcases live _ hb with hb | hb
    · rw [ha, hb]
    · subst ha; exact absurd hab.symm (ne b hb)
    · subst hb; exact absurd hab (ne a ha)
    · exact h.inj a b ha hb hab
  · unfold Vars.set at ha
    split at ha
    · subst_vars; exact hv _ rfl
    · exact h.val a y ha
  · unfold Vars.set at hf
    split at hf
    · subst hf; cases hx
    · exact h.none a ha hf

/-- The end of a block. -/
theorem leave {cur' : Nat} {region' : List Val} (h : RegionOk g D zi cur ρ region)
    (h' : RegionOk g D zi cur' ρ' region') : RegionOk g D zi cur (ρ.leave ρ') region' := by
  have live : ∀ r, ((ρ.leave ρ') r).live = true → (ρ r).live = true ∧ (ρ' r).live = true := by
    intro r hr
    unfold Vars.leave at hr
    split at hr
    · exact ⟨by assumption, hr⟩
    · split at hr <;> cases hr
  refine ⟨h'.len, fun k hk => h.loc k (live _ hk).1, fun i hi => h.arg i (live _ hi).1, fun i => ?_,
    fun a b ha hb => h.inj a b (live _ ha).1 (live _ hb).1, fun a x ha => ?_, fun a ha hf => ?_⟩
  · cases hx : ((ρ.leave ρ') (.item i)).live with
    | false => rfl
    | true => have := (live _ hx).1; rw [h.item i] at this; cases this
  · unfold Vars.leave at ha
    split at ha
    · exact h'.val a x ha
    · split at ha <;> cases ha
  · unfold Vars.leave at hf
    refine h'.none a ha ?_
    split at hf
    · exact hf
    · split at hf
      · assumption
      · cases hf

/-- Nothing changed but the counter. -/
theorem mono {cur' : Nat} (h : RegionOk g D zi cur ρ region) (hc : cur ≤ cur') :
    RegionOk g D zi cur' ρ region :=
  ⟨h.len, fun k hk => ⟨by have := (h.loc k hk).1; omega, (h.loc k hk).2⟩, h.arg, h.item, h.inj, h.val,
    h.none⟩

end RegionOk

/-- The position of a variable relative to the frame. -/
theorem place_pos {g : GenCtx} {r : Ref} {a b : Op} {o : I32} {below : List Val} {fr : Frame}
    (hsp : fr.sp = below.length + g.nargs) (hsmall : g.nargs + g.size < 2147483648)
    (hr : ∀ i, r ≠ .item i) (hp : posOf g r < g.nargs + g.size)
    (h : varPlace g r = .ok (a, b, o)) :
    a = .GETV ∧ b = .SETV ∧ (fr.sp : Int) + o.toInt = (below.length + posOf g r : Nat) := by
  cases r with
  | item i => exact absurd rfl (hr i)
  | arg i =>
    simp only [posOf] at hp ⊢
    cases h
    refine ⟨rfl, rfl, ?_⟩
    rw [argOffset, BitVec.toInt_ofInt, Int.bmod_eq_of_le (by omega) (by omega)]
    omega
  | loc k =>
    simp only [posOf] at hp ⊢
    cases h
    refine ⟨rfl, rfl, ?_⟩
    rw [toInt_i32 (by omega)]
    omega

theorem stackAt_region (region below : List Val) (i : Nat) :
    stackAt (region.reverse ++ below) ((below.length + i : Nat) : Int) = region[i]? := by
  unfold stackAt
  rw [if_pos (by omega), Int.toNat_natCast]
  simp [List.getElem?_append_right]

theorem stackPut_region (region below : List Val) (i : Nat) (v : Val) :
    stackPut (region.reverse ++ below) (below.length + i) v = (region.set i v).reverse ++ below := by
  unfold stackPut
  rw [List.reverse_append, List.reverse_reverse, List.set_append_right _ _ (by simp)]
  simp

/-- Values are where the code looks for them. -/
theorem RegionOk.vis {g : GenCtx} {D : List Ref} {zi : Ref → Bool} {cur : Nat} {ρ : Vars}
    {region below : List Val} {fr : Frame} (h : RegionOk g D zi cur ρ region)
    (hsp : fr.sp = below.length + g.nargs) (hsmall : g.nargs + g.size < 2147483648) :
    Vis g ρ fr (region.reverse ++ below) := by
  intro r v a b o hv hr hp
  obtain ⟨-, -, ho⟩ := place_pos hsp hsmall hr (h.pos_lt (live_val hv)) hp
  rw [ho, stackAt_region]
  exact h.val r v hv

/-! ### Loops -/

namespace Follows
variable {α β : Type} {e : Env Val Store}

/-- A first part of at least one instruction. -/
theorem bindSucc {n : Nat} {s : St Val Store} {good : α → State → St Val Store → Prop}
    {good' : β → State → St Val Store → Prop} {r : Res α} {f : α → State → Res β}
    (hr : Follows e (n + 1) s good r)
    (hf : ∀ a w s', good a w s' → (s' ≠ s ∧ Follows e n s' good' (f a w)) ∨
      Follows e (n + 1) s' good' (f a w)) :
    Follows e (n + 1) s good' (r.bind f) := by
  cases r with
  | ok a w =>
    obtain ⟨k, s', h1, h2⟩ := hr
    rcases hf a w s' h2 with ⟨hne, hf⟩ | hf
    · cases k with
      | zero => cases h1; exact absurd rfl hne
      | succ k =>
        show Follows e (n + 1) s good' (f a w)
        generalize f a w = r at hf
        cases r with
        | timeout =>
          obtain ⟨s2, h3⟩ := hf
          exact (h1.trans h3).take (by omega)
        | ok a w => exact (pre h1 hf : Follows e n s good' (.ok a w))
        | err x w => exact (pre h1 hf : Follows e n s good' (.err x w))
        | fault f => exact (pre h1 hf : Follows e n s good' (.fault f))
        | undef => trivial
    · exact pre h1 hf
  | err x w => exact hr
  | fault f => exact hr
  | timeout => exact hr
  | undef => trivial

end Follows

theorem Sem.Res.bind_assoc {α β γ : Type} (r : Res α) (f : α → State → Res β) (k : β → State → Res γ) :
    (r.bind f).bind k = r.bind fun a w => (f a w).bind k := by
  cases r <;> rfl

theorem Sem.look_bind {α β : Type} (v : Val) (w : State) (f : View → α) (k : α → State → Res β) :
    (Sem.look v w fun x => .ok (f x) w).bind k = Sem.look v w fun x => k (f x) w := by
  unfold Sem.look
  split <;> rfl

theorem follow_loop {e : Env Val Store} {fl : FloatOps} {m : Nat} {tv : Vars → State → Res Val}
    {body : Vars → State → Res Flow} {atTest atBody : Vars → State → St Val Store → Prop}
    {atJmp : Vars → Val → State → St Val Store → Prop} {good : Flow → State → St Val Store → Prop}
    (h1 : ∀ ρ w s, atTest ρ w s → Follows e m s (atJmp ρ) (tv ρ w))
    (h2 : ∀ ρ v w s, atJmp ρ v w s → Follows e m s
      (fun b w' s' => if b then atBody ρ w' s' ∧ s' ≠ s else good (.next ρ) w' s')
      (Sem.look v w fun x => .ok (Sem.truth fl x) w))
    (h3 : ∀ ρ w s, atBody ρ w s → Follows e m s
      (fun f w' s' => match f with | .next ρ' => atTest ρ' w' s' | .ret v => good (.ret v) w' s')
      (body ρ w)) :
    ∀ j ≤ m, ∀ ρ w s, atTest ρ w s → Follows e j s good
      (Sem.loop (fun ρ w => (tv ρ w).bind fun v w => Sem.look v w fun x => .ok (Sem.truth fl x) w)
        body j ρ w)
  | 0, _, ρ, w, s, _ => ⟨s, .zero s⟩
  | j + 1, hj, ρ, w, s, h => by
    rw [Sem.loop, Res.bind_assoc]
    refine ((h1 ρ w s h).weaken hj).bind ?_
    intro v w' s' h'
    refine Follows.bindSucc ((h2 ρ v w' s' h').weaken hj) ?_
    intro b w'' s'' h''
    cases b with
    | true =>
      left
      simp only [if_true] at h'' ⊢
      refine ⟨h''.2, ((h3 ρ w'' s'' h''.1).weaken (by omega)).bind ?_⟩
      intro f w3 s3 hf
      cases f with
      | next ρ' => exact follow_loop h1 h2 h3 j (by omega) ρ' w3 s3 hf
      | ret v => exact Follows.ret hf
    | false =>
      right
      simp only [Bool.false_eq_true, if_false] at h'' ⊢
      exact Follows.ret h''


/-! ### Statements -/

/-- What is fixed during a call. -/
structure Within (e : Env Val Store) (cx : Sem.Ctx) (fa : Str → I32) (sys : List Syscall) (g : GenCtx)
    (D : List Ref) (zi : Ref → Bool) (below : List Val) (fr : Frame) : Prop where
  link : Linked e cx fa sys
  prog : g.prog = cx.prog
  zi : ZiOk g D zi
  sp : fr.sp = below.length + g.nargs
  small : g.nargs + g.size < 2147483648

/-- In the middle of a call. -/
def StAt (g : GenCtx) (D : List Ref) (zi : Ref → Bool) (cur : Nat) (below : List Val)
    (frs : List Frame) (pc : Nat) (ρ : Vars) (w : State) (s : St Val Store) : Prop :=
  ∃ region, At s pc (region.reverse ++ below) frs w ∧ RegionOk g D zi cur ρ region

/-- In the middle of a call with a value on top. -/
def StVal (g : GenCtx) (D : List Ref) (zi : Ref → Bool) (cur : Nat) (below : List Val)
    (frs : List Frame) (pc : Nat) (ρ : Vars) (v : Val) (w : State) (s : St Val Store) : Prop :=
  ∃ region, At s pc (v :: (region.reverse ++ below)) frs w ∧ RegionOk g D zi cur ρ region

/-- After a statement. -/
def Done (g : GenCtx) (D : List Ref) (zi : Ref → Bool) (cur : Nat) (below : List Val) (fr : Frame)
    (outer : List Frame) (pc : Nat) (f : Flow) (w : State) (s : St Val Store) : Prop :=
  match f with
  | .next ρ => StAt g D zi cur below (fr :: outer) pc ρ w s
  | .ret v => Returned fr outer below v w s

/-- The variables of a piece of code have the offsets of the context. -/
def Laid (g : GenCtx) (D : List Ref) (l : List LocalVar) : Prop :=
  ∀ x ∈ l, g.off x.ref = x.off ∧ x.off < g.size ∧ x.ref ∈ D

theorem Laid.append {g : GenCtx} {D : List Ref} {a b : List LocalVar} (h : Laid g D (a ++ b)) :
    Laid g D a ∧ Laid g D b :=
  ⟨fun x hx => h x (List.mem_append_left _ hx), fun x hx => h x (List.mem_append_right _ hx)⟩

section
variable {e : Env Val Store} {cx : Sem.Ctx} {fa : Str → I32} {sys : List Syscall} {g : GenCtx}
  {D : List Ref} {zi : Ref → Bool} {below : List Val} {fr : Frame} {outer : List Frame}
  {s : St Val Store} {pc n cur : Nat} {w : State} {ρ : Vars} {callF : CallF} {l : Asm} {N : Nat}

theorem follow_value (K : Within e cx fa sys g D zi below fr) (hC : CallOk e cx N callF) {ex : Expr Ref}
    {si : Nat} {asm : Asm} (ha : asmE g sys si ex = .ok asm) (hc : CodeAt e fa pc asm)
    (hs : StrAt e si (strsE ex)) (h : StAt g D zi cur below (fr :: outer) pc ρ w s) :
    Follows e (N + 1) s (StVal g D zi cur below (fr :: outer) (pc + widthOf asm) ρ)
      (evalE cx callF ρ ex w) := by
  obtain ⟨region, h1, h2⟩ := h
  exact (follow_expr K.link K.prog hC ex si pc asm s _ w ha hc hs h1 (h2.vis K.sp K.small)).imp
    fun v w' s' h' => ⟨region, h', h2⟩

theorem follow_read (K : Within e cx fa sys g D zi below fr) {r : Ref} {t : Option Token}
    {asm : Asm} (ha : asmGet g r t = .ok asm) (hc : CodeAt e fa pc asm)
    (h : StAt g D zi cur below (fr :: outer) pc ρ w s) :
    widthOf asm = 5 ∧
      Follows e n s (StVal g D zi cur below (fr :: outer) (pc + 5) ρ) (cx.get ρ r w) := by
  obtain ⟨region, h1, h2⟩ := h
  obtain ⟨h3, h4⟩ := follow_get (n := n) K.link K.prog ha hc h1 (h2.vis K.sp K.small)
  exact ⟨h3, h4.imp fun v w' s' h' => ⟨region, h', h2⟩⟩

theorem follow_set (K : Within e cx fa sys g D zi below fr) {r : Ref} {t : Option Token} {v : Val}
    {asm : Asm} (ha : asmSet g r t = .ok asm) (hc : CodeAt e fa pc asm)
    (h : StVal g D zi cur below (fr :: outer) pc ρ v w s) :
    widthOf asm = 5 ∧
      Follows e n s (StAt g D zi cur below (fr :: outer) (pc + 5)) (cx.set ρ r v w) := by
  obtain ⟨region, h, hA⟩ := h
  obtain ⟨⟨a, b, o⟩, h1, h2⟩ := bind_ok.1 ha
  cases h2
  refine ⟨rfl, ?_⟩
  have loc : (∀ i, r ≠ .item i) → Follows e n s (StAt g D zi cur below (fr :: outer) (pc + 5))
      (if (ρ r).live then .ok (ρ.set r (.val v)) w else .undef) := by
    intro hr
    split
    · rename_i hl
      obtain ⟨rfl, rfl, ho⟩ := place_pos K.sp K.small hr (hA.pos_lt hl) h1
      obtain ⟨s', k1, k2⟩ := run_setv K.link.mach hc h ho (by
        have := hA.pos_lt hl
        rw [List.length_append, List.length_reverse, hA.len]; omega)
      rw [stackPut_region] at k2
      exact ⟨1, s', k1, _, k2, hA.set K.zi hl⟩
    · trivial
  cases r with
  | item i =>
    unfold Sem.Ctx.set
    simp only
    simp only [varPlace, K.prog] at h1
    split at h1
    · rename_i hi
      simp only [hi]
      obtain ⟨rfl, rfl, rfl⟩ : _ ∧ _ ∧ _ := by simpa using h1
      have hg : globalOffset cx.prog i = cx.slot i := by
        simp only [globalOffset, hi, slot_eq]
      rw [← hg]
      have h3 := run_setg (n := n) K.link.mach (i := globalOffset cx.prog i) (by
        have := slot_le cx i
        have := K.link.slots
        omega) hc h
      split
      · rename_i hlt
        rw [if_pos hlt] at h3
        obtain ⟨k, s', k1, k2⟩ := h3
        exact ⟨k, s', k1, _, k2, hA⟩
      · rename_i hlt
        rw [if_neg hlt] at h3
        exact h3
    · cases h1
  | arg i => exact loc (by simp)
  | loc k => exact loc (by simp)

theorem follow_ret (K : Within e cx fa sys g D zi below fr) {v : Val} {t : Option Token}
    (hc : CodeAt e fa pc ((.ins (.i1 .RET g.space), t) :: l))
    (h : StVal g D zi cur below (fr :: outer) pc ρ v w s) :
    ∃ s', Steps e 1 s s' ∧ Returned fr outer below v w s' := by
  obtain ⟨region, h, hA⟩ := h
  exact run_ret K.link.mach K.small (by rw [List.length_reverse, hA.len]) hc h

theorem set_set (ρ : Vars) (r : Ref) (x y : Sem.Slot) : (ρ.set r x).set r y = ρ.set r y := by
  funext q
  unfold Vars.set
  split <;> rfl

theorem set_self (ρ : Vars) (r : Ref) (x : Sem.Slot) : ρ.set r x r = x := by
  simp [Vars.set]

theorem width_one1 {o : Op} {v : I32} {t : Option Token} : widthOf (one (.i1 o v) t) = 5 := rfl

theorem width_one0 {o : Op} {t : Option Token} : widthOf (one (.i0 o) t) = 1 := rfl

theorem asmGet_width {r : Ref} {t : Option Token} {asm : Asm} (h : asmGet g r t = .ok asm) :
    widthOf asm = 5 := by
  obtain ⟨⟨a, b, o⟩, h1, h2⟩ := bind_ok.1 h
  cases h2
  rfl

theorem asmSet_width {r : Ref} {t : Option Token} {asm : Asm} (h : asmSet g r t = .ok asm) :
    widthOf asm = 5 := by
  obtain ⟨⟨a, b, o⟩, h1, h2⟩ := bind_ok.1 h
  cases h2
  rfl

/-- The end of a block. -/
theorem Done.leave {cur' q : Nat} {f : Flow} {region : List Val} (hA : RegionOk g D zi cur ρ region)
    (h : Done g D zi cur' below fr outer q f w s) :
    Done g D zi cur below fr outer q (f.leave ρ) w s := by
  cases f with
  | next ρ' =>
    obtain ⟨region', h1, h2⟩ := h
    exact ⟨region', h1, hA.leave h2⟩
  | ret v => exact h

theorem Follows.jump {α : Type} {good : α → State → St Val Store → Prop} {r : Res α} {k : Nat}
    {s1 : St Val Store} (h : Steps e k s s1) (hf : Follows e n s1 good r) : Follows e n s good r :=
  Follows.pre h hf

end

mutual

theorem follow_stmt {e : Env Val Store} {cx : Sem.Ctx} {fa : Str → I32} {sys : List Syscall}
    {g : GenCtx} {D : List Ref} {zi : Ref → Bool} {below : List Val} {fr : Frame}
    {outer : List Frame} {callF : CallF} {N : Nat}
    (K : Within e cx fa sys g D zi below fr) (hC : CallOk e cx N callF) :
    ∀ (st : Stmt Ref) (cur si pc : Nat) (asm : Asm) (s : St Val Store) (ρ : Vars) (w : State),
      asmS g sys pc si st = .ok asm → CodeAt e fa pc asm → StrAt e si (strsS st) →
      Laid g D (offS cur st).1 → StAt g D zi cur below (fr :: outer) pc ρ w s →
      Follows e (N + 1) s (Done g D zi (offS cur st).2 below fr outer (pc + widthOf asm))
        (evalS cx callF zi (N + 1) st ρ w)
  | .var t r none, cur, si, pc, asm, s, ρ, w, ha, hc, hs, hl, h => by
    cases ha
    cases r with
    | loc k =>
      obtain ⟨region, h1, hA⟩ := h
      obtain ⟨l1, l2, l3⟩ := hl _ (List.mem_singleton.2 rfl)
      rw [evalS]
      split
      · rename_i hf
        refine Follows.ret ⟨region, h1, hA.declare l1 l2 l3 (by split <;> rfl) ?_⟩
        intro v hv
        split at hv
        · cases hv
          exact hA.none _ (by assumption) hf
        · cases hv
      · exact Follows.ret ⟨region, h1, hA.declare l1 l2 l3 rfl (fun v hv => by cases hv)⟩
    | _ => trivial
  | .var t r (some ex), cur, si, pc, asm, s, ρ, w, ha, hc, hs, hl, h => by
    obtain ⟨a, h1, ha⟩ := bind_ok.1 ha
    cases ha
    cases r with
    | loc k =>
      obtain ⟨c1, c2⟩ := hc.append
      obtain ⟨l1, l2, l3⟩ := hl _ (List.mem_singleton.2 rfl)
      rw [evalS, widthOf_append]
      refine (follow_value K hC h1 c1 hs h).bind ?_
      rintro v w' s' ⟨region, h2, hA⟩
      obtain ⟨-, -, ho⟩ := place_pos (a := .GETV) (b := .SETV) (r := .loc k) K.sp K.small (by simp)
        (by simp only [posOf]; simp only at l1 l2; omega) rfl
      obtain ⟨s2, k1, k2⟩ := run_setv K.link.mach c2 h2 ho (by
        rw [List.length_append, List.length_reverse, hA.len]
        simp only [posOf]; simp only at l1 l2; omega)
      rw [stackPut_region] at k2
      have hA' := (hA.declare l1 l2 l3 (x := .unset) rfl (fun v hv => by cases hv)).set K.zi (r := .loc k)
        (v := v) (by rw [set_self]; rfl)
      rw [set_set] at hA'
      exact ⟨1, s2, k1, _, k2, hA'⟩
    | _ => trivial
  | .assign t r ex, cur, si, pc, asm, s, ρ, w, ha, hc, hs, hl, h => by
    obtain ⟨a, h1, ha⟩ := bind_ok.1 ha
    obtain ⟨b, h2, ha⟩ := bind_ok.1 ha
    cases ha
    obtain ⟨c1, c2⟩ := hc.append
    rw [evalS, widthOf_append, ← Nat.add_assoc]
    refine (follow_value K hC h1 c1 hs h).bind ?_
    intro v w' s' h'
    obtain ⟨w5, hf⟩ := follow_set (n := N + 1) K h2 c2 h'
    rw [w5]
    exact hf.bind fun ρ' w2 s2 h2 => Follows.ret h2
  | .assignArr t r i ex, cur, si, pc, asm, s, ρ, w, ha, hc, hs, hl, h => by
    obtain ⟨a, h1, ha⟩ := bind_ok.1 ha
    obtain ⟨b, h2, ha⟩ := bind_ok.1 ha
    obtain ⟨d, h3, ha⟩ := bind_ok.1 ha
    cases ha
    obtain ⟨c123, c4⟩ := hc.append
    obtain ⟨c12, c3⟩ := c123.append
    obtain ⟨c1, c2⟩ := c12.append
    obtain ⟨s1, s2⟩ := StrAt.append hs
    obtain ⟨region, h, hA⟩ := h
    have hv := hA.vis K.sp K.small
    rw [evalS]
    simp only [widthOf_append, ← Nat.add_assoc] at c2 c3 c4 ⊢
    refine (follow_expr K.link K.prog hC ex _ _ a s _ w h1 c1 s1 h hv).bind ?_
    intro v w1 x1 k1
    refine (follow_expr K.link K.prog hC i _ _ b x1 _ w1 h2 c2 s2 k1 hv.push).bind ?_
    intro v2 w2 x2 k2
    obtain ⟨w5, hf⟩ := follow_get (n := N + 1) K.link K.prog h3 c3 k2 hv.push.push
    refine hf.bind ?_
    intro v3 w3 x3 k3
    rw [w5] at c4 ⊢
    refine (run_seta (n := N + 1) K.link.mach c4 k3).bind ?_
    intro u w4 x4 k4
    exact Follows.ret ⟨region, k4, hA⟩
  | .assignMem t m r ex, cur, si, pc, asm, s, ρ, w, ha, hc, hs, hl, h => by
    obtain ⟨a, h1, ha⟩ := bind_ok.1 ha
    obtain ⟨d, h3, ha⟩ := bind_ok.1 ha
    cases ha
    obtain ⟨c12, c3⟩ := hc.append
    obtain ⟨c1, c2⟩ := c12.append
    obtain ⟨s1, s2⟩ := StrAt.append hs
    obtain ⟨region, h, hA⟩ := h
    have hv := hA.vis K.sp K.small
    rw [evalS]
    simp only [widthOf_append, ← Nat.add_assoc] at c2 c3 ⊢
    refine (follow_expr K.link K.prog hC ex _ _ a s _ w h1 c1 s1 h hv).bind ?_
    intro v w1 x1 k1
    obtain ⟨w5, hf⟩ := follow_get (n := N + 1) K.link K.prog h3 c2 k1 hv.push
    refine hf.bind ?_
    intro v3 w3 x3 k3
    rw [w5] at c3
    exact run_setm (n := N + 1) (good := fun (_ : Flow) _ _ => False) K.link.mach (StrAt.lt K.link s2)
      s2.get c3 k3 (fun _ _ _ h => h)
  | .call t c as, cur, si, pc, asm, s, ρ, w, ha, hc, hs, hl, h => by
    obtain ⟨a, h1, ha⟩ := bind_ok.1 ha
    obtain ⟨b, h2, ha⟩ := bind_ok.1 ha
    cases ha
    obtain ⟨c12, c3⟩ := hc.append
    obtain ⟨region, h, hA⟩ := h
    rw [evalS, widthOf_append, ← Nat.add_assoc]
    have hx := follow_expr K.link K.prog hC (.call t c as) si pc (a ++ b) s _ w
      (by rw [asmE, h1]; simp only [bind, Except.bind, h2]) c12 hs h (hA.vis K.sp K.small)
    have := hx.bind (f := fun _ w => .ok (.next ρ) w)
      (good' := Done g D zi cur below fr outer (pc + widthOf (a ++ b) + 5)) (by
        intro v w' s' h'
        obtain ⟨s2, k1, k2⟩ := run_pop K.link.mach c3 h'
        exact ⟨1, s2, k1, region, k2, hA⟩)
    rw [evalE, Res.bind_assoc] at this
    simp only [Res.bind_assoc] at this
    exact this
  | .ifS t c thn false els, cur, si, pc, asm, s, ρ, w, ha, hc, hs, hl, h => by
    obtain ⟨a, h1, ha⟩ := bind_ok.1 ha
    obtain ⟨b, h2, ha⟩ := bind_ok.1 ha
    cases ha
    obtain ⟨c12, c3⟩ := hc.append
    obtain ⟨c1, c2⟩ := c12.append
    obtain ⟨s12, -⟩ := StrAt.append hs
    obtain ⟨s1, s2⟩ := StrAt.append s12
    obtain ⟨l1, -⟩ := Laid.append hl
    have lt := CodeAt.lt K.link hc
    rw [evalS]
    simp only [widthOf_append, ← Nat.add_assoc, width_one1] at c2 c3 lt ⊢
    refine (follow_value K hC h1 c1 s1 h).bind ?_
    rintro v w1 x1 ⟨region, k1, hA⟩
    rw [← Sem.look_bind v w1 (Sem.truth cx.fl) fun b w => if b = true then
      (evalB cx callF zi (N + 1) thn ρ w).bind fun f w => .ok (f.leave ρ) w
      else if false = true then (evalB cx callF zi (N + 1) els ρ w).bind fun f w => .ok (f.leave ρ) w
      else .ok (.next ρ) w]
    refine (run_fjmp (n := N + 1) K.link.mach (by omega) c2 k1).bind ?_
    rintro b' w2 x2 ⟨rfl, k2⟩
    cases b' with
    | true =>
      exact (follow_block K hC thn cur _ _ b x2 ρ _ h2 c3 s2 l1 ⟨region, k2, hA⟩).bind
        fun f w3 x3 k3 => Follows.ret (k3.leave hA)
    | false => exact Follows.ret ⟨region, k2, hA⟩
  | .ifS t c thn true els, cur, si, pc, asm, s, ρ, w, ha, hc, hs, hl, h => by
    obtain ⟨a, h1, ha⟩ := bind_ok.1 ha
    obtain ⟨b, h2, ha⟩ := bind_ok.1 ha
    obtain ⟨d, h3, ha⟩ := bind_ok.1 ha
    cases ha
    obtain ⟨c1234, c5⟩ := hc.append
    obtain ⟨c123, c4⟩ := c1234.append
    obtain ⟨c12, c3⟩ := c123.append
    obtain ⟨c1, c2⟩ := c12.append
    obtain ⟨s12, s3⟩ := StrAt.append hs
    obtain ⟨s1, s2⟩ := StrAt.append s12
    obtain ⟨l1, l2⟩ := Laid.append hl
    have lt := CodeAt.lt K.link hc
    rw [evalS]
    simp only [widthOf_append, List.length_append, ← Nat.add_assoc, width_one1, if_true] at c2 c3 c4 c5 s3 lt ⊢
    refine (follow_value K hC h1 c1 s1 h).bind ?_
    rintro v w1 x1 ⟨region, k1, hA⟩
    rw [← Sem.look_bind v w1 (Sem.truth cx.fl) fun b w => if b = true then
      (evalB cx callF zi (N + 1) thn ρ w).bind fun f w => .ok (f.leave ρ) w
      else (evalB cx callF zi (N + 1) els ρ w).bind fun f w => .ok (f.leave ρ) w]
    refine (run_fjmp (n := N + 1) K.link.mach (by omega) c2 k1).bind ?_
    rintro b' w2 x2 ⟨rfl, k2⟩
    cases b' with
    | true =>
      refine (follow_block K hC thn cur _ _ b x2 ρ _ h2 c3 s2 l1 ⟨region, k2, hA⟩).bind ?_
      intro f w3 x3 k3
      have k4 := k3.leave hA
      generalize f.leave ρ = f' at k4
      cases f' with
      | next ρ' =>
        obtain ⟨region', k4, hA'⟩ := k4
        obtain ⟨x4, k5, k6⟩ := run_jmp K.link.mach (by omega) c4 k4
        exact ⟨1, x4, k5, region', k6, hA'⟩
      | ret v => exact Follows.ret k4
    | false =>
      exact (follow_block K hC els cur _ _ d x2 ρ _ h3 c5 s3 l2 ⟨region, k2, hA⟩).bind
        fun f w3 x3 k3 => Follows.ret (k3.leave hA)
  | .whileS t c body, cur, si, pc, asm, s, ρ, w, ha, hc, hs, hl, h => by
    obtain ⟨b, h2, ha⟩ := bind_ok.1 ha
    obtain ⟨a, h1, ha⟩ := bind_ok.1 ha
    cases ha
    obtain ⟨c123, c4⟩ := hc.append
    obtain ⟨c12, c3⟩ := c123.append
    obtain ⟨c1, c2⟩ := c12.append
    obtain ⟨s1, s2⟩ := StrAt.append hs
    have lt := CodeAt.lt K.link hc
    rw [evalS]
    simp only [widthOf_append, List.length_append, ← Nat.add_assoc, width_one1] at c2 c3 c4 lt ⊢
    obtain ⟨region, h, hA⟩ := h
    obtain ⟨x0, k0, h0⟩ := run_jmp K.link.mach (by omega) c1 h
    refine Follows.pre k0 ?_
    refine follow_loop (m := N + 1)
      (atTest := StAt g D zi cur below (fr :: outer) (pc + 5 + widthOf b))
      (atJmp := StVal g D zi cur below (fr :: outer) (pc + 5 + widthOf b + widthOf a))
      (atBody := StAt g D zi cur below (fr :: outer) (pc + 5)) ?_ ?_ ?_ (N + 1) (Nat.le_refl _)
      ρ w x0 ⟨region, h0, hA⟩
    · intro ρ w s h
      exact follow_value K hC h1 c3 s2 h
    · rintro ρ v w s ⟨region, h, hA⟩
      refine (run_tjmp (n := N + 1) K.link.mach (by omega) c4 h).imp ?_
      rintro b' w' s' ⟨rfl, h'⟩
      cases b' with
      | true =>
        refine ⟨⟨region, h', hA⟩, ?_⟩
        rintro rfl
        have h1' := h1
        have h1 := h.pc
        have h2 := h'.pc
        simp only [if_true] at h2
        have := asmE_size c _ a h1'
        omega
      | false => exact ⟨region, h', hA⟩
    · rintro ρ w s h
      refine (follow_block K hC body cur _ _ b s ρ _ h2 c2 s1 hl h).bind ?_
      obtain ⟨region, h, hA⟩ := h
      intro f w' s' k3
      refine Follows.ret ?_
      have k4 := k3.leave hA
      generalize f.leave ρ = f' at k4
      cases f' with
      | next ρ' => exact k4
      | ret v => exact k4
  | .forS t nm r st sp body, cur, si, pc, asm, s, ρ, w, ha, hc, hs, hl, h => by
    obtain ⟨a, h1, ha⟩ := bind_ok.1 ha
    obtain ⟨s0, h2, ha⟩ := bind_ok.1 ha
    obtain ⟨b, h3, ha⟩ := bind_ok.1 ha
    obtain ⟨gt, h4, ha⟩ := bind_ok.1 ha
    obtain ⟨s1, h5, ha⟩ := bind_ok.1 ha
    obtain ⟨z, h6, ha⟩ := bind_ok.1 ha
    cases ha
    obtain ⟨hc, c12⟩ := hc.append
    obtain ⟨hc, c11⟩ := hc.append
    obtain ⟨hc, c10⟩ := hc.append
    obtain ⟨hc, c9⟩ := hc.append
    obtain ⟨hc, c8⟩ := hc.append
    obtain ⟨hc, c7⟩ := hc.append
    obtain ⟨hc, c6⟩ := hc.append
    obtain ⟨hc, c5⟩ := hc.append
    obtain ⟨hc, c4⟩ := hc.append
    obtain ⟨hc, c3⟩ := hc.append
    obtain ⟨c1, c2⟩ := hc.append
    obtain ⟨t12, t3⟩ := StrAt.append hs
    obtain ⟨t1, t2⟩ := StrAt.append t12
    have lt := CodeAt.lt K.link c12
    have w0 : widthOf s0 = 5 := asmSet_width h2
    have w1 : widthOf s1 = 5 := asmSet_width h5
    have w2 : widthOf gt = 5 := asmGet_width h4
    rw [evalS]
    simp only [widthOf_append, List.length_append, ← Nat.add_assoc, width_one1, width_one0, w0, w1, w2]
      at c2 c3 c4 c5 c6 c7 c8 c9 c10 c11 c12 t3 lt ⊢
    refine (follow_value K hC h1 c1 t1 h).bind ?_
    intro v w' s' h'
    refine (follow_set (n := N + 1) K h2 c2 h').2.bind ?_
    rintro ρ' w2 x2 ⟨region, k2, hA⟩
    obtain ⟨x0, k0, h0⟩ := run_jmp K.link.mach (by omega) c3 k2
    refine Follows.pre k0 ?_
    have e1 : (fun ρ w => (cx.get ρ r w).bind fun i w => (evalE cx callF ρ sp w).bind fun z w =>
          (Sem.binaryV cx.fl .LT i z w).bind fun v w => Sem.look v w fun x => .ok (Sem.truth cx.fl x) w) =
        (fun ρ w => ((cx.get ρ r w).bind fun i w => (evalE cx callF ρ sp w).bind fun z w =>
          Sem.binaryV cx.fl .LT i z w).bind fun v w => Sem.look v w fun x => .ok (Sem.truth cx.fl x) w) := by
      funext ρ w
      simp only [Res.bind_assoc]
    rw [e1]
    refine follow_loop (m := N + 1)
      (atTest := StAt g D zi cur below (fr :: outer) (pc + widthOf a + 10 + widthOf b + 16))
      (atJmp := StVal g D zi cur below (fr :: outer) (pc + widthOf a + 10 + widthOf b + 16 + 5 + widthOf z + 1))
      (atBody := StAt g D zi cur below (fr :: outer) (pc + widthOf a + 10)) ?_ ?_ ?_ (N + 1) (Nat.le_refl _)
      ρ' w2 x0 ⟨region, h0, hA⟩
    · rintro ρ w s ⟨region, h, hA⟩
      have hv := hA.vis K.sp K.small
      refine (follow_get (n := N + 1) K.link K.prog h4 c9 h hv).2.bind ?_
      intro i w1 y1 k1
      refine (follow_expr K.link K.prog hC sp _ _ z y1 _ w1 h6 c10 t3 k1 hv.push).bind ?_
      intro v w2 y2 k2
      exact (run_binary (n := N + 1) K.link.mach rfl c11 k2).imp fun v w3 y3 k3 => ⟨region, k3, hA⟩
    · rintro ρ v w s ⟨region, h, hA⟩
      refine (run_tjmp (n := N + 1) K.link.mach (by omega) c12 h).imp ?_
      rintro b' w' s' ⟨rfl, h'⟩
      cases b' with
      | true =>
        refine ⟨⟨region, h', hA⟩, ?_⟩
        rintro rfl
        have h1 := h.pc
        have h2 := h'.pc
        simp only [if_true] at h2
        omega
      | false => exact ⟨region, h', hA⟩
    · rintro ρ w s h
      refine (follow_block K hC body cur _ _ b s ρ _ h3 c4 t2 hl h).bind ?_
      obtain ⟨region, h, hA⟩ := h
      intro f w' s' k3
      have k4 := k3.leave hA
      generalize f.leave ρ = f' at k4
      cases f' with
      | next ρ' =>
        obtain ⟨region', k4, hA'⟩ := k4
        refine (follow_get (n := N + 1) K.link K.prog h4 c5 k4 (hA'.vis K.sp K.small)).2.bind ?_
        intro i w1 y1 j1
        obtain ⟨y2, j2, j3⟩ := run_int K.link.mach c6 j1
        refine Follows.pre j2 ?_
        refine (run_binary (n := N + 1) K.link.mach rfl c7 j3).bind ?_
        intro v w3 y3 j4
        exact (follow_set (n := N + 1) K h5 c8 ⟨region', j4, hA'⟩).2.bind
          fun ρ2 w4 y4 j5 => Follows.ret j5
      | ret v => exact Follows.ret k4
  | .ret t none, cur, si, pc, asm, s, ρ, w, ha, hc, hs, hl, h => by
    cases ha
    obtain ⟨c1, c2⟩ := hc.append
    obtain ⟨region, h, hA⟩ := h
    obtain ⟨s1, k1, k2⟩ := run_none K.link.mach c1 h
    obtain ⟨s2, k3, k4⟩ := follow_ret K c2 ⟨region, k2, hA⟩
    exact ⟨_, s2, k1.trans k3, k4⟩
  | .ret t (some ex), cur, si, pc, asm, s, ρ, w, ha, hc, hs, hl, h => by
    obtain ⟨a, h1, ha⟩ := bind_ok.1 ha
    cases ha
    obtain ⟨c1, c2⟩ := hc.append
    rw [evalS]
    refine (follow_value K hC h1 c1 hs h).bind ?_
    intro v w1 x1 k1
    obtain ⟨s2, k3, k4⟩ := follow_ret K c2 k1
    exact ⟨_, s2, k3, k4⟩

theorem follow_block {e : Env Val Store} {cx : Sem.Ctx} {fa : Str → I32} {sys : List Syscall}
    {g : GenCtx} {D : List Ref} {zi : Ref → Bool} {below : List Val} {fr : Frame}
    {outer : List Frame} {callF : CallF} {N : Nat}
    (K : Within e cx fa sys g D zi below fr) (hC : CallOk e cx N callF) :
    ∀ (ss : List (Stmt Ref)) (cur si pc : Nat) (asm : Asm) (s : St Val Store) (ρ : Vars) (w : State),
      asmB g sys pc si ss = .ok asm → CodeAt e fa pc asm → StrAt e si (strsB ss) →
      Laid g D (offB cur ss).1 → StAt g D zi cur below (fr :: outer) pc ρ w s →
      Follows e (N + 1) s (Done g D zi (offB cur ss).2 below fr outer (pc + widthOf asm))
        (evalB cx callF zi (N + 1) ss ρ w)
  | [], cur, si, pc, asm, s, ρ, w, ha, hc, hs, hl, h => by
    cases ha; exact Follows.ret h
  | st :: ss, cur, si, pc, asm, s, ρ, w, ha, hc, hs, hl, h => by
    obtain ⟨a, h1, ha⟩ := bind_ok.1 ha
    obtain ⟨b, h2, ha⟩ := bind_ok.1 ha
    cases ha
    obtain ⟨c1, c2⟩ := hc.append
    obtain ⟨s1, s2⟩ := StrAt.append hs
    obtain ⟨l1, l2⟩ := Laid.append hl
    rw [evalB, widthOf_append, ← Nat.add_assoc]
    refine (follow_stmt K hC st cur si pc a s ρ w h1 c1 s1 l1 h).bind ?_
    intro f w' s' h'
    cases f with
    | next ρ' => exact follow_block K hC ss _ _ _ b s' ρ' w' h2 c2 s2 l2 h'
    | ret v => exact Follows.ret h'

end

end Ccml
