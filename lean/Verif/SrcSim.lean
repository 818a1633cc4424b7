import Verif.Src
import Verif.Props.Scopes
import Verif.Props.Consts
/-!
The evaluator on the source tree (`Src`) against the evaluator on the annotated tree (`Sem`).
-/
set_option linter.unusedSimpArgs false
set_option linter.unusedSectionVars false
namespace Ccml.Src
open Sem (State Res CallF Vars Slot)
open Props (Names nameE nameEs nameO nameS nameB nameItem nameItems globalNames argNames isVarOf dropNone)

/-- An evaluation that ends as another one does, unless it is undefined. -/
def Follows {α β : Type} (R : α → β → Prop) : Res α → Res β → Prop
  | .undef, _ => True
  | .ok a w, .ok b w' => w = w' ∧ R a b
  | .err x w, .err y w' => x = y ∧ w = w'
  | .fault f, .fault g => f = g
  | .timeout, .timeout => True
  | _, _ => False

theorem Follows.refl {α : Type} (r : Res α) : Follows Eq r r := by
  cases r <;> simp [Follows]

theorem Follows.ok {α β : Type} {R : α → β → Prop} {a : α} {b : β} (w : State) (h : R a b) :
    Follows R (.ok a w) (.ok b w) := ⟨rfl, h⟩

theorem Follows.bind {α β γ δ : Type} {R : α → β → Prop} {S : γ → δ → Prop} {x : Res α} {y : Res β}
    {f : α → State → Res γ} {g : β → State → Res δ} (h : Follows R x y)
    (k : ∀ a b w, R a b → Follows S (f a w) (g b w)) : Follows S (x.bind f) (y.bind g) := by
  cases x <;> cases y <;> simp only [Follows] at h <;> simp only [Res.bind]
  case ok.ok a w b w' => obtain ⟨rfl, h⟩ := h; exact k a b w h
  all_goals first | exact h | trivial

theorem Follows.weaken {α β : Type} {R S : α → β → Prop} {x : Res α} {y : Res β} (h : Follows R x y)
    (k : ∀ a b, R a b → S a b) : Follows S x y := by
  cases x <;> cases y <;> simp only [Follows] at h ⊢
  case ok.ok => exact ⟨h.1, k _ _ h.2⟩
  all_goals exact h

theorem Follows.look {β γ : Type} {S : β → γ → Prop} {v : Val} {w : State} {f : View → Res β} {g : View → Res γ}
    (k : ∀ x, Follows S (f x) (g x)) : Follows S (Sem.look v w f) (Sem.look v w g) := by
  unfold Sem.look
  cases v.view w.mem with
  | ok x => exact k x
  | error f => rfl

/-- Calls that agree. -/
def CallsFollow (cf df : CallF) : Prop := ∀ i args w, Follows Eq (cf i args w) (df i args w)

/-! ### Programs -/

/-- A child of the source against a child of the annotated tree. -/
inductive ItemMatch (cx : Ctx) (i : Nat) : Option (Item Unit) → Option (Item Ref) → Prop
  | missing : ItemMatch cx i none none
  | func {f : FuncDecl Unit} {g : FuncDecl Ref} {k : Nat} : g.args = f.args →
      nameB (isVarOf cx.prog) (argNames f.args ++ globalNames cx.prog) 0 f.body = some (g.body, k) →
      ItemMatch cx i (some (.func f)) (some (.func g))
  | syscall (n : Str) (a : Option Nat) : ItemMatch cx i (some (.syscall n a)) (some (.syscall n a))
  | var {t : Token} {o : Option (Expr Unit)} {o' : Option (Expr Ref)} :
      nameO (globalNames cx.prog).find (isVarOf cx.prog) o = some o' →
      ItemMatch cx i (some (.var t false o)) (some (.var t false (dropNone o')))
  | const {t : Token} {o : Option (Expr Unit)} {o' : Option (Expr Ref)} :
      (∀ v, cx.constVal cx.prog.length i = some v → ∃ e, o' = some e ∧ Sem.literal e = some v) →
      ItemMatch cx i (some (.var t true o)) (some (.var t true o'))

/-- The source with its surroundings against the annotated tree with its surroundings. -/
structure CtxMatch (cx : Ctx) (dx : Sem.Ctx) : Prop where
  fl : dx.fl = cx.fl
  addr : dx.funAddr = cx.funAddr
  table : dx.table = cx.table
  host : dx.host = cx.host
  item : ∀ i, ItemMatch cx i cx.prog[i]? dx.prog[i]?

section
variable {cx : Ctx} {dx : Sem.Ctx} (hM : CtxMatch cx dx)
include hM

theorem CtxMatch.len : dx.prog.length = cx.prog.length := by
  have h1 := hM.item dx.prog.length
  have h2 := hM.item cx.prog.length
  rw [List.getElem?_eq_none (Nat.le_refl dx.prog.length)] at h1
  rw [List.getElem?_eq_none (Nat.le_refl cx.prog.length)] at h2
  generalize ha : cx.prog[dx.prog.length]? = a at h1
  generalize hb : dx.prog[cx.prog.length]? = b at h2
  cases h1
  cases h2
  have := List.getElem?_eq_none_iff.1 ha
  have := List.getElem?_eq_none_iff.1 hb
  omega

/-- Variables that are not constant, of the source. -/
def slotU (x : Item Unit) : Bool := match x with | .var _ false _ => true | _ => false
/-- Variables that are not constant, of the annotated tree. -/
def slotR (x : Item Ref) : Bool := match x with | .var _ false _ => true | _ => false

omit hM in
theorem filter_take {α β : Type} (f : α → Bool) (g : β → Bool) : ∀ (l : List α) (m : List β),
    (∀ i : Nat, (l[i]?.map f) = (m[i]?.map g)) → ∀ i : Nat, ((l.take i).filter f).length = ((m.take i).filter g).length
  | [], [], _, i => by simp
  | [], b :: m, h, i => by have := h 0; simp at this
  | a :: l, [], h, i => by have := h 0; simp at this
  | a :: l, b :: m, h, 0 => by simp
  | a :: l, b :: m, h, i + 1 => by
    have h0 := h 0
    simp only [List.getElem?_cons_zero, Option.map_some, Option.some.injEq] at h0
    have ih := filter_take f g l m (fun j => by simpa using h (j + 1)) i
    simp only [List.take_succ_cons, List.filter_cons, h0]
    split <;> simp [ih]

theorem CtxMatch.slot (i : Nat) : dx.slot i = cx.slot i := by
  refine (filter_take (fun x : Item Ref => match x with | .var _ false _ => true | _ => false)
    (fun x : Item Unit => match x with | .var _ false _ => true | _ => false) dx.prog cx.prog (fun j => ?_) i)
  have := hM.item j
  generalize cx.prog[j]? = a at this
  generalize dx.prog[j]? = b at this
  cases this <;> rfl

theorem CtxMatch.hostIndex (n : Str) : dx.hostIndex n = cx.hostIndex n := by
  unfold Sem.Ctx.hostIndex Ctx.hostIndex
  rw [hM.table]

theorem CtxMatch.hostIndex_fun : dx.hostIndex = cx.hostIndex := funext hM.hostIndex

theorem CtxMatch.funAt (a : I32) : dx.funAt a = cx.funAt a := by
  unfold Sem.Ctx.funAt Ctx.funAt
  rw [hM.len, hM.addr]
  congr 1
  funext i
  have := hM.item i
  generalize cx.prog[i]? = x at this ⊢
  generalize dx.prog[i]? = y at this ⊢
  cases this <;> rfl

/-! ### Names -/

omit hM in
theorem find_globalFrom (p : List (Item Unit)) (n : Str) : ∀ k, Names.find
    (p.mapIdx fun i x => (x.declName, Ref.item (k + i))) n =
      (p.findIdx? fun x => x.declName == n).map fun i => .item (k + i) := by
  induction p with
  | nil => intro k; rfl
  | cons x xs ih =>
    intro k
    have := ih (k + 1)
    unfold Props.Names.find at this ⊢
    simp only [List.mapIdx_cons, List.find?_cons, List.findIdx?_cons]
    cases hx : x.declName == n with
    | true => simp
    | false =>
      have e : (xs.mapIdx fun i x => (x.declName, Ref.item (k + (i + 1)))) =
          xs.mapIdx fun i x => (x.declName, Ref.item (k + 1 + i)) := by
        congr 1
        funext i x
        rw [show k + (i + 1) = k + 1 + i by omega]
      dsimp only
      rw [e, this]
      cases xs.findIdx? fun x => x.declName == n with
      | none => rfl
      | some i => simp only [Option.map_some, Bool.false_eq_true, if_false]; rw [show k + 1 + i = k + (i + 1) by omega]

omit hM in
theorem find_global (cx : Ctx) (n : Str) : (globalNames cx.prog).find n = (cx.global n).map .item := by
  have := find_globalFrom cx.prog n 0
  simp only [Nat.zero_add] at this
  exact this

/-- What is known of a variable on both sides. -/
def SlotRel (x : Option Val) (s : Slot) : Prop :=
  match x with
  | some v => s = .val v
  | none => s.live = true

omit hM in
theorem SlotRel.live {x : Option Val} {s : Slot} (h : SlotRel x s) : s.live = true := by
  cases x with
  | none => exact h
  | some v => rw [show s = .val v from h]; rfl

/-- An argument or one of the first `k` local variables. -/
def Below (k : Nat) : Ref → Prop
  | .item _ => False
  | .arg _ => True
  | .loc j => j < k

omit hM in
theorem Below.mono {k k' : Nat} (h : k ≤ k') {r : Ref} (hr : Below k r) : Below k' r := by
  cases r with
  | loc j => exact Nat.lt_of_lt_of_le hr h
  | _ => exact hr

/-- The variables in scope on both sides; `G` are the names outside of all functions. -/
inductive Bound (G : Names) (k : Nat) (ρ : Vars) : Locals → Names → Prop
  | base : Bound G k ρ [] G
  | cons {n : Str} {x : Option Val} {r : Ref} {env : Locals} {ns : Names} : Below k r → SlotRel x (ρ r) →
      (∀ d ∈ ns, d.2 ≠ r) → Bound G k ρ env ns → Bound G k ρ ((n, x) :: env) ((n, r) :: ns)

section
variable {G : Names} {k : Nat} {ρ : Vars} {env : Locals} {ns : Names}

omit hM in
theorem Bound.mono (h : Bound G k ρ env ns) {k' : Nat} (hk : k ≤ k') : Bound G k' ρ env ns := by
  induction h with
  | base => exact .base
  | cons h1 h2 h3 _ ih => exact .cons (h1.mono hk) h2 h3 ih

omit hM in
theorem Bound.find (h : Bound G k ρ env ns) (n : Str) :
    (∃ x r, env.get n = some x ∧ ns.find n = some r ∧ Below k r ∧ SlotRel x (ρ r)) ∨
      (env.get n = none ∧ ns.find n = G.find n) := by
  induction h with
  | base => exact .inr ⟨rfl, rfl⟩
  | @cons m x r env ns h1 h2 h3 _ ih =>
    unfold Locals.get Props.Names.find at *
    simp only [List.find?_cons]
    cases hm : m == n with
    | true => exact .inl ⟨x, r, rfl, rfl, h1, h2⟩
    | false => exact ih

omit hM in
theorem Bound.congr (h : Bound G k ρ env ns) {ρ' : Vars} (hr : ∀ d ∈ ns, Below k d.2 → ρ' d.2 = ρ d.2) :
    Bound G k ρ' env ns := by
  induction h with
  | base => exact .base
  | cons h1 h2 h3 _ ih =>
    refine .cons h1 ?_ h3 (ih fun d hd hb => hr d (List.mem_cons_of_mem _ hd) hb)
    rw [hr _ (List.mem_cons_self ..) h1]
    exact h2

omit hM in
theorem Names.mem_find {ns : Names} {n : Str} {r : Ref} (h : ns.find n = some r) : ∃ m, (m, r) ∈ ns := by
  unfold Props.Names.find at h
  simp only [Option.map_eq_some_iff] at h
  obtain ⟨⟨m, r'⟩, h1, h2⟩ := h
  exact ⟨m, by cases h2; exact List.mem_of_find?_eq_some h1⟩

omit hM in
theorem Bound.put (h : Bound G k ρ env ns) {n : Str} {x : Option Val} {r : Ref} (h1 : env.get n = some x)
    (h2 : ns.find n = some r) (v : Val) : Bound G k (ρ.set r (.val v)) (env.put n v) ns := by
  induction h with
  | base => cases h1
  | @cons m y r' env ns a1 a2 a3 a4 ih =>
    unfold Locals.get at h1
    unfold Props.Names.find at h2
    simp only [List.find?_cons] at h1 h2
    unfold Locals.put
    cases hm : m == n with
    | true =>
      rw [hm] at h1 h2
      simp only [Option.map_some, Option.some.injEq] at h1 h2
      subst h1; subst h2
      rw [if_pos (by simpa using hm)]
      refine .cons a1 (by simp [SlotRel, Sem.Vars.set]) a3 (a4.congr fun d hd _ => ?_)
      unfold Sem.Vars.set
      rw [if_neg (a3 d hd)]
    | false =>
      rw [hm] at h1 h2
      rw [if_neg (by simpa using hm)]
      obtain ⟨m', hm'⟩ := Names.mem_find (ns := ns) h2
      refine .cons a1 ?_ a3 (ih h1 h2)
      unfold Sem.Vars.set
      rw [if_neg (fun e => a3 _ hm' e.symm)]
      exact a2

omit hM in
theorem Bound.notLoc (h : Bound G k ρ env ns) (hG : ∀ d ∈ G, ∃ i, d.2 = .item i) :
    ∀ d ∈ ns, d.2 ≠ .loc k := by
  induction h with
  | base => intro d hd e; obtain ⟨i, hi⟩ := hG d hd; rw [hi] at e; cases e
  | cons h1 _ _ _ ih =>
    intro d hd
    rcases List.mem_cons.1 hd with rfl | hd
    · intro e
      simp only at e
      rw [e] at h1
      exact absurd h1 (Nat.lt_irrefl _)
    · exact ih d hd

omit hM in
theorem Bound.declare (h : Bound G k ρ env ns) (hG : ∀ d ∈ G, ∃ i, d.2 = .item i) (n : Str) {x : Option Val}
    {s : Slot} (hx : SlotRel x s) : Bound G (k + 1) (ρ.set (.loc k) s) ((n, x) :: env) ((n, .loc k) :: ns) := by
  have hb := h.notLoc hG
  refine .cons (Nat.lt_succ_self k) (by simpa [Sem.Vars.set] using hx) hb ?_
  refine (h.mono (Nat.le_succ k)).congr fun d hd _ => ?_
  unfold Sem.Vars.set
  rw [if_neg (hb d hd)]

omit hM in
theorem Bound.length (h : Bound G k ρ env ns) : ns.length = env.length + G.length := by
  induction h with
  | base => simp
  | cons _ _ _ _ ih => simp [ih]; omega

omit hM in
/-- Leaving a block. -/
theorem Bound.leave (h : Bound G k ρ env ns) {k' : Nat} {ρ' : Vars} {env' : Locals} {new : Names}
    (h' : Bound G k' ρ' env' (new ++ ns)) : Bound G k (ρ.leave ρ') (env.leave env') ns := by
  have hl : env'.length - env.length = new.length := by
    have := h.length
    have := h'.length
    simp only [List.length_append] at this
    omega
  unfold Locals.leave
  rw [hl]
  have hlen := h.length
  have key : Bound G k' ρ' (env'.drop new.length) ns := by
    clear h hl
    induction new generalizing env' with
    | nil => exact h'
    | cons d new ih =>
      simp only [List.cons_append] at h'
      generalize hx : d :: (new ++ ns) = l at h'
      cases h' with
      | base =>
        have := congrArg List.length hx
        simp only [List.length_cons, List.length_append] at this
        omega
      | cons _ _ _ h4 =>
        cases hx
        exact ih h4
  generalize env'.drop new.length = env2 at key
  clear h' hl hlen
  induction h generalizing env2 with
  | base =>
    have := key.length
    have : env2 = [] := List.eq_nil_of_length_eq_zero (by omega)
    subst this
    exact .base
  | @cons m x r env ns h1 h2 h3 h4 ih =>
    have hl4 := h4.length
    generalize hx : (m, r) :: ns = l at key
    cases key with
    | base =>
      have := congrArg List.length hx
      simp only [List.length_cons] at this
      omega
    | cons a1 a2 a3 a4 =>
      cases hx
      refine .cons h1 ?_ h3 (ih _ a4)
      unfold Sem.Vars.leave
      rw [if_pos h2.live]
      exact a2

omit hM in
theorem globals_items (cx : Ctx) : ∀ d ∈ globalNames cx.prog, ∃ i, d.2 = .item i := by
  intro d hd
  unfold Props.globalNames at hd
  rw [List.mem_mapIdx] at hd
  obtain ⟨i, _, rfl⟩ := hd
  exact ⟨i, rfl⟩

theorem item_follows (i : Nat) (w : State) : Follows Eq (cx.item i w) (dx.ident ρ (.item i) w) := by
  have h := hM.item i
  unfold Ctx.item Sem.Ctx.ident
  rw [hM.hostIndex_fun]
  generalize hx : cx.prog[i]? = x at h
  generalize hy : dx.prog[i]? = y at h
  cases h with
  | missing => simp only [hx, hy]; trivial
  | func h1 h2 => simp only [hx, hy, hM.addr]; exact .refl _
  | syscall n a => simp only [hx, hy]; exact .refl _
  | var h1 => simp only [hx, hy, hM.slot]; exact .refl _
  | @const t o o' h1 =>
    simp only [hx, hy]
    cases hv : cx.constVal cx.prog.length i with
    | none => trivial
    | some v =>
      obtain ⟨e, rfl, h3⟩ := h1 v hv
      simp only [h3]
      exact .refl _

theorem ident_follows (hb : Bound (globalNames cx.prog) k ρ env ns) {n : Str} {r : Ref} (hr : ns.find n = some r)
    (w : State) : Follows Eq (cx.ident env n w) (dx.ident ρ r w) := by
  unfold Ctx.ident
  rcases hb.find n with ⟨x, r', h1, h2, h3, h4⟩ | ⟨h1, h2⟩
  · rw [hr] at h2
    cases h2
    rw [h1]
    cases x with
    | none => trivial
    | some v =>
      have h4 : ρ r = .val v := h4
      cases r with
      | item i => exact h3.elim
      | arg i => simp only [Sem.Ctx.ident, h4]; exact .refl _
      | loc i => simp only [Sem.Ctx.ident, h4]; exact .refl _
  · rw [hr, find_global] at h2
    rw [h1]
    cases hg : cx.global n with
    | none => trivial
    | some i =>
      rw [hg] at h2
      cases h2
      exact item_follows hM i w

theorem isVar_eq (i : Nat) : cx.isVar i = match dx.prog[i]? with | some (.var _ false _) => true | _ => false := by
  unfold Ctx.isVar
  have h := hM.item i
  generalize cx.prog[i]? = x at h
  generalize dx.prog[i]? = y at h
  cases h <;> rfl

theorem get_follows (hb : Bound (globalNames cx.prog) k ρ env ns) {n : Str} {r : Ref} (hr : ns.find n = some r)
    (w : State) : Follows Eq (cx.get env n w) (dx.get ρ r w) := by
  have hi := ident_follows hM hb hr w
  unfold Ctx.get
  unfold Ctx.ident at hi
  rcases hb.find n with ⟨x, r', h1, h2, h3, h4⟩ | ⟨h1, h2⟩
  · rw [hr] at h2
    cases h2
    rw [h1] at hi ⊢
    cases x with
    | none => trivial
    | some v =>
      cases r with
      | item i => exact h3.elim
      | arg i => exact hi
      | loc i => exact hi
  · rw [hr, find_global] at h2
    rw [h1] at hi ⊢
    cases hg : cx.global n with
    | none => trivial
    | some i =>
      rw [hg] at h2 hi
      cases h2
      dsimp only at hi ⊢
      rw [isVar_eq hM]
      unfold Sem.Ctx.get
      split
      · rename_i hq
        simp only [hq, if_true]
        exact hi
      · trivial

theorem setItem_eq (i : Nat) (v : Val) (w : State) : cx.setItem i v w =
    if dx.slot i < w.globals.length then .ok () { w with globals := w.globals.set (dx.slot i) v }
    else .err .bad_set_global w := by
  unfold Ctx.setItem
  rw [hM.slot]

theorem set_follows (hb : Bound (globalNames cx.prog) k ρ env ns) {n : Str} {r : Ref} (hr : ns.find n = some r)
    (v : Val) (w : State) : Follows (fun env' ρ' => Bound (globalNames cx.prog) k ρ' env' ns)
      (cx.set env n v w) (dx.set ρ r v w) := by
  unfold Ctx.set
  rcases hb.find n with ⟨x, r', h1, h2, h3, h4⟩ | ⟨h1, h2⟩
  · rw [hr] at h2
    cases h2
    rw [h1]
    have hp := hb.put h1 hr v
    cases r with
    | item i => exact h3.elim
    | arg i => simp only [Sem.Ctx.set, h4.live, if_true]; exact .ok w hp
    | loc i => simp only [Sem.Ctx.set, h4.live, if_true]; exact .ok w hp
  · rw [hr, find_global] at h2
    rw [h1]
    cases hg : cx.global n with
    | none => trivial
    | some i =>
      rw [hg] at h2
      cases h2
      dsimp only
      rw [isVar_eq hM]
      unfold Sem.Ctx.set
      split
      · rename_i hq
        simp only [hq, if_true]
        rw [setItem_eq hM]
        split
        · exact .ok _ hb
        · exact ⟨rfl, rfl⟩
      · trivial

/-! ### Expressions -/

section
variable {cf df : CallF} (hc : CallsFollow cf df)
include hc

theorem apply_follows (v : Val) (args : List Val) (w : State) :
    Follows Eq (cx.apply cf v args w) (dx.apply df v args w) := by
  cases v with
  | func a =>
    unfold Ctx.apply Sem.Ctx.apply
    have hf : dx.funAt = cx.funAt := funext hM.funAt
    rw [hf]
    dsimp only
    cases cx.funAt a with
    | none => trivial
    | some i =>
      have h := hM.item i
      dsimp only
      generalize cx.prog[i]? = x at h ⊢
      generalize dx.prog[i]? = y at h ⊢
      cases h with
      | @func f g _ h1 h2 =>
        dsimp only
        rw [h1]
        split
        · exact hc ..
        · exact .refl _
      | _ => trivial
  | syscall j =>
    unfold Ctx.apply Sem.Ctx.apply
    rw [hM.table, hM.host]
    dsimp only
    split
    · exact .refl _
    · cases cx.table[j.toInt.toNat]? with
      | none => exact .refl _
      | some s => cases s.call <;> exact .refl _
  | _ => exact .refl _

variable (hb : Bound (globalNames cx.prog) k ρ env ns) {var : Ref → Bool}
include hb

mutual
theorem evalE_follows : ∀ (e : Expr Unit) {e' : Expr Ref} (_ : nameE ns.find var e = some e') (w : State),
    Follows Eq (evalE cx cf env e w) (Sem.evalE dx df ρ e' w)
  | .ident t _, e', h, w => by
    rw [nameE, Option.map_eq_some_iff] at h
    obtain ⟨r, h1, rfl⟩ := h
    rw [evalE, Sem.evalE]
    exact ident_follows hM hb h1 w
  | .int .., e', h, w => by rw [nameE] at h; cases h; rw [evalE, Sem.evalE]; exact .refl _
  | .float .., e', h, w => by rw [nameE] at h; cases h; rw [evalE, Sem.evalE]; exact .refl _
  | .str .., e', h, w => by rw [nameE] at h; cases h; rw [evalE, Sem.evalE]; exact .refl _
  | .none _, e', h, w => by rw [nameE] at h; cases h; rw [evalE, Sem.evalE]; exact .refl _
  | .member t m _, e', h, w => by
    rw [nameE, Option.map_eq_some_iff] at h
    obtain ⟨r, h1, rfl⟩ := h
    rw [evalE, Sem.evalE]
    refine (get_follows hM hb (Option.filter_eq_some_iff.1 h1).1 w).bind fun a b w h => ?_
    subst h
    exact .refl _
  | .arr t es, e', h, w => by
    rw [nameE, Option.map_eq_some_iff] at h
    obtain ⟨es', h1, rfl⟩ := h
    rw [evalE, Sem.evalE]
    refine (evalEs_follows es h1 w).bind fun a b w h => ?_
    subst h
    exact .refl _
  | .deref t l i, e', h, w => by
    rw [nameE, Option.bind_eq_some_iff] at h
    obtain ⟨l', h1, h⟩ := h
    rw [Option.map_eq_some_iff] at h
    obtain ⟨i', h2, rfl⟩ := h
    rw [evalE, Sem.evalE]
    refine (evalE_follows i h2 w).bind fun a b w h => ?_
    subst h
    refine (evalE_follows l h1 w).bind fun a b w h => ?_
    subst h
    exact .refl _
  | .call t c as, e', h, w => by
    rw [nameE, Option.bind_eq_some_iff] at h
    obtain ⟨c', h1, h⟩ := h
    rw [Option.map_eq_some_iff] at h
    obtain ⟨as', h2, rfl⟩ := h
    rw [evalE, Sem.evalE]
    refine (evalEs_follows as h2 w).bind fun a b w h => ?_
    subst h
    refine (evalE_follows c h1 w).bind fun a b w h => ?_
    subst h
    exact apply_follows hM hc ..
  | .bin op l r, e', h, w => by
    rw [nameE, Option.bind_eq_some_iff] at h
    obtain ⟨l', h1, h⟩ := h
    rw [Option.map_eq_some_iff] at h
    obtain ⟨r', h2, rfl⟩ := h
    rw [evalE, Sem.evalE]
    refine (evalE_follows l h1 w).bind fun a b w h => ?_
    subst h
    refine (evalE_follows r h2 w).bind fun a b w h => ?_
    subst h
    rw [hM.fl]
    exact .refl _
  | .un op a, e', h, w => by
    rw [nameE, Option.map_eq_some_iff] at h
    obtain ⟨a', h1, rfl⟩ := h
    rw [evalE, Sem.evalE]
    refine (evalE_follows a h1 w).bind fun a b w h => ?_
    subst h
    rw [hM.fl]
    exact .refl _
theorem evalEs_follows : ∀ (es : List (Expr Unit)) {es' : List (Expr Ref)} (_ : nameEs ns.find var es = some es')
    (w : State), Follows Eq (evalEs cx cf env es w) (Sem.evalEs dx df ρ es' w)
  | [], es', h, w => by rw [nameEs] at h; cases h; rw [evalEs, Sem.evalEs]; exact .refl _
  | e :: es, es', h, w => by
    rw [nameEs, Option.bind_eq_some_iff] at h
    obtain ⟨e', h1, h⟩ := h
    rw [Option.map_eq_some_iff] at h
    obtain ⟨es', h2, rfl⟩ := h
    rw [evalEs, Sem.evalEs]
    refine (evalE_follows e h1 w).bind fun a b w h => ?_
    subst h
    refine (evalEs_follows es h2 w).bind fun a b w h => ?_
    subst h
    exact .refl _
end

end

/-! ### Statements -/

/-- How two statements leave their function or go on. -/
def FlowRel (G : Names) (k : Nat) (ns : Names) : Flow → Sem.Flow → Prop
  | .next env, .next ρ => Bound G k ρ env ns
  | .ret v, .ret v' => v = v'
  | _, _ => False

omit hM in
theorem FlowRel.mono {G : Names} {k k' : Nat} (hk : k ≤ k') {ns : Names} {a : Flow} {b : Sem.Flow}
    (h : FlowRel G k ns a b) : FlowRel G k' ns a b := by
  cases a <;> cases b <;> first | exact Bound.mono h hk | exact h

omit hM in
theorem FlowRel.leave {G : Names} {k k' : Nat} {ns new : Names} {ρ : Vars} {env : Locals}
    (hb : Bound G k ρ env ns) {a : Flow} {b : Sem.Flow} (h : FlowRel G k' (new ++ ns) a b) :
    FlowRel G k ns (a.leave env) (b.leave ρ) := by
  cases a <;> cases b <;> first | exact Bound.leave hb h | exact h

omit hM in
theorem FlowRel.andThen {G : Names} {k k' : Nat} {ns ns' : Names} {a : Flow} {b : Sem.Flow}
    (h : FlowRel G k ns a b) {f : Locals → State → Res Flow} {g : Vars → State → Res Sem.Flow} (w : State)
    (hf : ∀ env ρ, Bound G k ρ env ns → Follows (FlowRel G k' ns') (f env w) (g ρ w)) :
    Follows (FlowRel G k' ns') (a.andThen w f) (b.andThen w g) := by
  cases a <;> cases b
  · exact hf _ _ h
  · exact h.elim
  · exact h.elim
  · exact ⟨rfl, h⟩

omit hM in
theorem loop_follows {G : Names} {k : Nat} {ns : Names} {test : Locals → State → Res Bool}
    {body : Locals → State → Res Flow} {test' : Vars → State → Res Bool} {body' : Vars → State → Res Sem.Flow}
    (ht : ∀ env ρ w, Bound G k ρ env ns → Follows Eq (test env w) (test' ρ w))
    (hbd : ∀ env ρ w, Bound G k ρ env ns → Follows (FlowRel G k ns) (body env w) (body' ρ w)) :
    ∀ (n : Nat) {env : Locals} {ρ : Vars} (w : State), Bound G k ρ env ns →
      Follows (FlowRel G k ns) (loop test body n env w) (Sem.loop test' body' n ρ w)
  | 0, _, _, _, _ => trivial
  | n + 1, env, ρ, w, hb => by
    rw [loop, Sem.loop]
    refine (ht env ρ w hb).bind fun a b w h => ?_
    subst h
    split
    · refine (hbd env ρ w hb).bind fun a b w h => ?_
      exact h.andThen w fun env ρ hb => loop_follows ht hbd n w hb
    · exact .ok w hb

omit hM in
mutual
theorem nameS_ext (var : Ref → Bool) : ∀ (s : Stmt Unit) {ns : Names} {k : Nat} {s' : Stmt Ref} {ns' : Names} {k' : Nat},
    nameS var ns k s = some (s', ns', k') → k ≤ k' ∧ ∃ new, ns' = new ++ ns
  | .var t _ init, ns, k, s', ns', k', h => by
    rw [nameS, Option.map_eq_some_iff] at h
    obtain ⟨e, _, h⟩ := h
    cases h
    exact ⟨Nat.le_succ k, [_], rfl⟩
  | .assign t _ e, ns, k, s', ns', k', h => by
    rw [nameS, Option.bind_eq_some_iff] at h
    obtain ⟨e, _, h⟩ := h
    rw [Option.map_eq_some_iff] at h
    obtain ⟨r, _, h⟩ := h
    cases h
    exact ⟨Nat.le_refl k, [], rfl⟩
  | .assignArr t _ i e, ns, k, s', ns', k', h => by
    rw [nameS, Option.bind_eq_some_iff] at h
    obtain ⟨i, _, h⟩ := h
    rw [Option.bind_eq_some_iff] at h
    obtain ⟨e, _, h⟩ := h
    rw [Option.map_eq_some_iff] at h
    obtain ⟨r, _, h⟩ := h
    cases h
    exact ⟨Nat.le_refl k, [], rfl⟩
  | .assignMem t m _ e, ns, k, s', ns', k', h => by
    rw [nameS, Option.bind_eq_some_iff] at h
    obtain ⟨e, _, h⟩ := h
    rw [Option.map_eq_some_iff] at h
    obtain ⟨r, _, h⟩ := h
    cases h
    exact ⟨Nat.le_refl k, [], rfl⟩
  | .call t c as, ns, k, s', ns', k', h => by
    rw [nameS, Option.bind_eq_some_iff] at h
    obtain ⟨e, _, h⟩ := h
    rw [Option.map_eq_some_iff] at h
    obtain ⟨r, _, h⟩ := h
    cases h
    exact ⟨Nat.le_refl k, [], rfl⟩
  | .ifS t c thn he els, ns, k, s', ns', k', h => by
    rw [nameS, Option.bind_eq_some_iff] at h
    obtain ⟨c, _, h⟩ := h
    rw [Option.bind_eq_some_iff] at h
    obtain ⟨⟨b1, k1⟩, h1, h⟩ := h
    rw [Option.map_eq_some_iff] at h
    obtain ⟨⟨b2, k2⟩, h2, h⟩ := h
    cases h
    exact ⟨Nat.le_trans (nameB_ext var thn h1) (nameB_ext var els h2), [], rfl⟩
  | .whileS t c body, ns, k, s', ns', k', h => by
    rw [nameS, Option.bind_eq_some_iff] at h
    obtain ⟨c, _, h⟩ := h
    rw [Option.map_eq_some_iff] at h
    obtain ⟨⟨b2, k2⟩, h2, h⟩ := h
    cases h
    exact ⟨nameB_ext var body h2, [], rfl⟩
  | .forS t n _ a b body, ns, k, s', ns', k', h => by
    rw [nameS, Option.bind_eq_some_iff] at h
    obtain ⟨r, _, h⟩ := h
    rw [Option.bind_eq_some_iff] at h
    obtain ⟨a, _, h⟩ := h
    rw [Option.bind_eq_some_iff] at h
    obtain ⟨b, _, h⟩ := h
    rw [Option.map_eq_some_iff] at h
    obtain ⟨⟨b2, k2⟩, h2, h⟩ := h
    cases h
    exact ⟨nameB_ext var body h2, [], rfl⟩
  | .ret t e, ns, k, s', ns', k', h => by
    rw [nameS, Option.map_eq_some_iff] at h
    obtain ⟨e, _, h⟩ := h
    cases h
    exact ⟨Nat.le_refl k, [], rfl⟩
theorem nameB_ext (var : Ref → Bool) : ∀ (ss : List (Stmt Unit)) {ns : Names} {k : Nat} {ss' : List (Stmt Ref)} {k' : Nat},
    nameB var ns k ss = some (ss', k') → k ≤ k'
  | [], ns, k, ss', k', h => by rw [nameB] at h; cases h; exact Nat.le_refl k
  | s :: ss, ns, k, ss', k', h => by
    rw [nameB, Option.bind_eq_some_iff] at h
    obtain ⟨⟨s1, ns1, k1⟩, h1, h⟩ := h
    rw [Option.map_eq_some_iff] at h
    obtain ⟨⟨b2, k2⟩, h2, h⟩ := h
    cases h
    exact Nat.le_trans (nameS_ext var s h1).1 (nameB_ext var ss h2)
end

section
variable {cf df : CallF} (hc : CallsFollow cf df) {var : Ref → Bool} (zi : Ref → Bool) (n : Nat)
include hc

mutual
theorem evalS_follows : ∀ (s : Stmt Unit) {ns : Names} {k : Nat} {s' : Stmt Ref} {ns' : Names} {k' : Nat}
    {env : Locals} {ρ : Vars} (_ : nameS var ns k s = some (s', ns', k'))
    (_ : Bound (globalNames cx.prog) k ρ env ns) (w : State),
    Follows (FlowRel (globalNames cx.prog) k' ns') (evalS cx cf n s env w) (Sem.evalS dx df zi n s' ρ w)
  | .var t _ none, ns, k, s', ns', k', env, ρ, h, hb, w => by
    rw [nameS, Option.map_eq_some_iff] at h
    obtain ⟨e, h1, h⟩ := h
    cases h
    cases h1
    rw [evalS, Sem.evalS]
    have key : ∀ s : Slot, s.live = true → Follows (FlowRel (globalNames cx.prog) (k + 1) ((t.str, .loc k) :: ns))
        (.ok (.next ((t.str, none) :: env)) w) (.ok (.next (ρ.set (.loc k) s)) w) :=
      fun s hs => .ok w (hb.declare (globals_items cx) t.str hs)
    split
    · split
      · exact key _ rfl
      · exact key _ rfl
    · exact key _ rfl
  | .var t _ (some e), ns, k, s', ns', k', env, ρ, h, hb, w => by
    rw [nameS, Option.map_eq_some_iff] at h
    obtain ⟨e', h1, h⟩ := h
    cases h
    rw [nameO, Option.map_eq_some_iff] at h1
    obtain ⟨e1, h1, rfl⟩ := h1
    rw [evalS, Sem.evalS]
    refine (evalE_follows hM hc hb e h1 w).bind fun a b w h => ?_
    subst h
    exact .ok w (hb.declare (globals_items cx) t.str rfl)
  | .assign t _ e, ns, k, s', ns', k', env, ρ, h, hb, w => by
    rw [nameS, Option.bind_eq_some_iff] at h
    obtain ⟨e', h1, h⟩ := h
    rw [Option.map_eq_some_iff] at h
    obtain ⟨r, h2, h⟩ := h
    cases h
    rw [evalS, Sem.evalS]
    refine (evalE_follows hM hc hb e h1 w).bind fun a b w h => ?_
    subst h
    exact (set_follows hM hb (Option.filter_eq_some_iff.1 h2).1 a w).bind fun a b w h => .ok w h
  | .assignArr t _ i e, ns, k, s', ns', k', env, ρ, h, hb, w => by
    rw [nameS, Option.bind_eq_some_iff] at h
    obtain ⟨i', h0, h⟩ := h
    rw [Option.bind_eq_some_iff] at h
    obtain ⟨e', h1, h⟩ := h
    rw [Option.map_eq_some_iff] at h
    obtain ⟨r, h2, h⟩ := h
    cases h
    rw [evalS, Sem.evalS]
    refine (evalE_follows hM hc hb e h1 w).bind fun a b w h => ?_
    subst h
    refine (evalE_follows hM hc hb i h0 w).bind fun a b w h => ?_
    subst h
    refine (get_follows hM hb (Option.filter_eq_some_iff.1 h2).1 w).bind fun a b w h => ?_
    subst h
    exact (Follows.refl _).bind fun a b w h => .ok w hb
  | .assignMem t m _ e, ns, k, s', ns', k', env, ρ, h, hb, w => by
    rw [nameS, Option.bind_eq_some_iff] at h
    obtain ⟨e', h1, h⟩ := h
    rw [Option.map_eq_some_iff] at h
    obtain ⟨r, h2, h⟩ := h
    cases h
    rw [evalS, Sem.evalS]
    refine (evalE_follows hM hc hb e h1 w).bind fun a b w h => ?_
    refine (get_follows hM hb (Option.filter_eq_some_iff.1 h2).1 w).bind fun a b w h => ?_
    exact ⟨rfl, rfl⟩
  | .call t c as, ns, k, s', ns', k', env, ρ, h, hb, w => by
    rw [nameS, Option.bind_eq_some_iff] at h
    obtain ⟨e', h1, h⟩ := h
    rw [Option.map_eq_some_iff] at h
    obtain ⟨r, h2, h⟩ := h
    cases h
    rw [evalS, Sem.evalS]
    refine (evalEs_follows hM hc hb as h2 w).bind fun a b w h => ?_
    subst h
    refine (evalE_follows hM hc hb c h1 w).bind fun a b w h => ?_
    subst h
    exact (apply_follows hM hc _ _ w).bind fun a b w h => .ok w hb
  | .ifS t c thn he els, ns, k, s', ns', k', env, ρ, h, hb, w => by
    rw [nameS, Option.bind_eq_some_iff] at h
    obtain ⟨c', h0, h⟩ := h
    rw [Option.bind_eq_some_iff] at h
    obtain ⟨⟨b1, k1⟩, h1, h⟩ := h
    rw [Option.map_eq_some_iff] at h
    obtain ⟨⟨b2, k2⟩, h2, h⟩ := h
    cases h
    have l1 := nameB_ext var thn h1
    have l2 := nameB_ext var els h2
    rw [evalS, Sem.evalS]
    refine (evalE_follows hM hc hb c h0 w).bind fun a b w h => ?_
    subst h
    refine .look fun x => ?_
    rw [hM.fl]
    split
    · refine (evalB_follows thn h1 hb w).bind fun a b w h => ?_
      obtain ⟨kz, new, h⟩ := h
      exact .ok w ((h.leave hb).mono (Nat.le_trans l1 l2))
    · split
      · refine (evalB_follows els h2 (hb.mono l1) w).bind fun a b w h => ?_
        obtain ⟨kz, new, h⟩ := h
        exact .ok w ((h.leave hb).mono (Nat.le_trans l1 l2))
      · exact .ok w (hb.mono (Nat.le_trans l1 l2))
  | .whileS t c body, ns, k, s', ns', k', env, ρ, h, hb, w => by
    rw [nameS, Option.bind_eq_some_iff] at h
    obtain ⟨c', h0, h⟩ := h
    rw [Option.map_eq_some_iff] at h
    obtain ⟨⟨b2, k2⟩, h2, h⟩ := h
    cases h
    have l2 := nameB_ext var body h2
    rw [evalS, Sem.evalS]
    refine Follows.weaken (loop_follows (G := globalNames cx.prog) (k := k) (ns := ns) ?_ ?_ n w hb)
      fun a b h => h.mono l2
    · intro env ρ w hb
      refine (evalE_follows hM hc hb c h0 w).bind fun a b w h => ?_
      subst h
      rw [hM.fl]
      exact .look fun x => .refl _
    · intro env ρ w hb
      refine (evalB_follows body h2 hb w).bind fun a b w h => ?_
      obtain ⟨kz, new, h⟩ := h
      exact .ok w (h.leave hb)
  | .forS t i _ a b body, ns, k, s', ns', k', env, ρ, h, hb, w => by
    rw [nameS, Option.bind_eq_some_iff] at h
    obtain ⟨r, hr, h⟩ := h
    rw [Option.bind_eq_some_iff] at h
    obtain ⟨a', ha, h⟩ := h
    rw [Option.bind_eq_some_iff] at h
    obtain ⟨b', hb', h⟩ := h
    rw [Option.map_eq_some_iff] at h
    obtain ⟨⟨b2, k2⟩, h2, h⟩ := h
    cases h
    have hr := (Option.filter_eq_some_iff.1 hr).1
    have l2 := nameB_ext var body h2
    rw [evalS, Sem.evalS]
    refine (evalE_follows hM hc hb a ha w).bind fun a b w h => ?_
    subst h
    refine (set_follows hM hb hr a w).bind fun env ρ w hb => ?_
    refine Follows.weaken (loop_follows (G := globalNames cx.prog) (k := k) (ns := ns) ?_ ?_ n w hb)
      fun a b h => h.mono l2
    · intro env ρ w hb
      refine (get_follows hM hb hr w).bind fun a b w h => ?_
      subst h
      refine (evalE_follows hM hc hb _ hb' w).bind fun a b w h => ?_
      subst h
      rw [hM.fl]
      exact (Follows.refl _).bind fun a b w h => by subst h; exact .refl _
    · intro env ρ w hb
      refine (evalB_follows body h2 hb w).bind fun a b w h => ?_
      obtain ⟨kz, new, h⟩ := h
      refine (h.leave hb).andThen w fun env ρ hb => ?_
      refine (get_follows hM hb hr w).bind fun a b w h => ?_
      subst h
      rw [hM.fl]
      refine (Follows.refl _).bind fun a b w h => ?_
      subst h
      exact (set_follows hM hb hr a w).bind fun env ρ w hb => .ok w hb
  | .ret t none, ns, k, s', ns', k', env, ρ, h, hb, w => by
    rw [nameS, Option.map_eq_some_iff] at h
    obtain ⟨e, h1, h⟩ := h
    cases h
    cases h1
    rw [evalS, Sem.evalS]
    exact .ok w rfl
  | .ret t (some e), ns, k, s', ns', k', env, ρ, h, hb, w => by
    rw [nameS, Option.map_eq_some_iff] at h
    obtain ⟨e', h1, h⟩ := h
    cases h
    rw [nameO, Option.map_eq_some_iff] at h1
    obtain ⟨e1, h1, rfl⟩ := h1
    rw [evalS, Sem.evalS]
    refine (evalE_follows hM hc hb e h1 w).bind fun a b w h => ?_
    exact .ok w h
theorem evalB_follows : ∀ (ss : List (Stmt Unit)) {ns : Names} {k : Nat} {ss' : List (Stmt Ref)} {k' : Nat}
    {env : Locals} {ρ : Vars} (_ : nameB var ns k ss = some (ss', k'))
    (_ : Bound (globalNames cx.prog) k ρ env ns) (w : State),
    Follows (fun a b => ∃ kz new, FlowRel (globalNames cx.prog) kz (new ++ ns) a b)
      (evalB cx cf n ss env w) (Sem.evalB dx df zi n ss' ρ w)
  | [], ns, k, ss', k', env, ρ, h, hb, w => by
    rw [nameB] at h
    cases h
    rw [evalB, Sem.evalB]
    exact .ok w ⟨k, [], hb⟩
  | s :: ss, ns, k, ss', k', env, ρ, h, hb, w => by
    rw [nameB, Option.bind_eq_some_iff] at h
    obtain ⟨⟨s1, ns1, k1⟩, h1, h⟩ := h
    rw [Option.map_eq_some_iff] at h
    obtain ⟨⟨b2, k2⟩, h2, h⟩ := h
    cases h
    obtain ⟨l1, new, rfl⟩ := nameS_ext var s h1
    rw [evalB, Sem.evalB]
    refine (evalS_follows s h1 hb w).bind fun a b w h => ?_
    cases a <;> cases b
    · refine Follows.weaken (evalB_follows ss h2 h w) fun a b h => ?_
      obtain ⟨kz, new', h⟩ := h
      exact ⟨kz, new' ++ new, by rw [List.append_assoc]; exact h⟩
    · exact h.elim
    · exact h.elim
    · exact .ok w ⟨0, [], h⟩
end
end

/-! ### Calls and starting a program -/

omit hM in
theorem params_boundFrom {G : Names} {ρ : Vars} : ∀ (ts : List Token) (vs : List Val) (i : Nat) {env : Locals} {ns : Names},
    ts.length = vs.length → Bound G 0 ρ env ns → (∀ d ∈ ns, ∀ j, i ≤ j → d.2 ≠ .arg j) →
    (∀ (j : Nat) v, vs[j]? = some v → ρ (.arg (i + j)) = .val v) →
    Bound G 0 ρ ((List.zipWith (fun t v => (t.str, some v)) ts vs).reverse ++ env)
      ((ts.mapIdx fun j t => (t.str, Ref.arg (i + j))).reverse ++ ns)
  | [], [], _, _, _, _, hb, _, _ => hb
  | t :: ts, v :: vs, i, env, ns, hl, hb, hn, hv => by
    simp only [List.zipWith_cons_cons, List.mapIdx_cons, List.reverse_cons, List.append_assoc, List.singleton_append]
    have e : (fun (j : Nat) (t : Token) => (t.str, Ref.arg (i + (j + 1)))) = fun j t => (t.str, Ref.arg (i + 1 + j)) := by
      funext j t; rw [show i + (j + 1) = i + 1 + j by omega]
    rw [e]
    refine params_boundFrom ts vs (i + 1) (by simpa using hl) ?_ ?_ ?_
    · exact .cons trivial (hv 0 v rfl) (fun d hd => hn d hd i (Nat.le_refl i)) hb
    · intro d hd j hj
      rcases List.mem_cons.1 hd with rfl | hd
      · intro h
        cases h
        omega
      · exact hn d hd j (by omega)
    · intro j v hj
      rw [show i + 1 + j = i + (j + 1) by omega]
      exact hv (j + 1) v hj
  | [], _ :: _, _, _, _, hl, _, _, _ => by cases hl
  | _ :: _, [], _, _, _, hl, _, _, _ => by cases hl

omit hM in
theorem params_bound (cx : Ctx) (ts : List Token) (vs : List Val) (hl : vs.length = ts.length) :
    Bound (globalNames cx.prog) 0 (Sem.params vs) (params ts vs) (argNames ts ++ globalNames cx.prog) := by
  have := params_boundFrom (G := globalNames cx.prog) (ρ := Sem.params vs) ts vs 0 hl.symm .base
    (fun d hd j _ h => by obtain ⟨i, hi⟩ := globals_items cx d hd; rw [hi] at h; cases h)
    (fun j v hj => by simp only [Nat.zero_add, Sem.params, hj])
  simp only [List.append_nil, Nat.zero_add] at this
  exact this

/-- Calls on the source tree follow those on the annotated tree. -/
theorem callFn_follows (zi : Nat → Ref → Bool) : ∀ n, CallsFollow (callFn cx n) (Sem.callFn dx zi n)
  | 0 => fun _ _ _ => trivial
  | n + 1 => fun i args w => by
    rw [callFn, Sem.callFn]
    have h := hM.item i
    generalize cx.prog[i]? = x at h ⊢
    generalize dx.prog[i]? = y at h ⊢
    cases h with
    | @func f g k h1 h2 =>
      dsimp only
      rw [h1]
      split
      · rename_i hl
        refine (evalB_follows hM (callFn_follows zi n) (zi i) (n + 1) f.body h2 (params_bound cx f.args args hl) w).bind
          fun a b w h => ?_
        obtain ⟨kz, new, h⟩ := h
        refine .ok w ?_
        cases a <;> cases b <;> first | rfl | exact h | exact h.elim
      · trivial
    | _ => trivial

omit hM in
theorem dropNone_none (t : Option Token) : dropNone (some (Expr.none t : Expr Ref)) = none := rfl

theorem initVars_follows {cf df : CallF} (hc : CallsFollow cf df) : ∀ (xs : List (Item Unit)) (ys : List (Item Ref)) (i : Nat),
    (∀ j : Nat, cx.prog[i + j]? = xs[j]?) → (∀ j : Nat, dx.prog[i + j]? = ys[j]?) → ∀ w,
      Follows Eq (initVars cx cf i xs w) (Sem.initVars dx df i ys w)
  | [], ys, i, hx, hy, w => by
    have h := hM.item i
    have h1 := hx 0
    have h2 := hy 0
    rw [Nat.add_zero] at h1 h2
    rw [h1, h2] at h
    cases ys with
    | nil => rw [initVars, Sem.initVars]; exact .refl _
    | cons y ys => cases h
  | x :: xs, ys, i, hx, hy, w => by
    have h := hM.item i
    have h1 := hx 0
    have h2 := hy 0
    rw [Nat.add_zero] at h1 h2
    rw [h1, h2] at h
    cases ys with
    | nil => cases h
    | cons y ys =>
      have ih := initVars_follows hc xs ys (i + 1)
        (fun j => by rw [show i + 1 + j = i + (j + 1) by omega]; exact hx (j + 1))
        (fun j => by rw [show i + 1 + j = i + (j + 1) by omega]; exact hy (j + 1))
      simp only [List.getElem?_cons_zero] at h h1 h2
      cases h with
      | func _ _ => rw [initVars, Sem.initVars]; exact ih w; all_goals simp
      | syscall _ _ => rw [initVars, Sem.initVars]; exact ih w; all_goals simp
      | const _ => rw [initVars, Sem.initVars]; exact ih w; all_goals simp
      | @var t o o' ho =>
        cases o with
        | none =>
          cases ho
          show Follows Eq (initVars cx cf i (.var t false none :: xs) w) (Sem.initVars dx df i (.var t false none :: ys) w)
          rw [initVars, Sem.initVars]
          exact ih w
          all_goals simp
        | some e =>
          rw [nameO, Option.map_eq_some_iff] at ho
          obtain ⟨e', he, rfl⟩ := ho
          have key : ∀ e', nameE (globalNames cx.prog).find (isVarOf cx.prog) e = some e' →
              dx.prog[i]? = some (.var t false (some e')) →
              Follows Eq ((evalE cx cf [] e w).bind fun v w => (cx.setItem i v w).bind fun _ w => initVars cx cf (i + 1) xs w)
                ((Sem.evalE dx df (fun _ => .fresh) e' w).bind fun v w =>
                  (dx.set (fun _ => .fresh) (.item i) v w).bind fun _ w => Sem.initVars dx df (i + 1) ys w) := by
            intro e' he hd
            refine (evalE_follows hM hc (k := 0) .base e he w).bind fun a b w h => ?_
            subst h
            unfold Sem.Ctx.set
            simp only [hd]
            rw [setItem_eq hM]
            split
            · exact ih _
            · exact ⟨rfl, rfl⟩
          cases e with
          | none t' =>
            rw [nameE] at he
            cases he
            show Follows Eq (initVars cx cf i (.var t false (some (.none t')) :: xs) w)
              (Sem.initVars dx df i (.var t false none :: ys) w)
            rw [initVars, Sem.initVars]
            exact ih w
          | _ =>
            have hn : dropNone (some e') = some e' := by
              cases e' with
              | none t' => simp [nameE, Option.map_eq_some_iff, Option.bind_eq_some_iff] at he
              | _ => rfl
            rw [hn] at h2 ⊢
            rw [initVars, Sem.initVars]
            exact key _ he h2
            all_goals simp

/-- Starting a program on the source tree follows starting it on the annotated tree. -/
theorem startUp_follows (zi : Nat → Ref → Bool) (n : Nat) (w : State) :
    Follows Eq (startUp cx n w) (Sem.startUp dx zi n w) := by
  unfold startUp Sem.startUp
  rw [hM.slot, hM.len]
  exact initVars_follows hM (callFn_follows hM zi n) _ _ 0 (fun j => by rw [Nat.zero_add])
    (fun j => by rw [Nat.zero_add]) _
end
end
end Ccml.Src
