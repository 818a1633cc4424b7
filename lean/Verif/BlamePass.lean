import Verif.TokFacts
import Verif.BlameSaid
/-!
The lines of the messages of the checks and of the optimizer (proof infrastructure).
-/
namespace Ccml.Blame
open Toks

variable {α β D : Type} {T : Token → Prop}

/-- A pass whose messages are about tokens with `T`. -/
def Fine (T : Token → Prop) (x : Comp α) : Prop := ∀ e, x = .error (.err e) → Said T e

theorem Fine.ok {a : α} : Fine T (.ok a : Comp α) := nofun
theorem Fine.fault {f : Fault} : Fine T (.error (.fault f) : Comp α) := nofun
theorem Fine.cFault {f : Fault} : Fine T (cFault f : Comp α) := nofun
theorem Fine.lift {o : Out α} : Fine T (liftC o) := by
  unfold liftC
  split <;> nofun

theorem Fine.of {x : Comp α} {s : Stop} (h : x = .error s) (hx : Fine T x) : Fine T (.error s : Comp β) := by
  intro e he
  cases he
  exact hx e h

theorem Fine.errTok {pre post : String} {t : Token} (h : T t) (hq : Quotes (str pre) (str post)) :
    Fine T (errTok t.line pre t post : Comp α) := fun _ he => errTok_said h rfl hq he

theorem Fine.target {en : AnnEnv} {ss : List Scope} {t : Token} {bad : Token → Comp Ref} (h : Fine T (bad t)) :
    Fine T (en.target ss t bad) := by
  unfold AnnEnv.target
  split
  · exact h
  · split
    · exact Fine.ok
    · exact h

/-- Go through a pass. -/
macro "fine" : tactic => `(tactic| repeat' (first
  | assumption
  | exact Fine.ok | exact Fine.fault | exact Fine.cFault | exact Fine.lift | exact Fine.errTok (by assumption) (by decide +kernel)
  | refine Fine.of ‹_ = Except.error _› ?_
  | split))

/-! ### Naming -/

mutual
theorem annE_fine {lk : Look} : ∀ {e : Expr Unit}, E T e → Fine T (annE lk e)
  | .ident t _, hs => by
    simp only [E] at hs
    unfold annE unknownIdentifier; fine
  | .int .., _ => by unfold annE; fine
  | .float .., _ => by unfold annE; fine
  | .str .., _ => by unfold annE; fine
  | .none .., _ => by unfold annE; fine
  | .member t m _, hs => by
    simp only [E] at hs
    obtain ⟨h1, h2⟩ := hs
    unfold annE unknownIdentifier; fine
  | .arr t es, hs => by
    simp only [E] at hs
    have h1 := annEs_fine (lk := lk) hs.2
    unfold annE; fine
  | .deref t l i, hs => by
    simp only [E] at hs
    have h1 := annE_fine (lk := lk) hs.2.1
    have h2 := annE_fine (lk := lk) hs.2.2
    unfold annE; fine
  | .call t c as, hs => by
    simp only [E] at hs
    have h1 := annE_fine (lk := lk) hs.2.1
    have h2 := annEs_fine (lk := lk) hs.2.2
    unfold annE; fine
  | .bin op l r, hs => by
    simp only [E] at hs
    have h1 := annE_fine (lk := lk) hs.2.1
    have h2 := annE_fine (lk := lk) hs.2.2
    unfold annE; fine
  | .un op a, hs => by
    simp only [E] at hs
    have h1 := annE_fine (lk := lk) hs.2
    unfold annE; fine
theorem annEs_fine {lk : Look} : ∀ {es : List (Expr Unit)}, Es T es → Fine T (annEs lk es)
  | [], _ => by unfold annEs; fine
  | e :: es, hs => by
    simp only [Es] at hs
    have h1 := annE_fine (lk := lk) hs.1
    have h2 := annEs_fine (lk := lk) hs.2
    unfold annEs; fine
end

theorem annO_fine {lk : Look} : ∀ {e : Option (Expr Unit)}, O T e → Fine T (annO lk e)
  | none, _ => by rw [annO]; fine
  | some e, hs => by
    have h1 := annE_fine (lk := lk) (show E T e from hs)
    rw [annO]; fine

mutual
theorem annS_fine {en : AnnEnv} : ∀ {s : Stmt Unit} {outer : List Scope} {cur : Scope} {k : Nat}, S T s →
    Fine T (annS en outer cur k s)
  | .var t _ init, outer, cur, k, hs => by
    simp only [S] at hs
    have h1 := annO_fine (lk := en.look (cur :: outer)) hs.2
    unfold annS; fine
  | .assign t _ e, outer, cur, k, hs => by
    simp only [S] at hs
    have h1 := annE_fine (lk := en.look (cur :: outer)) hs.2
    have h2 : Fine T (en.target (cur :: outer) t unknownVariable) := .target (.errTok hs.1 (by decide +kernel))
    unfold annS; fine
  | .assignArr t _ i e, outer, cur, k, hs => by
    simp only [S] at hs
    have h1 := annE_fine (lk := en.look (cur :: outer)) hs.2.1
    have h2 := annE_fine (lk := en.look (cur :: outer)) hs.2.2
    have h3 : Fine T (en.target (cur :: outer) t unknownArray) := .target (.errTok hs.1 (by decide +kernel))
    unfold annS; fine
  | .assignMem t m _ e, outer, cur, k, hs => by
    simp only [S] at hs
    have h2 := annE_fine (lk := en.look (cur :: outer)) hs.2.2
    have h3 : Fine T (en.target (cur :: outer) t unknownIdentifier) := .target (.errTok hs.1 (by decide +kernel))
    unfold annS; fine
  | .call t c as, outer, cur, k, hs => by
    simp only [S] at hs
    have h1 := annE_fine (lk := en.look (cur :: outer)) hs.2.1
    have h2 := annEs_fine (lk := en.look (cur :: outer)) hs.2.2
    unfold annS; fine
  | .ifS t c thn he els, outer, cur, k, hs => by
    simp only [S] at hs
    have h1 := annE_fine (lk := en.look ([] :: cur :: outer)) hs.2.1
    have h2 := fun o c k => annB_fine (en := en) (outer := o) (cur := c) (k := k) hs.2.2.1
    have h3 := fun o c k => annB_fine (en := en) (outer := o) (cur := c) (k := k) hs.2.2.2
    unfold annS; fine <;> first | exact h2 _ _ _ | exact h3 _ _ _
  | .whileS t c body, outer, cur, k, hs => by
    simp only [S] at hs
    have h1 := annE_fine (lk := en.look ([] :: cur :: outer)) hs.2.1
    have h2 := fun o c k => annB_fine (en := en) (outer := o) (cur := c) (k := k) hs.2.2
    unfold annS; fine <;> exact h2 _ _ _
  | .forS t n _ a b body, outer, cur, k, hs => by
    simp only [S] at hs
    have h1 := annE_fine (lk := en.look ([] :: cur :: outer)) hs.2.2.1
    have h2 := annE_fine (lk := en.look ([] :: cur :: outer)) hs.2.2.2.1
    have h3 := fun o c k => annB_fine (en := en) (outer := o) (cur := c) (k := k) hs.2.2.2.2
    have h4 : Fine T (en.target ([] :: cur :: outer) n unknownVariable) := .target (.errTok hs.2.1 (by decide +kernel))
    unfold annS; fine <;> exact h3 _ _ _
  | .ret t e, outer, cur, k, hs => by
    simp only [S] at hs
    have h1 := annO_fine (lk := en.look (cur :: outer)) hs.2
    unfold annS; fine
theorem annB_fine {en : AnnEnv} : ∀ {ss : List (Stmt Unit)} {outer : List Scope} {cur : Scope} {k : Nat}, B T ss →
    Fine T (annB en outer cur k ss)
  | [], outer, cur, k, _ => by unfold annB; fine
  | s :: ss, outer, cur, k, hs => by
    simp only [B] at hs
    have h1 := annS_fine (en := en) (outer := outer) (cur := cur) (k := k) hs.1
    have h2 := fun o c k => annB_fine (en := en) (outer := o) (cur := c) (k := k) hs.2
    unfold annB; fine <;> exact h2 _ _ _
end

/-- All tokens of a program, including those of the arguments. -/
def Whole (T : Token → Prop) (p : Prog D) : Prop :=
  ∀ x ∈ p, I T T x ∧ ∀ f, x = .func f → ∀ t ∈ f.args, T t

theorem Whole.toks {p : Prog D} (h : Whole T p) {k : Nat} : P (fun _ => T) T k p :=
  fun _ _ hi => (h _ (List.mem_of_getElem? hi)).1

theorem Whole.cons {x : Item D} {xs : Prog D} (h : Whole T (x :: xs)) :
    I T T x ∧ (∀ f, x = .func f → ∀ t ∈ f.args, T t) ∧ Whole T xs :=
  ⟨(h x (by simp)).1, (h x (by simp)).2, fun y hy => h y (List.mem_cons_of_mem _ hy)⟩

theorem Whole.push {x : Item D} {xs : Prog D} (h1 : I T T x) (h2 : ∀ f, x = .func f → ∀ t ∈ f.args, T t)
    (h3 : Whole T xs) : Whole T (x :: xs) := by
  intro y hy
  rcases List.mem_cons.1 hy with rfl | hy
  · exact ⟨h1, h2⟩
  · exact h3 y hy

theorem annItem_args {L : Layout} {p : Prog Unit} {i : Nat} {x : Item Unit} {y : Item Ref}
    (hs : ∀ f, x = .func f → ∀ t ∈ f.args, T t) (h : annItem L p i x = .ok y) :
    ∀ f, y = .func f → ∀ t ∈ f.args, T t := by
  cases x with
  | var t c init =>
    rw [annItem] at h; split at h <;> cases h
    nofun
  | func f =>
    rw [annItem] at h; split at h <;> cases h
    intro g hg
    cases hg
    exact hs f rfl
  | syscall n a => rw [annItem] at h; cases h; nofun

theorem annItem_fine {L : Layout} {p : Prog Unit} {i : Nat} {x : Item Unit} (hs : I T T x) :
    Fine T (annItem L p i x) := by
  cases x with
  | var t c init =>
    have h1 := annO_fine (lk := (AnnEnv.mk (L.addr i) (refIsVar p)).look [globalScope p]) hs.2.1
    rw [annItem]; fine
  | func f =>
    have h1 := annB_fine (en := ⟨L.addr i, refIsVar p⟩) (outer := [globalScope p]) (cur := argScope f.args) (k := 0)
      hs.2.1
    rw [annItem]; fine
  | syscall n a => rw [annItem]; fine

theorem annItems_fine {L : Layout} {p : Prog Unit} : ∀ {xs : List (Item Unit)} {i : Nat}, Whole T xs →
    Fine T (annItems L p i xs) ∧ ∀ ys, annItems L p i xs = .ok ys → Whole T ys
  | [], i, _ => by
    rw [annItems]
    exact ⟨.ok, fun ys h => by cases h; nofun⟩
  | x :: xs, i, hs => by
    obtain ⟨h1, h2, h3⟩ := hs.cons
    have k1 := annItem_fine (L := L) (p := p) (i := i) h1
    obtain ⟨k2, k3⟩ := annItems_fine (L := L) (p := p) (i := i + 1) h3
    constructor
    · unfold annItems; fine
    · intro ys h
      rw [annItems] at h
      split at h
      · cases h
      · rename_i e1
        split at h
        · cases h
        · rename_i e2
          cases h
          exact .push (annItem_toks h1 e1) (annItem_args h2 e1) (k3 _ e2)

/-! ### Constants -/

theorem constBin_fine {t : Token} {a b : I32} (h : T t) : Fine T (constBin t a b) := by
  unfold constBin
  split
  · intro e he
    cases he
    exact ⟨t, _, h, rfl, rfl, .inl (by simp [plainMessages])⟩
  · split <;> fine

theorem evalIdent_fine {p : Prog Ref} {r : Ref} {s : EvalSt} : Fine T (evalIdent p r s) := by
  unfold evalIdent
  fine

theorem evalG_fine {p : Prog Ref} : ∀ {e : Expr Ref} {s : EvalSt}, E T e → Fine T (evalG p e s)
  | .ident t _, s, _ => by unfold evalG; exact evalIdent_fine
  | .int .., s, _ => by unfold evalG; fine
  | .float .., s, _ => by unfold evalG; fine
  | .str .., s, _ => by unfold evalG; fine
  | .none .., s, _ => by unfold evalG; fine
  | .member .., s, _ => by unfold evalG; fine
  | .arr .., s, _ => by unfold evalG; fine
  | .deref .., s, _ => by unfold evalG; fine
  | .call .., s, _ => by unfold evalG; fine
  | .bin op l r, s, hs => by
    simp only [E] at hs
    have h1 := fun s => evalG_fine (p := p) (s := s) hs.2.1
    have h2 := fun s => evalG_fine (p := p) (s := s) hs.2.2
    have h3 := fun a b => constBin_fine (T := T) (a := a) (b := b) hs.1
    unfold evalG; fine <;> first | exact h1 _ | exact h2 _ | exact h3 _ _
  | .un op a, s, hs => by
    simp only [E] at hs
    have h1 := fun s => evalG_fine (p := p) (s := s) hs.2
    unfold evalG; fine <;> exact h1 _

theorem globalInit_fine {p : Prog Ref} {e : Expr Ref} (hs : E T e) : Fine T (globalInit p e) := by
  have h1 := evalG_fine (p := p) (s := ⟨[], true⟩) hs
  have h2 : Fine T (evalGlobal p e) := by unfold evalGlobal; fine
  unfold globalInit; fine

theorem Whole.set {p : Prog D} (hp : Whole T p) {i : Nat} {x : Item D} (h1 : I T T x)
    (h2 : ∀ f, x = .func f → ∀ t ∈ f.args, T t) : Whole T (p.set i x) := by
  intro y hy
  rcases List.mem_or_eq_of_mem_set hy with hy | rfl
  · exact hp y hy
  · exact ⟨h1, h2⟩

theorem globalPass_fine : ∀ {is : List Nat} {p : Prog Ref} {ch : Bool}, Whole T p →
    Fine T (globalPass is p ch) ∧ ∀ q ch', globalPass is p ch = .ok (q, ch') → Whole T q
  | [], p, ch, hp => by
    rw [globalPass]
    exact ⟨.ok, fun q ch' h => by cases h; exact hp⟩
  | i :: is, p, ch, hp => by
    rw [globalPass]
    split
    · rename_i t c e h1
      obtain ⟨hi, _⟩ := hp _ (List.mem_of_getElem? h1)
      have k1 := globalInit_fine (p := p) (show E T e from hi.2.1)
      split
      · rename_i h2
        exact ⟨.of h2 k1, nofun⟩
      · rename_i h2
        exact globalPass_fine (hp.set ⟨hi.1, globalInit_toks hi.2.1 h2, fun hc => globalInit_toks (hi.2.2 hc) h2⟩ nofun)
    · exact globalPass_fine hp

theorem globalLoop_fine : ∀ {n : Nat} {p : Prog Ref}, Whole T p →
    Fine T (globalLoop n p) ∧ ∀ q, globalLoop n p = .ok q → Whole T q
  | 0, p, _ => ⟨nofun, nofun⟩
  | n + 1, p, hp => by
    obtain ⟨h1, h2⟩ := globalPass_fine (is := List.range p.length) (ch := false) hp
    rw [globalLoop]
    split
    · rename_i h
      exact ⟨.of h h1, nofun⟩
    · rename_i h
      exact globalLoop_fine (h2 _ _ h)
    · rename_i h
      exact ⟨.ok, fun q hq => by cases hq; exact h2 _ _ h⟩

theorem globalVars_fine {p : Prog Ref} (hp : Whole T p) :
    Fine T (globalVars p) ∧ ∀ q, globalVars p = .ok q → Whole T q := by
  obtain ⟨h1, h2⟩ := globalLoop_fine (n := p.length + 1) hp
  unfold globalVars
  split
  · rename_i h
    exact ⟨.of h h1, nofun⟩
  · rename_i h
    obtain ⟨h3, h4⟩ := globalPass_fine (is := List.range _) (ch := false) (h2 _ h)
    split
    · rename_i h
      exact ⟨.of h h3, nofun⟩
    · rename_i h
      exact ⟨.ok, fun q hq => by cases hq; exact h4 _ _ h⟩

theorem constIdent_fine {p : Prog Ref} {t : Token} {r : Ref} (ht : T t) : Fine T (constIdent p t r) := by
  unfold constIdent; fine

mutual
theorem constE_fine {p : Prog Ref} : ∀ {e : Expr Ref}, E T e → Fine T (constE p e)
  | .ident t r, hs => by
    simp only [E] at hs
    unfold constE
    exact constIdent_fine hs
  | .int .., _ => by unfold constE; fine
  | .float .., _ => by unfold constE; fine
  | .str .., _ => by unfold constE; fine
  | .none .., _ => by unfold constE; fine
  | .member t m _, hs => by unfold constE; fine
  | .arr t es, hs => by
    simp only [E] at hs
    have h1 := constEs_fine (p := p) hs.2
    unfold constE; fine
  | .deref t l i, hs => by
    simp only [E] at hs
    have h1 := constE_fine (p := p) hs.2.1
    have h2 := constE_fine (p := p) hs.2.2
    unfold constE; fine
  | .call t c as, hs => by
    simp only [E] at hs
    have h1 := constE_fine (p := p) hs.2.1
    have h2 := constEs_fine (p := p) hs.2.2
    unfold constE; fine
  | .bin op l r, hs => by
    simp only [E] at hs
    have h1 := constE_fine (p := p) hs.2.1
    have h2 := constE_fine (p := p) hs.2.2
    unfold constE; fine
  | .un op a, hs => by
    simp only [E] at hs
    have h1 := constE_fine (p := p) hs.2
    unfold constE; fine
theorem constEs_fine {p : Prog Ref} : ∀ {es : List (Expr Ref)}, Es T es → Fine T (constEs p es)
  | [], _ => by unfold constEs; fine
  | e :: es, hs => by
    simp only [Es] at hs
    have h1 := constE_fine (p := p) hs.1
    have h2 := constEs_fine (p := p) hs.2
    unfold constEs; fine
end

theorem constO_fine {p : Prog Ref} : ∀ {e : Option (Expr Ref)}, O T e → Fine T (constO p e)
  | none, _ => by rw [constO]; fine
  | some e, hs => by
    have h1 := constE_fine (p := p) (show E T e from hs)
    rw [constO]; fine

mutual
theorem constS_fine {p : Prog Ref} : ∀ {s : Stmt Ref}, S T s → Fine T (constS p s)
  | .var t _ init, hs => by
    simp only [S] at hs
    have h1 := constO_fine (p := p) hs.2
    unfold constS; fine
  | .assign t _ e, hs => by
    simp only [S] at hs
    have h1 := constE_fine (p := p) hs.2
    have h2 : T t := hs.1
    unfold constS; fine
  | .assignArr t _ i e, hs => by
    simp only [S] at hs
    have h1 := constE_fine (p := p) hs.2.1
    have h2 := constE_fine (p := p) hs.2.2
    unfold constS; fine
  | .assignMem t m _ e, hs => by
    simp only [S] at hs
    have h2 := constE_fine (p := p) hs.2.2
    unfold constS; fine
  | .call t c as, hs => by
    simp only [S] at hs
    have h1 := constE_fine (p := p) hs.2.1
    have h2 := constEs_fine (p := p) hs.2.2
    unfold constS; fine
  | .ifS t c thn he els, hs => by
    simp only [S] at hs
    have h1 := constE_fine (p := p) hs.2.1
    have h2 := constB_fine (p := p) hs.2.2.1
    have h3 := constB_fine (p := p) hs.2.2.2
    unfold constS; fine
  | .whileS t c body, hs => by
    simp only [S] at hs
    have h1 := constE_fine (p := p) hs.2.1
    have h2 := constB_fine (p := p) hs.2.2
    unfold constS; fine
  | .forS t n _ a b body, hs => by
    simp only [S] at hs
    have h1 := constE_fine (p := p) hs.2.2.1
    have h2 := constE_fine (p := p) hs.2.2.2.1
    have h3 := constB_fine (p := p) hs.2.2.2.2
    unfold constS; fine
  | .ret t e, hs => by
    simp only [S] at hs
    have h1 := constO_fine (p := p) hs.2
    unfold constS; fine
theorem constB_fine {p : Prog Ref} : ∀ {ss : List (Stmt Ref)}, B T ss → Fine T (constB p ss)
  | [], _ => by unfold constB; fine
  | s :: ss, hs => by
    simp only [B] at hs
    have h1 := constS_fine (p := p) hs.1
    have h2 := constB_fine (p := p) hs.2
    unfold constB; fine
end

theorem constItem_fine {p : Prog Ref} {x : Item Ref} (hs : I T T x) : Fine T (constItem p x) := by
  cases x with
  | var t c init =>
    have h1 := constO_fine (p := p) hs.2.1
    have h2 : T t := hs.1
    rw [constItem]; fine
  | func f =>
    have h1 := constB_fine (p := p) hs.2.1
    rw [constItem]; fine
  | syscall n a => rw [constItem]; fine

theorem constItem_args {p : Prog Ref} {x y : Item Ref} (hs : ∀ f, x = .func f → ∀ t ∈ f.args, T t)
    (h : constItem p x = .ok y) : ∀ f, y = .func f → ∀ t ∈ f.args, T t := by
  cases x with
  | var t c init =>
    rw [constItem] at h
    split at h
    · cases h
    · split at h
      · exact absurd h Made.errTok_ne
      · cases h
        nofun
  | func f =>
    rw [constItem] at h; split at h <;> cases h
    intro g hg
    cases hg
    exact hs f rfl
  | syscall n a => rw [constItem] at h; cases h; nofun

theorem constPass_fine : ∀ {is : List Nat} {p : Prog Ref}, Whole T p →
    Fine T (constPass is p) ∧ ∀ q, constPass is p = .ok q → Whole T q
  | [], p, hp => by
    rw [constPass]
    exact ⟨.ok, fun q h => by cases h; exact hp⟩
  | i :: is, p, hp => by
    rw [constPass]
    split
    · exact constPass_fine hp
    · rename_i x h1
      obtain ⟨hi, ha⟩ := hp _ (List.mem_of_getElem? h1)
      split
      · rename_i h2
        exact ⟨.of h2 (constItem_fine hi), nofun⟩
      · rename_i h2
        exact constPass_fine (hp.set (constItem_toks hp.toks (fun _ h => h) hi h2) (constItem_args ha h2))

/-! ### Names declared twice -/

theorem declare_fine {vis : List Str} {t : Token} {d : D} (h : T t) : Fine T (declare vis t d) := by
  unfold declare; fine

mutual
theorem multiS_fine : ∀ {s : Stmt D} {vis : List Str}, S T s → Fine T (multiS vis s)
  | .var t d init, vis, hs => by
    simp only [S] at hs
    unfold multiS
    exact declare_fine hs.1
  | .ifS t c thn he els, vis, hs => by
    simp only [S] at hs
    have h1 := multiB_fine (vis := vis) hs.2.2.1
    have h2 := multiB_fine (vis := vis) hs.2.2.2
    unfold multiS; fine
  | .whileS t c body, vis, hs => by
    simp only [S] at hs
    have h1 := multiB_fine (vis := vis) hs.2.2
    unfold multiS; fine
  | .forS t n _ a b body, vis, hs => by
    simp only [S] at hs
    have h1 := multiB_fine (vis := vis) hs.2.2.2.2
    unfold multiS; fine
  | .assign .., vis, _ => by unfold multiS; fine
  | .assignArr .., vis, _ => by unfold multiS; fine
  | .assignMem .., vis, _ => by unfold multiS; fine
  | .call .., vis, _ => by unfold multiS; fine
  | .ret .., vis, _ => by unfold multiS; fine
theorem multiB_fine : ∀ {ss : List (Stmt D)} {vis : List Str}, B T ss → Fine T (multiB vis ss)
  | [], vis, _ => by unfold multiB; fine
  | s :: ss, vis, hs => by
    simp only [B] at hs
    have h1 := multiS_fine (vis := vis) hs.1
    have h2 := fun v => multiB_fine (vis := v) hs.2
    unfold multiB; fine; exact h2 _
end

theorem multiArgs_fine : ∀ {ts : List Token} {vis : List Str}, (∀ t ∈ ts, T t) → Fine T (multiArgs vis ts)
  | [], vis, _ => by unfold multiArgs; fine
  | t :: ts, vis, h => by
    have h1 := declare_fine (vis := vis) (d := ()) (h t (by simp))
    have h2 := fun v => multiArgs_fine (vis := v) fun t ht => h t (List.mem_cons_of_mem _ ht)
    unfold multiArgs; fine; exact h2 _

theorem multiItem_fine {vis : List Str} {x : Item D} (h1 : I T T x)
    (h2 : ∀ f, x = .func f → ∀ t ∈ f.args, T t) : Fine T (multiItem vis x) := by
  cases x with
  | var t c init => exact declare_fine (d := ()) h1.1
  | func f =>
    have k1 : T f.name := h1.1
    have k2 := fun v => multiB_fine (vis := v) h1.2.1
    have k3 := fun v => multiArgs_fine (vis := v) (h2 f rfl)
    rw [multiItem]; fine <;> first | exact k2 _ | exact k3 _
  | syscall n a => rw [multiItem]; fine

theorem multiItems_fine : ∀ {p : Prog D} {vis : List Str}, Whole T p → Fine T (multiItems vis p)
  | [], vis, _ => by unfold multiItems; fine
  | x :: xs, vis, hp => by
    obtain ⟨h1, h2, h3⟩ := hp.cons
    have k1 := multiItem_fine (vis := vis) h1 h2
    have k2 := fun v => multiItems_fine (vis := v) h3
    unfold multiItems; fine; exact k2 _

/-! ### Numbers of arguments -/

theorem checkCall_fine {p : Prog D} {c : Expr Ref} {n : Nat} (hs : E T c) : Fine T (checkCall p c n) := by
  cases c with
  | ident t r =>
    simp only [E] at hs
    rw [checkCall]; fine
  | _ => exact Fine.ok

mutual
theorem argsE_fine {p : Prog Ref} : ∀ {e : Expr Ref}, E T e → Fine T (argsE p e)
  | .ident t r, _ => by unfold argsE; fine
  | .int .., _ => by unfold argsE; fine
  | .float .., _ => by unfold argsE; fine
  | .str .., _ => by unfold argsE; fine
  | .none .., _ => by unfold argsE; fine
  | .member t m _, hs => by unfold argsE; fine
  | .arr t es, hs => by
    simp only [E] at hs
    have h1 := argsEs_fine (p := p) hs.2
    unfold argsE; fine
  | .deref t l i, hs => by
    simp only [E] at hs
    have h1 := argsE_fine (p := p) hs.2.1
    have h2 := argsE_fine (p := p) hs.2.2
    unfold argsE; fine
  | .call t c as, hs => by
    simp only [E] at hs
    have h1 := argsE_fine (p := p) hs.2.1
    have h2 := argsEs_fine (p := p) hs.2.2
    have h3 := checkCall_fine (p := p) (n := as.length) hs.2.1
    unfold argsE; fine
  | .bin op l r, hs => by
    simp only [E] at hs
    have h1 := argsE_fine (p := p) hs.2.1
    have h2 := argsE_fine (p := p) hs.2.2
    unfold argsE; fine
  | .un op a, hs => by
    simp only [E] at hs
    have h1 := argsE_fine (p := p) hs.2
    unfold argsE; fine
theorem argsEs_fine {p : Prog Ref} : ∀ {es : List (Expr Ref)}, Es T es → Fine T (argsEs p es)
  | [], _ => by unfold argsEs; fine
  | e :: es, hs => by
    simp only [Es] at hs
    have h1 := argsE_fine (p := p) hs.1
    have h2 := argsEs_fine (p := p) hs.2
    unfold argsEs; fine
end

theorem argsO_fine {p : Prog Ref} : ∀ {e : Option (Expr Ref)}, O T e → Fine T (argsO p e)
  | none, _ => by rw [argsO]; fine
  | some e, hs => argsE_fine (show E T e from hs)

mutual
theorem argsS_fine {p : Prog Ref} : ∀ {s : Stmt Ref}, S T s → Fine T (argsS p s)
  | .var t _ init, hs => by
    simp only [S] at hs
    have h1 := argsO_fine (p := p) hs.2
    unfold argsS; fine
  | .assign t _ e, hs => by
    simp only [S] at hs
    have h1 := argsE_fine (p := p) hs.2
    unfold argsS; fine
  | .assignArr t _ i e, hs => by
    simp only [S] at hs
    have h1 := argsE_fine (p := p) hs.2.1
    have h2 := argsE_fine (p := p) hs.2.2
    unfold argsS; fine
  | .assignMem t m _ e, hs => by
    simp only [S] at hs
    have h2 := argsE_fine (p := p) hs.2.2
    unfold argsS; fine
  | .call t c as, hs => by
    simp only [S] at hs
    have h1 := argsE_fine (p := p) hs.2.1
    have h2 := argsEs_fine (p := p) hs.2.2
    have h3 := checkCall_fine (p := p) (n := as.length) hs.2.1
    unfold argsS; fine
  | .ifS t c thn he els, hs => by
    simp only [S] at hs
    have h1 := argsE_fine (p := p) hs.2.1
    have h2 := argsB_fine (p := p) hs.2.2.1
    have h3 := argsB_fine (p := p) hs.2.2.2
    unfold argsS; fine
  | .whileS t c body, hs => by
    simp only [S] at hs
    have h1 := argsE_fine (p := p) hs.2.1
    have h2 := argsB_fine (p := p) hs.2.2
    unfold argsS; fine
  | .forS t n _ a b body, hs => by
    simp only [S] at hs
    have h1 := argsE_fine (p := p) hs.2.2.1
    have h2 := argsE_fine (p := p) hs.2.2.2.1
    have h3 := argsB_fine (p := p) hs.2.2.2.2
    unfold argsS; fine
  | .ret t e, hs => by
    simp only [S] at hs
    have h1 := argsO_fine (p := p) hs.2
    unfold argsS; fine
theorem argsB_fine {p : Prog Ref} : ∀ {ss : List (Stmt Ref)}, B T ss → Fine T (argsB p ss)
  | [], _ => by unfold argsB; fine
  | s :: ss, hs => by
    simp only [B] at hs
    have h1 := argsS_fine (p := p) hs.1
    have h2 := argsB_fine (p := p) hs.2
    unfold argsB; fine
end

theorem argsItems_fine {p : Prog Ref} : ∀ {xs : Prog Ref}, Whole T xs → Fine T (argsItems p xs)
  | [], _ => by unfold argsItems; fine
  | x :: xs, hp => by
    obtain ⟨h1, h2, h3⟩ := hp.cons
    have k1 : Fine T (argsItem p x) := by
      cases x with
      | var t c init => exact argsO_fine h1.2.1
      | func f => exact argsB_fine h1.2.1
      | syscall n a => exact Fine.ok
    have k2 := argsItems_fine (p := p) h3
    unfold argsItems; fine

/-- All checks. -/
theorem runSema_fine {L : Layout} {p : Prog Unit} (hp : Whole T p) :
    Fine T (runSema L p) ∧ ∀ q, runSema L p = .ok q → Whole T q := by
  unfold runSema annotate consts multiDecls numArgs
  obtain ⟨h1, h2⟩ := annItems_fine (L := L) (p := p) (i := 0) hp
  split
  · rename_i h
    exact ⟨.of h h1, nofun⟩
  · rename_i p1 h
    have hp1 := h2 _ h
    obtain ⟨h3, h4⟩ := globalVars_fine hp1
    split
    · rename_i h
      exact ⟨.of h h3, nofun⟩
    · rename_i p2 h
      have hp2 := h4 _ h
      obtain ⟨h5, h6⟩ := constPass_fine (is := List.range p2.length) hp2
      split
      · rename_i h
        exact ⟨.of h h5, nofun⟩
      · rename_i p3 h
        have hp3 := h6 _ h
        split
        · rename_i h
          exact ⟨.of h (multiItems_fine hp3), nofun⟩
        · split
          · rename_i h
            exact ⟨.of h (argsItems_fine hp3), nofun⟩
          · exact ⟨.ok, fun q hq => by cases hq; exact hp3⟩

/-! ### The optimizer -/

theorem constUn_fine {t : Token} {a : I32} : Fine T (constUn t a) := by
  unfold constUn; fine

mutual
theorem knownE_fine : ∀ {e : Expr D}, E T e → Fine T (knownE e)
  | .ident t r, _ => by unfold knownE; fine
  | .int .., _ => by unfold knownE; fine
  | .float .., _ => by unfold knownE; fine
  | .str .., _ => by unfold knownE; fine
  | .none .., _ => by unfold knownE; fine
  | .member t m _, hs => by unfold knownE; fine
  | .arr t es, hs => by
    simp only [E] at hs
    have h1 := knownEs_fine hs.2
    unfold knownE; fine
  | .deref t l i, hs => by
    simp only [E] at hs
    have h1 := knownE_fine hs.2.1
    have h2 := knownE_fine hs.2.2
    unfold knownE; fine
  | .call t c as, hs => by
    simp only [E] at hs
    have h1 := knownE_fine hs.2.1
    have h2 := knownEs_fine hs.2.2
    unfold knownE; fine
  | .bin op l r, hs => by
    simp only [E] at hs
    have h1 := knownE_fine hs.2.1
    have h2 := knownE_fine hs.2.2
    have h3 := fun a b => constBin_fine (T := T) (a := a) (b := b) hs.1
    unfold knownE; fine; exact h3 _ _
  | .un op a, hs => by
    simp only [E] at hs
    have h1 := knownE_fine hs.2
    unfold knownE; fine; exact constUn_fine
theorem knownEs_fine : ∀ {es : List (Expr D)}, Es T es → Fine T (knownEs es)
  | [], _ => by unfold knownEs; fine
  | e :: es, hs => by
    simp only [Es] at hs
    have h1 := knownE_fine hs.1
    have h2 := knownEs_fine hs.2
    unfold knownEs; fine
end

theorem knownO_fine : ∀ {e : Option (Expr D)}, O T e → Fine T (knownO e)
  | none, _ => by rw [knownO]; fine
  | some e, hs => by
    have h1 := knownE_fine (show E T e from hs)
    rw [knownO]; fine

theorem foldTop_fine {e : Expr D} (hs : E T e) : Fine T (foldTop e) := by
  have h1 := knownE_fine hs
  unfold foldTop; fine

mutual
theorem foldS_fine : ∀ {s : Stmt D}, S T s → Fine T (foldS s)
  | .var t _ init, hs => by
    simp only [S] at hs
    have h1 := knownO_fine hs.2
    unfold foldS; fine
  | .assign t _ e, hs => by
    simp only [S] at hs
    have h1 := foldTop_fine hs.2
    unfold foldS; fine
  | .assignArr t _ i e, hs => by
    simp only [S] at hs
    have h1 := knownE_fine hs.2.1
    have h2 := knownE_fine hs.2.2
    unfold foldS; fine
  | .assignMem t m _ e, hs => by
    simp only [S] at hs
    have h2 := knownE_fine hs.2.2
    unfold foldS; fine
  | .call t c as, hs => by
    simp only [S] at hs
    have h1 := knownE_fine hs.2.1
    have h2 := knownEs_fine hs.2.2
    unfold foldS; fine
  | .ifS t c thn he els, hs => by
    simp only [S] at hs
    have h1 := foldTop_fine hs.2.1
    have h2 := foldB_fine hs.2.2.1
    have h3 := foldB_fine hs.2.2.2
    unfold foldS; fine
  | .whileS t c body, hs => by
    simp only [S] at hs
    have h1 := foldTop_fine hs.2.1
    have h2 := foldB_fine hs.2.2
    unfold foldS; fine
  | .forS t n _ a b body, hs => by
    simp only [S] at hs
    have h1 := knownE_fine hs.2.2.1
    have h2 := knownE_fine hs.2.2.2.1
    have h3 := foldB_fine hs.2.2.2.2
    unfold foldS; fine
  | .ret t none, hs => by unfold foldS; fine
  | .ret t (some e), hs => by
    simp only [S, O] at hs
    have h1 := foldTop_fine hs.2
    unfold foldS
    dsimp only
    fine
theorem foldB_fine : ∀ {ss : List (Stmt D)}, B T ss → Fine T (foldB ss)
  | [], _ => by unfold foldB; fine
  | s :: ss, hs => by
    simp only [B] at hs
    have h1 := foldS_fine hs.1
    have h2 := foldB_fine hs.2
    unfold foldB; fine
end

theorem constFold_fine : ∀ {p : Prog D} {k : Nat}, P (fun _ => T) T k p → Fine T (constFold p)
  | [], k, _ => by unfold constFold; fine
  | x :: xs, k, hp => by
    have h1 := hp.head
    have k1 : Fine T (foldItem x) := by
      cases x with
      | var t c init =>
        have := knownO_fine h1.2.1
        rw [foldItem]; fine
      | func f =>
        have := foldB_fine h1.2.1
        rw [foldItem]; fine
      | syscall n a => exact Fine.ok
    have k2 := constFold_fine hp.tail
    unfold constFold; fine

theorem postRet_at {p : Prog D} {k : Nat} (hp : P (fun _ => T) T k p) : P (fun _ => T) T k (postRet p) := by
  refine hp.map fun x hx => ?_
  cases x with
  | func f => exact ⟨hx.1, cut_toks hx.2.1, hx.2.2⟩
  | _ => exact hx

/-- Everything behind the parser. -/
theorem compile_fine {L : Layout} {opt : Bool} {p : Prog Unit} (hp : Whole T p) : Fine T (compile L opt p) := by
  obtain ⟨h1, h2⟩ := runSema_fine (L := L) hp
  unfold compile
  split
  · rename_i h
    exact .of h h1
  · rename_i h
    have h3 := (h2 _ h).toks (k := 0)
    split
    · rename_i h
      refine .of h ?_
      unfold runOptimize
      split
      · have := constFold_fine (postRet_at h3)
        fine
      · exact .ok
    · exact .lift

end Ccml.Blame
