import Verif.Props.Static
import Verif.SampleProg
/-!
Names: declarations visible at the same point have different names (C17), and names refer to the
declaration that lexical scoping gives (C18).
-/
set_option linter.unusedSimpArgs false
set_option linter.unusedSectionVars false
namespace Ccml.Props

/-! ### C17: what is visible where -/

/-- The names visible after a statement. -/
def namesAfter {D : Type} (vis : List Str) : Stmt D → List Str
  | .var t _ _ => t.str :: vis
  | _ => vis

mutual
/-- The names visible at the points inside a statement. -/
def seenS {D : Type} (vis : List Str) : Stmt D → List (List Str)
  | .ifS _ _ thn _ els => seenB vis thn ++ seenB vis els
  | .whileS _ _ body => seenB vis body
  | .forS _ _ _ _ _ body => seenB vis body
  | _ => []
/-- The names visible at the points of a block: before, inside and after each statement. -/
def seenB {D : Type} (vis : List Str) : List (Stmt D) → List (List Str)
  | [] => [vis]
  | s :: ss => vis :: (seenS vis s ++ seenB (namesAfter vis s) ss)
end

/-- The names visible at the points inside a child of the program; `before` are the names of the
children before it. -/
def seenItem {D : Type} (before : List Str) : Item D → List (List Str)
  | .func f => seenB ((f.args.map Token.str).reverse ++ f.name.str :: before) f.body
  | _ => []

/-- The names visible at all points of a program, from among the names declared so far. -/
def seenP {D : Type} (before : List Str) : List (Item D) → List (List Str)
  | [] => [before]
  | x :: xs => seenItem before x ++ seenP (x.declName :: before) xs

theorem declare_iff {D : Type} {vis v : List Str} {t : Token} {d : D} :
    declare vis t d = .ok v ↔ t.str ∉ vis ∧ v = t.str :: vis := by
  unfold declare
  split
  · rename_i h
    simp only [List.contains_iff_mem] at h
    exact ⟨fun k => absurd k errTok_ne, fun k => absurd h k.1⟩
  · rename_i h
    simp only [List.contains_iff_mem] at h
    exact ⟨fun k => ⟨h, by cases k; rfl⟩, fun k => by rw [k.2]⟩

theorem seenB_start {D : Type} (vis : List Str) (b : List (Stmt D)) : vis ∈ seenB vis b := by
  cases b <;> simp [seenB]

mutual
theorem multiS_iff {D : Type} : ∀ (s : Stmt D) (vis v : List Str), vis.Nodup →
    (multiS vis s = .ok v ↔ (∀ x ∈ seenS vis s, x.Nodup) ∧ (namesAfter vis s).Nodup ∧ v = namesAfter vis s)
  | .var t d init, vis, v, hv => by
    rw [multiS, declare_iff]
    simp [seenS, namesAfter, hv]
  | .assign .., vis, v, hv => by simp [multiS, seenS, namesAfter, hv, eq_comm]
  | .assignArr .., vis, v, hv => by simp [multiS, seenS, namesAfter, hv, eq_comm]
  | .assignMem .., vis, v, hv => by simp [multiS, seenS, namesAfter, hv, eq_comm]
  | .call .., vis, v, hv => by simp [multiS, seenS, namesAfter, hv, eq_comm]
  | .ret .., vis, v, hv => by simp [multiS, seenS, namesAfter, hv, eq_comm]
  | .ifS t c thn he els, vis, v, hv => by
    have h1 := multiB_iff thn vis hv
    have h2 := multiB_iff els vis hv
    rw [multiS, seenS, List.forall_mem_append, ← h1, ← h2]
    simp only [namesAfter]
    cases multiB vis thn with
    | error x => simp
    | ok a =>
      cases multiB vis els with
      | error x => simp
      | ok b => simp [hv, eq_comm]
  | .whileS t c body, vis, v, hv => by
    have h1 := multiB_iff body vis hv
    rw [multiS, seenS, ← h1]
    simp only [namesAfter]
    cases multiB vis body with
    | error x => simp
    | ok a => simp [hv, eq_comm]
  | .forS t nm d a b body, vis, v, hv => by
    have h1 := multiB_iff body vis hv
    rw [multiS, seenS, ← h1]
    simp only [namesAfter]
    cases multiB vis body with
    | error x => simp
    | ok a => simp [hv, eq_comm]
theorem multiB_iff {D : Type} : ∀ (b : List (Stmt D)) (vis : List Str), vis.Nodup →
    ((∃ v, multiB vis b = .ok v) ↔ ∀ x ∈ seenB vis b, x.Nodup)
  | [], vis, hv => by simp [multiB, seenB, hv]
  | s :: ss, vis, hv => by
    rw [multiB, seenB, List.forall_mem_cons, List.forall_mem_append]
    have h1 := fun v => multiS_iff s vis v hv
    cases hs : multiS vis s with
    | error x =>
      refine ⟨fun ⟨v, h⟩ => (by cases h), fun ⟨_, h3, h4⟩ => ?_⟩
      have := (h1 (namesAfter vis s)).2 ⟨h3, h4 _ (seenB_start _ _), rfl⟩
      rw [hs] at this
      cases this
    | ok v =>
      obtain ⟨a, b, rfl⟩ := (h1 v).1 hs
      rw [← multiB_iff ss _ b]
      exact ⟨fun h => ⟨hv, a, h⟩, fun h => h.2.2⟩
end

theorem multiArgs_iff : ∀ (ts : List Token) (vis v : List Str), vis.Nodup →
    (multiArgs vis ts = .ok v ↔ v.Nodup ∧ v = (ts.map Token.str).reverse ++ vis)
  | [], vis, v, hv => by
    simp only [multiArgs, List.map_nil, List.reverse_nil, List.nil_append, Except.ok.injEq]
    exact ⟨fun h => by subst h; exact ⟨hv, rfl⟩, fun h => h.2.symm⟩
  | t :: ts, vis, v, hv => by
    rw [multiArgs]
    have e : ((t :: ts).map Token.str).reverse ++ vis = (ts.map Token.str).reverse ++ (t.str :: vis) := by simp
    rw [e]
    cases h : declare vis t () with
    | ok v1 =>
      obtain ⟨h1, rfl⟩ := declare_iff.1 h
      exact multiArgs_iff ts _ v (List.nodup_cons.2 ⟨h1, hv⟩)
    | error x =>
      refine ⟨fun k => (by cases k), fun ⟨k1, k2⟩ => ?_⟩
      subst k2
      have k3 := (List.nodup_append.1 k1).2.1
      have := declare_iff (d := ()).2 ⟨(List.nodup_cons.1 k3).1, rfl⟩
      rw [h] at this
      cases this

theorem multiItem_iff {D : Type} (x : Item D) (vis v : List Str) (hv : vis.Nodup) :
    multiItem vis x = .ok v ↔ (∀ n ∈ seenItem vis x, n.Nodup) ∧ (x.declName :: vis).Nodup ∧ v = x.declName :: vis := by
  cases x with
  | var t c init =>
    rw [multiItem, declare_iff]
    simp [seenItem, Item.declName, hv]
  | syscall n a =>
    rw [multiItem]
    by_cases h : n ∈ vis
    · simp [h, cFault, Item.declName]
    · simp [h, seenItem, Item.declName, hv, eq_comm]
  | func f =>
    rw [multiItem]
    by_cases h : f.name.str ∈ vis
    · rw [if_pos (by simpa using h)]
      refine ⟨fun k => absurd k errTok_ne, fun ⟨_, k, _⟩ => ?_⟩
      exact absurd h (List.nodup_cons.1 k).1
    · rw [if_neg (by simpa using h)]
      have hn : (f.name.str :: vis).Nodup := List.nodup_cons.2 ⟨h, hv⟩
      have ha := fun v => multiArgs_iff f.args _ v hn
      simp only [seenItem, Item.declName]
      cases hm : multiArgs (f.name.str :: vis) f.args with
      | error x =>
        refine ⟨fun k => (by cases k), fun ⟨k, _, _⟩ => ?_⟩
        have := (ha _).2 ⟨k _ (seenB_start _ _), rfl⟩
        rw [hm] at this
        cases this
      | ok v1 =>
        obtain ⟨h1, rfl⟩ := (ha v1).1 hm
        rw [← multiB_iff f.body _ h1]
        dsimp only
        cases multiB ((f.args.map Token.str).reverse ++ f.name.str :: vis) f.body with
        | error x => simp
        | ok y => simp [h, hv, eq_comm]

theorem multiItems_iff {D : Type} : ∀ (p : List (Item D)) (vis : List Str), vis.Nodup →
    (multiItems vis p = .ok () ↔ ∀ n ∈ seenP vis p, n.Nodup)
  | [], vis, hv => by simp [multiItems, seenP, hv]
  | x :: xs, vis, hv => by
    rw [multiItems, seenP, List.forall_mem_append]
    have h1 := fun v => multiItem_iff x vis v hv
    have hs : x.declName :: vis ∈ seenP (x.declName :: vis) xs ∨ ∃ y ys, xs = y :: ys := by
      cases xs with
      | nil => exact .inl (by simp [seenP])
      | cons y ys => exact .inr ⟨y, ys, rfl⟩
    cases hx : multiItem vis x with
    | ok v =>
      obtain ⟨a, b, rfl⟩ := (h1 v).1 hx
      rw [← multiItems_iff xs _ b]
      exact ⟨fun h => ⟨a, h⟩, fun h => h.2⟩
    | error e =>
      refine ⟨fun k => (by cases k), fun ⟨k1, k2⟩ => ?_⟩
      have hd : (x.declName :: vis).Nodup := nodup_of_seenP _ _ k2
      have := (h1 _).2 ⟨k1, hd, rfl⟩
      rw [hx] at this
      cases this
where
  nodup_of_seenP {D : Type} : ∀ (xs : List (Item D)) (v : List Str), (∀ n ∈ seenP v xs, n.Nodup) → v.Nodup
    | [], v, h => h v (by simp [seenP])
    | x :: xs, v, h => by
      rw [seenP, List.forall_mem_append] at h
      exact (List.nodup_cons.1 (nodup_of_seenP xs _ h.2)).2

/-- C17: the pass accepts exactly the programs in which, at every point, the names of the global
declarations so far, the function itself, its arguments and the local variables in scope are all
different. -/
theorem C17_checked {D : Type} (p : Prog D) : multiDecls p = .ok () ↔ ∀ vis ∈ seenP [] p, vis.Nodup :=
  multiItems_iff p [] List.nodup_nil

/-! #### The passes leave the names alone -/

theorem namesAfter_ann {E : AnnEnv} {s : Stmt Unit} {outer : List Scope} {cur : Scope} {k : Nat}
    {s' : Stmt Ref} {cur' : Scope} {k' : Nat} (h : annS E outer cur k s = .ok (s', cur', k')) (v : List Str) :
    namesAfter v s' = namesAfter v s := by
  cases s <;> rw [annS] at h <;> repeat (split at h <;> try cases h)
  all_goals try (cases h; rfl)
  all_goals rfl

mutual
theorem seenS_ann {E : AnnEnv} : ∀ (s : Stmt Unit) {outer : List Scope} {cur : Scope} {k : Nat}
    {s' : Stmt Ref} {cur' : Scope} {k' : Nat}, annS E outer cur k s = .ok (s', cur', k') →
    ∀ v, seenS v s' = seenS v s
  | .var t d init, outer, cur, k, s', cur', k', h => by
    rw [annS] at h
    repeat (split at h <;> try cases h)
    all_goals exact fun _ => rfl
  | .assign t d e, outer, cur, k, s', cur', k', h => by
    rw [annS] at h
    repeat (split at h <;> try cases h)
    all_goals exact fun _ => rfl
  | .assignArr t d i e, outer, cur, k, s', cur', k', h => by
    rw [annS] at h
    repeat (split at h <;> try cases h)
    all_goals exact fun _ => rfl
  | .assignMem t d i e, outer, cur, k, s', cur', k', h => by
    rw [annS] at h
    repeat (split at h <;> try cases h)
    all_goals exact fun _ => rfl
  | .call t c as, outer, cur, k, s', cur', k', h => by
    rw [annS] at h
    repeat (split at h <;> try cases h)
    all_goals exact fun _ => rfl
  | .ret t e, outer, cur, k, s', cur', k', h => by
    rw [annS] at h
    repeat (split at h <;> try cases h)
    all_goals exact fun _ => rfl
  | .ifS t c thn he els, outer, cur, k, s', cur', k', h => by
    rw [annS] at h
    split at h
    · cases h
    · split at h
      · cases h
      · rename_i h1
        split at h
        · cases h
        · rename_i h2
          cases h
          intro v
          rw [seenS, seenS, seenB_ann thn h1, seenB_ann els h2]
  | .whileS t c body, outer, cur, k, s', cur', k', h => by
    rw [annS] at h
    split at h
    · cases h
    · split at h
      · cases h
      · rename_i h1
        cases h
        intro v
        rw [seenS, seenS, seenB_ann body h1]
  | .forS t n d a b body, outer, cur, k, s', cur', k', h => by
    rw [annS] at h
    split at h
    · cases h
    · split at h
      · cases h
      · split at h
        · cases h
        · split at h
          · cases h
          · rename_i h1
            cases h
            intro v
            rw [seenS, seenS, seenB_ann body h1]
theorem seenB_ann {E : AnnEnv} : ∀ (ss : List (Stmt Unit)) {outer : List Scope} {cur : Scope} {k : Nat}
    {ss' : List (Stmt Ref)} {cur' : Scope} {k' : Nat}, annB E outer cur k ss = .ok (ss', cur', k') →
    ∀ v, seenB v ss' = seenB v ss
  | [], outer, cur, k, s', cur', k', h => by
    rw [annB] at h
    cases h
    exact fun _ => rfl
  | s :: ss, outer, cur, k, s', cur', k', h => by
    rw [annB] at h
    split at h
    · cases h
    · rename_i h1
      split at h
      · cases h
      · rename_i h2
        cases h
        intro v
        rw [seenB, seenB, seenS_ann s h1, namesAfter_ann h1, seenB_ann ss h2]
end

theorem namesAfter_const {p : Prog Ref} {s s' : Stmt Ref} (h : constS p s = .ok s') (v : List Str) :
    namesAfter v s' = namesAfter v s := by
  cases s <;> rw [constS] at h <;> repeat (first | exact absurd h errTok_ne | (split at h <;> try cases h))
  all_goals try (cases h; rfl)
  all_goals rfl

mutual
theorem seenS_const {p : Prog Ref} : ∀ (s : Stmt Ref) {s' : Stmt Ref}, constS p s = .ok s' →
    ∀ v, seenS v s' = seenS v s
  | .var t d init, s', h => by
    rw [constS] at h
    repeat (split at h <;> try cases h)
    all_goals exact fun _ => rfl
  | .assign t d e, s', h => by
    rw [constS] at h
    repeat (first | exact absurd h errTok_ne | (split at h <;> try cases h))
    all_goals exact fun _ => rfl
  | .assignArr t d i e, s', h => by
    rw [constS] at h
    repeat (first | exact absurd h errTok_ne | (split at h <;> try cases h))
    all_goals exact fun _ => rfl
  | .assignMem t d i e, s', h => by
    rw [constS] at h
    repeat (first | exact absurd h errTok_ne | (split at h <;> try cases h))
    all_goals exact fun _ => rfl
  | .call t c as, s', h => by
    rw [constS] at h
    repeat (first | exact absurd h errTok_ne | (split at h <;> try cases h))
    all_goals exact fun _ => rfl
  | .ret t e, s', h => by
    rw [constS] at h
    repeat (first | exact absurd h errTok_ne | (split at h <;> try cases h))
    all_goals exact fun _ => rfl
  | .ifS t c thn he els, s', h => by
    rw [constS] at h
    split at h
    · cases h
    · split at h
      · cases h
      · rename_i h1
        split at h
        · cases h
        · rename_i h2
          cases h
          intro v
          rw [seenS, seenS, seenB_const thn h1, seenB_const els h2]
  | .whileS t c body, s', h => by
    rw [constS] at h
    split at h
    · cases h
    · split at h
      · cases h
      · rename_i h1
        cases h
        intro v
        rw [seenS, seenS, seenB_const body h1]
  | .forS t n d a b body, s', h => by
    rw [constS] at h
    split at h
    · cases h
    · split at h
      · cases h
      · split at h
        · cases h
        · rename_i h1
          cases h
          intro v
          rw [seenS, seenS, seenB_const body h1]
theorem seenB_const {p : Prog Ref} : ∀ (ss : List (Stmt Ref)) {ss' : List (Stmt Ref)},
    constB p ss = .ok ss' → ∀ v, seenB v ss' = seenB v ss
  | [], s', h => by
    rw [constB] at h
    cases h
    exact fun _ => rfl
  | s :: ss, s', h => by
    rw [constB] at h
    split at h
    · cases h
    · rename_i h1
      split at h
      · cases h
      · rename_i h2
        cases h
        intro v
        rw [seenB, seenB, seenS_const s h1, namesAfter_const h1, seenB_const ss h2]
end

/-- What the names visible in a program depend on, of one child. -/
def sig {D : Type} (x : Item D) : Str × (List Str → List (List Str)) := (x.declName, fun v => seenItem v x)

theorem seenP_sig {D D' : Type} : ∀ {p : List (Item D)} {q : List (Item D')}, p.map sig = q.map sig →
    ∀ v, seenP v p = seenP v q
  | [], [], _, v => rfl
  | [], _ :: _, h, _ => by cases h
  | _ :: _, [], h, _ => by cases h
  | x :: xs, y :: ys, h, v => by
    simp only [List.map_cons, List.cons.injEq] at h
    have h1 : x.declName = y.declName := congrArg Prod.fst h.1
    have h2 : seenItem v x = seenItem v y := congrFun (congrArg Prod.snd h.1) v
    rw [seenP, seenP, h1, h2, seenP_sig h.2]

theorem annItem_sig {L : Layout} {p0 : Prog Unit} {i : Nat} {x : Item Unit} {y : Item Ref}
    (h : annItem L p0 i x = .ok y) : sig y = sig x := by
  cases x with
  | var t c init =>
    rw [annItem] at h
    split at h
    · cases h
    · cases h
      rfl
  | syscall n a =>
    cases h
    rfl
  | func f =>
    rw [annItem] at h
    split at h
    · cases h
    · rename_i hb
      cases h
      simp only [sig, seenItem, Item.declName, Prod.mk.injEq, true_and]
      funext v
      exact seenB_ann _ hb _

theorem annItems_sig {L : Layout} {p0 : Prog Unit} : ∀ {i : Nat} {p : List (Item Unit)} {q : Prog Ref},
    annItems L p0 i p = .ok q → q.map sig = p.map sig
  | i, [], q, h => by
    rw [annItems] at h
    cases h
    rfl
  | i, x :: xs, q, h => by
    rw [annItems] at h
    split at h
    · cases h
    · rename_i x' hx
      split at h
      · cases h
      · rename_i xs' hxs
        cases h
        rw [List.map_cons, List.map_cons, annItem_sig hx, annItems_sig hxs]

theorem globalPass_sig : ∀ {is : List Nat} {p q : Prog Ref} {ch ch' : Bool},
    globalPass is p ch = .ok (q, ch') → q.map sig = p.map sig
  | [], p, q, ch, ch', h => by
    rw [globalPass] at h
    cases h
    rfl
  | i :: is, p, q, ch, ch', h => by
    rw [globalPass] at h
    split at h
    · rename_i t c e hi
      split at h
      · cases h
      · exact (globalPass_sig h).trans (map_set_same hi rfl)
    · exact globalPass_sig h

theorem globalLoop_sig : ∀ {n : Nat} {p q : Prog Ref}, globalLoop n p = .ok q → q.map sig = p.map sig
  | 0, p, q, h => by rw [globalLoop] at h; cases h
  | n + 1, p, q, h => by
    rw [globalLoop] at h
    split at h
    · cases h
    · rename_i h1
      exact (globalLoop_sig h).trans (globalPass_sig h1)
    · rename_i h1
      cases h
      exact globalPass_sig h1

theorem globalVars_sig {p q : Prog Ref} (h : globalVars p = .ok q) : q.map sig = p.map sig := by
  unfold globalVars at h
  split at h
  · cases h
  · rename_i h1
    split at h
    · cases h
    · rename_i h2
      cases h
      exact (globalPass_sig h2).trans (globalLoop_sig h1)

theorem constItem_sig {p : Prog Ref} {x y : Item Ref} (h : constItem p x = .ok y) : sig y = sig x := by
  cases x with
  | var t c init =>
    rw [constItem] at h
    split at h
    · cases h
    · split at h
      · exact absurd h errTok_ne
      · cases h
        rfl
  | func f =>
    rw [constItem] at h
    split at h
    · cases h
    · rename_i hb
      cases h
      simp only [sig, seenItem, Item.declName, Prod.mk.injEq, true_and]
      funext v
      exact seenB_const _ hb _
  | syscall n a =>
    cases h
    rfl

theorem constPass_sig : ∀ {is : List Nat} {p q : Prog Ref}, constPass is p = .ok q → q.map sig = p.map sig
  | [], p, q, h => by
    rw [constPass] at h
    cases h
    rfl
  | i :: is, p, q, h => by
    rw [constPass] at h
    split at h
    · exact constPass_sig h
    · rename_i x hi
      split at h
      · cases h
      · rename_i y hy
        exact (constPass_sig h).trans (map_set_same hi (constItem_sig hy))

theorem runSema_sig {L : Layout} {p : Prog Unit} {q : Prog Ref} (h : runSema L p = .ok q) :
    q.map sig = p.map sig := by
  obtain ⟨q1, q2, h1, h2, h3, _, _⟩ := runSema_steps h
  exact (constPass_sig h3).trans ((globalVars_sig h2).trans (annItems_sig h1))

theorem runSema_multi {L : Layout} {p : Prog Unit} {q : Prog Ref} (h : runSema L p = .ok q) :
    multiDecls p = .ok () := by
  obtain ⟨_, _, _, _, _, h4, _⟩ := runSema_steps h
  rw [C17_checked] at h4 ⊢
  rw [← seenP_sig (runSema_sig h)]
  exact h4

/-! ### C17 -/

/-- C17: all functions, system calls and global variables of a program that passes semantic analysis
have different names. -/
theorem C17_globals {L : Layout} {p : Prog Unit} {q : Prog Ref} (h : runSema L p = .ok q) :
    (p.map Item.declName).Nodup := by
  obtain ⟨h1, h2, _⟩ := runSema_spec h
  exact h1 ▸ h2

/-- C17, proved part: at every point of a function of a program that passes semantic analysis, the
names of the local variables in scope, of the arguments, of the function itself and of everything
declared before it are all different.  Missing: globals declared after the function, which are visible
in it as well; see `C17_violated`. -/
theorem C17_partial {L : Layout} {p : Prog Unit} {q : Prog Ref} (h : runSema L p = .ok q) {i : Nat}
    {f : FuncDecl Unit} (hf : p[i]? = some (.func f)) :
    ∀ vis ∈ seenB (f.args.map Token.str).reverse f.body,
      (vis ++ ((p.take (i + 1)).map Item.declName).reverse).Nodup := by
  have hp := (C17_checked p).1 (runSema_multi h)
  have key : ∀ (p : List (Item Unit)) (before : List Str) (i : Nat), p[i]? = some (.func f) →
      (∀ n ∈ seenP before p, n.Nodup) →
      ∀ n ∈ seenB ((f.args.map Token.str).reverse ++ (((p.take (i + 1)).map Item.declName).reverse ++ before)) f.body,
        n.Nodup := by
    intro p
    induction p with
    | nil => intro before i hi; simp at hi
    | cons x xs ih =>
      intro before i hi hn
      rw [seenP, List.forall_mem_append] at hn
      cases i with
      | zero =>
        simp only [List.getElem?_cons_zero, Option.some.injEq] at hi
        subst hi
        simpa [seenItem, Item.declName] using hn.1
      | succ i =>
        have := ih (x.declName :: before) i (by simpa using hi) hn.2
        simpa using this
  have hk := key p [] i hf hp
  rw [List.append_nil] at hk
  intro vis hv
  exact hk _ (seenB_append f.body _ _ _ hv)
where
  seenS_append : ∀ (s : Stmt Unit) (v w x : List Str), x ∈ seenS v s → x ++ w ∈ seenS (v ++ w) s
    | .ifS t c thn he els, v, w, x, h => by
      rw [seenS, List.mem_append] at h ⊢
      exact h.imp (seenB_append thn _ _ _) (seenB_append els _ _ _)
    | .whileS t c b, v, w, x, h => by
      rw [seenS] at h ⊢
      exact seenB_append b _ _ _ h
    | .forS _ _ _ _ _ b, v, w, x, h => by
      rw [seenS] at h ⊢
      exact seenB_append b _ _ _ h
    | .var .., v, w, x, h => by cases h
    | .assign .., v, w, x, h => by cases h
    | .assignArr .., v, w, x, h => by cases h
    | .assignMem .., v, w, x, h => by cases h
    | .call .., v, w, x, h => by cases h
    | .ret .., v, w, x, h => by cases h
  seenB_append : ∀ (b : List (Stmt Unit)) (v w x : List Str), x ∈ seenB v b → x ++ w ∈ seenB (v ++ w) b
    | [], v, w, x => by simp [seenB]
    | s :: ss, v, w, x => by
      have e : namesAfter (v ++ w) s = namesAfter v s ++ w := by cases s <;> rfl
      simp only [seenB, List.mem_cons, List.mem_append]
      rintro (rfl | h | h)
      · exact .inl rfl
      · exact .inr (.inl (seenS_append s _ _ _ h))
      · exact .inr (.inr (e ▸ seenB_append ss _ _ _ h))

/-- The full claim of C17: at every point of every function the names of the local variables in scope,
of the arguments and of all global declarations are different. -/
def AllDifferent {D : Type} (p : Prog D) : Prop :=
  ∀ f, Item.func f ∈ p → ∀ vis ∈ seenB (f.args.map Token.str).reverse f.body, (vis ++ p.map Item.declName).Nodup

/-- `function main(a)` with `var b` in an `if`, and `var b` behind it. -/
def lateTree : Prog Unit :=
  [.var (nm "g") false none,
   .func { name := nm "main", args := [nm "a"], stop := tk .END "end", body := [
     .ifS (tk .IF "if") (ix "a") [.var (nm "b") () (some (lit 7)), .ret (tk .RETURN "return") (some (ix "b"))]
       true [.var (nm "c") () (some (ix "a"))],
     .ret (tk .RETURN "return") (some (ix "a"))] },
   .var (nm "b") false none]

theorem lateTree_ok : (match runSema sampleLayout lateTree with | .ok _ => true | _ => false) = true := by
  decide +kernel

/-- C17 is violated: a local variable may have the name of a global that is declared further down. -/
theorem C17_violated : ∃ (L : Layout) (p : Prog Unit) (q : Prog Ref), runSema L p = .ok q ∧ ¬ AllDifferent p := by
  have h := lateTree_ok
  split at h
  · rename_i q hq
    refine ⟨_, _, q, hq, fun k => ?_⟩
    have k1 := k _ (List.mem_cons_of_mem _ (List.mem_cons_self ..)) [str "b", str "a"] (by decide +kernel)
    revert k1
    decide +kernel
  · cases h

/-- The points of `main` in that program. -/
example : seenB [str "a"] (match lateTree[1]? with | some (Item.func f) => f.body | _ => []) =
    [[str "a"], [str "a"], [str "b", str "a"], [str "b", str "a"], [str "a"], [str "c", str "a"], [str "a"],
      [str "a"]] := by decide +kernel

/-! ### C18: lexical scoping -/

/-- The declarations in scope, innermost first. -/
abbrev Names := List (Str × Ref)

/-- The declaration a name refers to. -/
def Names.find (ns : Names) (n : Str) : Option Ref := (List.find? (fun d => d.1 == n) ns).map (·.2)

mutual
/-- An expression with every name replaced by what it refers to; `none` if some name refers to
nothing, or a member is taken of something that is no variable. -/
def nameE (find : Str → Option Ref) (var : Ref → Bool) : Expr Unit → Option (Expr Ref)
  | .ident t _ => (find t.str).map (.ident t)
  | .int v t c => some (.int v t c)
  | .float v t => some (.float v t)
  | .str v t => some (.str v t)
  | .none t => some (.none t)
  | .member t m _ => ((find t.str).filter var).map (.member t m)
  | .arr t es => (nameEs find var es).map (.arr t)
  | .deref t l i => (nameE find var l).bind fun l => (nameE find var i).map (.deref t l)
  | .call t c as => (nameE find var c).bind fun c => (nameEs find var as).map (.call t c)
  | .bin op l r => (nameE find var l).bind fun l => (nameE find var r).map (.bin op l)
  | .un op a => (nameE find var a).map (.un op)
/-- Expressions in order. -/
def nameEs (find : Str → Option Ref) (var : Ref → Bool) : List (Expr Unit) → Option (List (Expr Ref))
  | [] => some []
  | e :: es => (nameE find var e).bind fun e => (nameEs find var es).map (e :: ·)
end

/-- An expression that may be missing. -/
def nameO (find : Str → Option Ref) (var : Ref → Bool) : Option (Expr Unit) → Option (Option (Expr Ref))
  | none => some none
  | some e => (nameE find var e).map some

mutual
/-- A statement where `ns` is in scope; `k` local variables came before it in the function.  The result
has what is in scope behind it and the new number. -/
def nameS (var : Ref → Bool) (ns : Names) (k : Nat) : Stmt Unit → Option (Stmt Ref × Names × Nat)
  | .var t _ init => (nameO ns.find var init).map fun e => (.var t (.loc k) e, (t.str, .loc k) :: ns, k + 1)
  | .assign t _ e => (nameE ns.find var e).bind fun e =>
      ((ns.find t.str).filter var).map fun r => (.assign t r e, ns, k)
  | .assignArr t _ i e => (nameE ns.find var i).bind fun i => (nameE ns.find var e).bind fun e =>
      ((ns.find t.str).filter var).map fun r => (.assignArr t r i e, ns, k)
  | .assignMem t m _ e => (nameE ns.find var e).bind fun e =>
      ((ns.find t.str).filter var).map fun r => (.assignMem t m r e, ns, k)
  | .call t c as => (nameE ns.find var c).bind fun c => (nameEs ns.find var as).map fun as => (.call t c as, ns, k)
  | .ifS t c thn he els => (nameE ns.find var c).bind fun c =>
      (nameB var ns k thn).bind fun (thn, k) =>
        (nameB var ns k els).map fun (els, k) => (.ifS t c thn he els, ns, k)
  | .whileS t c body => (nameE ns.find var c).bind fun c =>
      (nameB var ns k body).map fun (body, k) => (.whileS t c body, ns, k)
  | .forS t n _ a b body => ((ns.find n.str).filter var).bind fun r =>
      (nameE ns.find var a).bind fun a => (nameE ns.find var b).bind fun b =>
        (nameB var ns k body).map fun (body, k) => (.forS t n r a b body, ns, k)
  | .ret t e => (nameO ns.find var e).map fun e => (.ret t e, ns, k)
/-- A block: what it declares is in scope up to its end. -/
def nameB (var : Ref → Bool) (ns : Names) (k : Nat) : List (Stmt Unit) → Option (List (Stmt Ref) × Nat)
  | [] => some ([], k)
  | s :: ss => (nameS var ns k s).bind fun (s, ns, k) => (nameB var ns k ss).map fun (ss, k) => (s :: ss, k)
end

/-- The declarations outside all functions. -/
def globalNames (p : Prog Unit) : Names := p.mapIdx fun i x => (x.declName, .item i)

/-- The arguments of a function. -/
def argNames (args : List Token) : Names := (args.mapIdx fun i t => (t.str, .arg i)).reverse

/-- Arguments, local variables and global variables are variables, functions and system calls are not. -/
def isVarOf (p : Prog Unit) : Ref → Bool
  | .item i => match p[i]? with
    | some (.var ..) => true
    | _ => false
  | _ => true

/-- A child of the program. -/
def nameItem (p : Prog Unit) : Item Unit → Option (Item Ref)
  | .var t c init => (nameO (globalNames p).find (isVarOf p) init).map (.var t c)
  | .func f => (nameB (isVarOf p) (argNames f.args ++ globalNames p) 0 f.body).map fun (b, _) =>
      .func ⟨f.name, f.args, b, f.stop⟩
  | .syscall n a => some (.syscall n a)

/-- The children of a program. -/
def nameItems (p : Prog Unit) : List (Item Unit) → Option (Prog Ref)
  | [] => some []
  | x :: xs => (nameItem p x).bind fun x => (nameItems p xs).map (x :: ·)

/-- The program with every name replaced by the declaration it refers to under lexical scoping. -/
def resolve (p : Prog Unit) : Option (Prog Ref) := nameItems p p

mutual
/-- The names in an expression. -/
def mentionE : Expr Unit → List Str
  | .ident t _ => [t.str]
  | .member t _ _ => [t.str]
  | .arr _ es => mentionEs es
  | .deref _ l i => mentionE l ++ mentionE i
  | .call _ c as => mentionE c ++ mentionEs as
  | .bin _ l r => mentionE l ++ mentionE r
  | .un _ a => mentionE a
  | _ => []
/-- The names in expressions. -/
def mentionEs : List (Expr Unit) → List Str
  | [] => []
  | e :: es => mentionE e ++ mentionEs es
end

/-- The names in an expression that may be missing. -/
def mentionO : Option (Expr Unit) → List Str
  | none => []
  | some e => mentionE e

/-- The names the statements of a block declare, without those of blocks inside it. -/
def declared : List (Stmt Unit) → List Str
  | [] => []
  | .var t _ _ :: ss => t.str :: declared ss
  | _ :: ss => declared ss

/-- None of the names is in the list. -/
def Free (H names : List Str) : Prop := ∀ n ∈ names, n ∉ H

mutual
/-- The statement mentions no name of `H`, and no `else` branch mentions a name that its `then` branch
declares. -/
def ApartS (H : List Str) : Stmt Unit → Prop
  | .var t _ init => Free H (t.str :: mentionO init)
  | .assign t _ e => Free H (t.str :: mentionE e)
  | .assignArr t _ i e => Free H (t.str :: (mentionE i ++ mentionE e))
  | .assignMem t _ _ e => Free H (t.str :: mentionE e)
  | .call _ c as => Free H (mentionE c ++ mentionEs as)
  | .ifS _ c thn _ els => Free H (mentionE c) ∧ ApartB H thn ∧ ApartB (declared thn ++ H) els
  | .whileS _ c body => Free H (mentionE c) ∧ ApartB H body
  | .forS _ n _ a b body => Free H (n.str :: (mentionE a ++ mentionE b)) ∧ ApartB H body
  | .ret _ e => Free H (mentionO e)
/-- The same of all statements of a block. -/
def ApartB (H : List Str) : List (Stmt Unit) → Prop
  | [] => True
  | s :: ss => ApartS H s ∧ ApartB H ss
end

/-- No `else` branch of the program mentions a name that its `then` branch declares. -/
def ElseApart (p : Prog Unit) : Prop := ∀ f, Item.func f ∈ p → ApartB [] f.body

/-! #### Proofs -/

mutual
theorem annE_name {lk : Look} {find : Str → Option Ref} : ∀ (e : Expr Unit),
    (∀ n ∈ mentionE e, lk.find n = find n) → (annE lk e).toOption = nameE find lk.isVar e
  | .ident t _, h => by
    have := h t.str (by simp [mentionE])
    rw [annE, nameE, this]
    cases find t.str
    · simp only [unknownIdentifier]
      cases h : (errTok t.line "unknown identifier '" t "'" : Comp (Expr Ref)) with
      | error x => rfl
      | ok x => exact absurd h errTok_ne
    · rfl
  | .int .., h => rfl
  | .float .., h => rfl
  | .str .., h => rfl
  | .none _, h => rfl
  | .member t m _, h => by
    have := h t.str (by simp [mentionE])
    rw [annE, nameE, this]
    cases find t.str with
    | none =>
      simp only [unknownIdentifier]
      cases h : (errTok t.line "unknown identifier '" t "'" : Comp (Expr Ref)) with
      | error x => rfl
      | ok x => exact absurd h errTok_ne
    | some r =>
      by_cases hr : lk.isVar r = true
      · simp [hr, Option.filter, Except.toOption]
      · simp [hr, Option.filter, Except.toOption, cFault]
  | .arr t es, h => by
    have h1 := annEs_name es (fun n hn => h n (by simpa [mentionE] using hn))
    rw [annE, nameE, ← h1]
    cases annEs lk es <;> rfl
  | .deref t l i, h => by
    simp only [mentionE, List.mem_append] at h
    have h1 := annE_name l (fun n hn => h n (.inl hn))
    have h2 := annE_name i (fun n hn => h n (.inr hn))
    rw [annE, nameE, ← h1, ← h2]
    cases annE lk l <;> cases annE lk i <;> rfl
  | .call t c as, h => by
    simp only [mentionE, List.mem_append] at h
    have h1 := annE_name c (fun n hn => h n (.inl hn))
    have h2 := annEs_name as (fun n hn => h n (.inr hn))
    rw [annE, nameE, ← h1, ← h2]
    cases annE lk c <;> cases annEs lk as <;> rfl
  | .bin op l i, h => by
    simp only [mentionE, List.mem_append] at h
    have h1 := annE_name l (fun n hn => h n (.inl hn))
    have h2 := annE_name i (fun n hn => h n (.inr hn))
    rw [annE, nameE, ← h1, ← h2]
    cases annE lk l <;> cases annE lk i <;> rfl
  | .un op a, h => by
    have h1 := annE_name a (fun n hn => h n (by simpa [mentionE] using hn))
    rw [annE, nameE, ← h1]
    cases annE lk a <;> rfl
theorem annEs_name {lk : Look} {find : Str → Option Ref} : ∀ (es : List (Expr Unit)),
    (∀ n ∈ mentionEs es, lk.find n = find n) → (annEs lk es).toOption = nameEs find lk.isVar es
  | [], h => rfl
  | e :: es, h => by
    simp only [mentionEs, List.mem_append] at h
    have h1 := annE_name e (fun n hn => h n (.inl hn))
    have h2 := annEs_name es (fun n hn => h n (.inr hn))
    rw [annEs, nameEs, ← h1, ← h2]
    cases annE lk e <;> cases annEs lk es <;> rfl
end

theorem annO_name {lk : Look} {find : Str → Option Ref} (o : Option (Expr Unit))
    (h : ∀ n ∈ mentionO o, lk.find n = find n) : (annO lk o).toOption = nameO find lk.isVar o := by
  cases o with
  | none => rfl
  | some e =>
    have h1 := annE_name e h
    rw [annO, nameO, ← h1]
    cases annE lk e <;> rfl

theorem target_name {E : AnnEnv} {ss : List Scope} {ns : Names} {t : Token} {bad : Token → Comp Ref}
    (hb : ∀ t r, bad t ≠ .ok r) (h : findDecl E.addr t.str ss = ns.find t.str) :
    (E.target ss t bad).toOption = (ns.find t.str).filter E.isVar := by
  have hbad : (bad t).toOption = none := by
    cases h : bad t with
    | error x => rfl
    | ok x => exact absurd h (hb _ _)
  unfold AnnEnv.target
  rw [h]
  cases ns.find t.str with
  | none => exact hbad
  | some r =>
    by_cases hr : E.isVar r = true
    · simp [hr, Option.filter, Except.toOption]
    · simpa [hr, Option.filter] using hbad

theorem findDecl_empty (addr : Ref → Nat) (n : Str) (ss : List Scope) :
    findDecl addr n ([] :: ss) = findDecl addr n ss := rfl

theorem pick_none {addr : Ref → Nat} {n : Str} : ∀ {s : Scope}, (∀ d ∈ s, d.name ≠ n) → s.pick addr n = none
  | [], _ => rfl
  | d :: ds, h => by
    rw [Scope.pick, pick_none (fun x hx => h x (List.mem_cons_of_mem _ hx))]
    simp [h d (List.mem_cons_self ..)]

/-- The scopes and the names in scope agree, except on the names `H`. -/
def Meets (E : AnnEnv) (H : List Str) (ss : List Scope) (ns : Names) : Prop :=
  ∀ n, n ∉ H → findDecl E.addr n ss = ns.find n

/-- What annotation makes of a statement, against lexical scoping. -/
def OutS (E : AnnEnv) (H v : List Str) (outer : List Scope) (more : Scope → Prop) :
    Comp (Stmt Ref × Scope × Nat) → Option (Stmt Ref × Names × Nat) → Prop
  | .ok (s, cur, k), some (s', ns, k') =>
    s = s' ∧ k = k' ∧ Meets E H (cur :: outer) ns ∧ (∀ d ∈ cur, d.name ∈ H ∨ d.name ∈ v) ∧ more cur
  | .error _, none => True
  | _, _ => False

/-- The same of a block. -/
def OutB (more : Scope → Prop) : Comp (List (Stmt Ref) × Scope × Nat) → Option (List (Stmt Ref) × Nat) → Prop
  | .ok (s, cur, k), some (s', k') => s = s' ∧ k = k' ∧ more cur
  | .error _, none => True
  | _, _ => False

theorem unknownVariable_ne (t : Token) (r : Ref) : unknownVariable t ≠ .ok r := errTok_ne
theorem unknownArray_ne (t : Token) (r : Ref) : unknownArray t ≠ .ok r := errTok_ne
theorem unknownIdentifier_ne (t : Token) (r : Ref) : unknownIdentifier t ≠ .ok r := errTok_ne

/-- The declarations of `cur'` are those of `cur` and some with the names `l`. -/
def Adds (cur : Scope) (l : List Str) (cur' : Scope) : Prop := ∀ d ∈ cur', d ∈ cur ∨ d.name ∈ l

mutual
theorem annS_name {E : AnnEnv} : ∀ (s : Stmt Unit) {outer : List Scope} {cur : Scope} {k : Nat} {H vis v : List Str}
    {ns : Names}, Meets E H (cur :: outer) ns → (∀ d ∈ cur, d.name ∈ H ∨ d.name ∈ vis) → ApartS H s →
    multiS vis s = .ok v →
    OutS E H v outer (Adds cur (declared [s])) (annS E outer cur k s) (nameS E.isVar ns k s)
  | .var t d init, outer, cur, k, H, vis, v, ns, hm, hc, ha, hv => by
    rw [ApartS] at ha
    obtain ⟨hv1, rfl⟩ := declare_ok (d := ()) hv
    have h1 := annO_name (lk := E.look (cur :: outer)) (find := ns.find) init
      (fun n hn => hm n (ha n (List.mem_cons_of_mem _ hn)))
    rw [annS, nameS, show E.isVar = (E.look (cur :: outer)).isVar from rfl, ← h1]
    cases annO (E.look (cur :: outer)) init with
    | error x => exact True.intro
    | ok e =>
      have hH := ha t.str (List.mem_cons_self ..)
      refine ⟨rfl, rfl, fun n hn => ?_, fun x hx => ?_, fun x hx => ?_⟩
      · by_cases he : t.str = n
        · have hp : Scope.pick E.addr n cur = none := by
            refine pick_none fun x hx e => ?_
            rcases hc x hx with k | k
            · exact hn (e ▸ k)
            · exact hv1 (he ▸ e ▸ k)
          have : Scope.pick E.addr n (⟨t.str, .loc k⟩ :: cur) = some (.loc k) := by
            rw [Scope.pick, hp]
            simp [he]
          rw [findDecl, this]
          simp [Names.find, he]
        · have : Scope.pick E.addr n (⟨t.str, .loc k⟩ :: cur) = Scope.pick E.addr n cur := by
            rw [Scope.pick]
            cases Scope.pick E.addr n cur <;> simp [he]
          have h2 := hm n hn
          rw [findDecl] at h2 ⊢
          rw [this, h2]
          simp [Names.find, he]
      · rcases List.mem_cons.1 hx with rfl | hx
        · exact .inr (List.mem_cons_self ..)
        · exact (hc x hx).imp id (List.mem_cons_of_mem _)
      · rcases List.mem_cons.1 hx with rfl | hx
        · exact .inr (by simp [declared])
        · exact .inl hx
  | .assign t d e, outer, cur, k, H, vis, v, ns, hm, hc, ha, hv => by
    rw [ApartS] at ha
    cases hv
    have h1 := annE_name (lk := E.look (cur :: outer)) (find := ns.find) e
      (fun n hn => hm n (ha n (List.mem_cons_of_mem _ hn)))
    have h2 := target_name (E := E) (ss := cur :: outer) (ns := ns) (t := t) unknownVariable_ne
      (hm _ (ha _ (List.mem_cons_self ..)))
    rw [annS, nameS, ← h2, show E.isVar = (E.look (cur :: outer)).isVar from rfl, ← h1]
    cases annE (E.look (cur :: outer)) e with
    | error x => exact True.intro
    | ok e =>
      cases E.target (cur :: outer) t unknownVariable with
      | error x => exact True.intro
      | ok r => exact ⟨rfl, rfl, hm, hc, fun d hd => .inl hd⟩
  | .assignArr t d i e, outer, cur, k, H, vis, v, ns, hm, hc, ha, hv => by
    rw [ApartS] at ha
    cases hv
    have h0 := annE_name (lk := E.look (cur :: outer)) (find := ns.find) i
      (fun n hn => hm n (ha n (by simp [hn])))
    have h1 := annE_name (lk := E.look (cur :: outer)) (find := ns.find) e
      (fun n hn => hm n (ha n (by simp [hn])))
    have h2 := target_name (E := E) (ss := cur :: outer) (ns := ns) (t := t) unknownArray_ne
      (hm _ (ha _ (List.mem_cons_self ..)))
    rw [annS, nameS, ← h2, show E.isVar = (E.look (cur :: outer)).isVar from rfl, ← h0, ← h1]
    cases annE (E.look (cur :: outer)) i with
    | error x => exact True.intro
    | ok i =>
      cases annE (E.look (cur :: outer)) e with
      | error x => exact True.intro
      | ok e =>
        cases E.target (cur :: outer) t unknownArray with
        | error x => exact True.intro
        | ok r => exact ⟨rfl, rfl, hm, hc, fun d hd => .inl hd⟩
  | .assignMem t m d e, outer, cur, k, H, vis, v, ns, hm, hc, ha, hv => by
    rw [ApartS] at ha
    cases hv
    have h1 := annE_name (lk := E.look (cur :: outer)) (find := ns.find) e
      (fun n hn => hm n (ha n (List.mem_cons_of_mem _ hn)))
    have h2 := target_name (E := E) (ss := cur :: outer) (ns := ns) (t := t) unknownIdentifier_ne
      (hm _ (ha _ (List.mem_cons_self ..)))
    rw [annS, nameS, ← h2, show E.isVar = (E.look (cur :: outer)).isVar from rfl, ← h1]
    cases annE (E.look (cur :: outer)) e with
    | error x => exact True.intro
    | ok e =>
      cases E.target (cur :: outer) t unknownIdentifier with
      | error x => exact True.intro
      | ok r => exact ⟨rfl, rfl, hm, hc, fun d hd => .inl hd⟩
  | .call t c as, outer, cur, k, H, vis, v, ns, hm, hc, ha, hv => by
    rw [ApartS] at ha
    cases hv
    have h1 := annE_name (lk := E.look (cur :: outer)) (find := ns.find) c
      (fun n hn => hm n (ha n (by simp [hn])))
    have h2 := annEs_name (lk := E.look (cur :: outer)) (find := ns.find) as
      (fun n hn => hm n (ha n (by simp [hn])))
    rw [annS, nameS, show E.isVar = (E.look (cur :: outer)).isVar from rfl, ← h1, ← h2]
    cases annE (E.look (cur :: outer)) c with
    | error x => cases annEs (E.look (cur :: outer)) as <;> exact True.intro
    | ok c =>
      cases annEs (E.look (cur :: outer)) as with
      | error x => exact True.intro
      | ok r => exact ⟨rfl, rfl, hm, hc, fun d hd => .inl hd⟩
  | .ret t e, outer, cur, k, H, vis, v, ns, hm, hc, ha, hv => by
    rw [ApartS] at ha
    cases hv
    have h1 := annO_name (lk := E.look (cur :: outer)) (find := ns.find) e (fun n hn => hm n (ha n hn))
    rw [annS, nameS, show E.isVar = (E.look (cur :: outer)).isVar from rfl, ← h1]
    cases annO (E.look (cur :: outer)) e with
    | error x => exact True.intro
    | ok e => exact ⟨rfl, rfl, hm, hc, fun d hd => .inl hd⟩
  | .ifS t c thn he els, outer, cur, k, H, vis, v, ns, hm, hc, ha, hv => by
    rw [ApartS] at ha
    obtain ⟨ha1, ha2, ha3⟩ := ha
    rw [multiS] at hv
    split at hv
    · cases hv
    · rename_i v1 hv1
      split at hv
      · cases hv
      · rename_i v2 hv2
        cases hv
        have h1 := annE_name (lk := E.look ([] :: cur :: outer)) (find := ns.find) c
          (fun n hn => hm n (ha1 n hn))
        have h2 := annB_name (E := E) thn (outer := cur :: outer) (cur := []) (k := k) (ns := ns) hm
          (fun d hd => by cases hd) ha2 hv1
        rw [annS, nameS, show nameE ns.find E.isVar c = nameE ns.find (E.look ([] :: cur :: outer)).isVar c from rfl,
          ← h1]
        cases annE (E.look ([] :: cur :: outer)) c with
        | error x => exact True.intro
        | ok c =>
          simp only [Except.toOption, Option.bind_some]
          revert h2
          rcases annB E (cur :: outer) [] k thn with x | ⟨thn', sc, k1⟩ <;>
            rcases nameB E.isVar ns k thn with _ | ⟨thn'', k1'⟩ <;> intro h2
          · exact True.intro
          · exact h2.elim
          · exact h2.elim
          · obtain ⟨rfl, rfl, hsc⟩ := h2
            have hsc : ∀ d ∈ sc, d.name ∈ declared thn := fun d hd => (hsc d hd).elim (fun h => by cases h) id
            have h3 := annB_name (E := E) els (outer := cur :: outer) (cur := sc) (k := k1) (ns := ns)
              (H := declared thn ++ H) (vis := vis) (fun n hn => by
                rw [List.mem_append, not_or] at hn
                have : Scope.pick E.addr n sc = none := pick_none fun d hd e => hn.1 (e ▸ hsc d hd)
                rw [findDecl, this]
                exact hm n hn.2) (fun d hd => .inl (List.mem_append_left _ (hsc d hd))) ha3 hv2
            simp only [Option.bind_some]
            revert h3
            rcases annB E (cur :: outer) sc k1 els with x | ⟨els', sc', k2⟩ <;>
              rcases nameB E.isVar ns k1 els with _ | ⟨els'', k2'⟩ <;> intro h3
            · exact True.intro
            · exact h3.elim
            · exact h3.elim
            · obtain ⟨rfl, rfl, _⟩ := h3
              exact ⟨rfl, rfl, hm, hc, fun d hd => .inl hd⟩
  | .whileS t c body, outer, cur, k, H, vis, v, ns, hm, hc, ha, hv => by
    rw [ApartS] at ha
    obtain ⟨ha1, ha2⟩ := ha
    rw [multiS] at hv
    split at hv
    · cases hv
    · rename_i v1 hv1
      cases hv
      have h1 := annE_name (lk := E.look ([] :: cur :: outer)) (find := ns.find) c
        (fun n hn => hm n (ha1 n hn))
      have h2 := annB_name (E := E) body (outer := cur :: outer) (cur := []) (k := k) (ns := ns) hm
        (fun d hd => by cases hd) ha2 hv1
      rw [annS, nameS, show nameE ns.find E.isVar c = nameE ns.find (E.look ([] :: cur :: outer)).isVar c from rfl,
        ← h1]
      cases annE (E.look ([] :: cur :: outer)) c with
      | error x => exact True.intro
      | ok c =>
        simp only [Except.toOption, Option.bind_some]
        revert h2
        rcases annB E (cur :: outer) [] k body with x | ⟨thn', sc, k1⟩ <;>
          rcases nameB E.isVar ns k body with _ | ⟨thn'', k1'⟩ <;> intro h2
        · exact True.intro
        · exact h2.elim
        · exact h2.elim
        · obtain ⟨rfl, rfl, _⟩ := h2
          exact ⟨rfl, rfl, hm, hc, fun d hd => .inl hd⟩
  | .forS t nm d a b body, outer, cur, k, H, vis, v, ns, hm, hc, ha, hv => by
    rw [ApartS] at ha
    obtain ⟨ha1, ha2⟩ := ha
    rw [multiS] at hv
    split at hv
    · cases hv
    · rename_i v1 hv1
      cases hv
      have h0 := target_name (E := E) (ss := [] :: cur :: outer) (ns := ns) (t := nm) unknownVariable_ne
        (hm _ (ha1 _ (List.mem_cons_self ..)))
      have h1 := annE_name (lk := E.look ([] :: cur :: outer)) (find := ns.find) a
        (fun n hn => hm n (ha1 n (by simp [hn])))
      have h1' := annE_name (lk := E.look ([] :: cur :: outer)) (find := ns.find) b
        (fun n hn => hm n (ha1 n (by simp [hn])))
      have h2 := annB_name (E := E) body (outer := cur :: outer) (cur := []) (k := k) (ns := ns) hm
        (fun d hd => by cases hd) ha2 hv1
      rw [annS, nameS, ← h0, show nameE ns.find E.isVar a = nameE ns.find (E.look ([] :: cur :: outer)).isVar a from rfl,
        show nameE ns.find E.isVar b = nameE ns.find (E.look ([] :: cur :: outer)).isVar b from rfl, ← h1, ← h1']
      cases E.target ([] :: cur :: outer) nm unknownVariable with
      | error x => exact True.intro
      | ok r =>
        cases annE (E.look ([] :: cur :: outer)) a with
        | error x => exact True.intro
        | ok a =>
          cases annE (E.look ([] :: cur :: outer)) b with
          | error x => exact True.intro
          | ok b =>
            simp only [Except.toOption, Option.bind_some]
            revert h2
            rcases annB E (cur :: outer) [] k body with x | ⟨thn', sc, k1⟩ <;>
              rcases nameB E.isVar ns k body with _ | ⟨thn'', k1'⟩ <;> intro h2
            · exact True.intro
            · exact h2.elim
            · exact h2.elim
            · obtain ⟨rfl, rfl, _⟩ := h2
              exact ⟨rfl, rfl, hm, hc, fun d hd => .inl hd⟩
theorem annB_name {E : AnnEnv} : ∀ (b : List (Stmt Unit)) {outer : List Scope} {cur : Scope} {k : Nat}
    {H vis v : List Str} {ns : Names}, Meets E H (cur :: outer) ns → (∀ d ∈ cur, d.name ∈ H ∨ d.name ∈ vis) →
    ApartB H b → multiB vis b = .ok v →
    OutB (Adds cur (declared b)) (annB E outer cur k b) (nameB E.isVar ns k b)
  | [], outer, cur, k, H, vis, v, ns, hm, hc, ha, hv => ⟨rfl, rfl, fun d hd => .inl hd⟩
  | s :: ss, outer, cur, k, H, vis, v, ns, hm, hc, ha, hv => by
    rw [ApartB] at ha
    rw [multiB] at hv
    split at hv
    · cases hv
    · rename_i v1 hv1
      have h1 := annS_name s (k := k) hm hc ha.1 hv1
      rw [annB, nameB]
      revert h1
      rcases annS E outer cur k s with x | ⟨s', cur', k1⟩ <;>
        rcases nameS E.isVar ns k s with _ | ⟨s'', ns', k1'⟩ <;> intro h1
      · exact True.intro
      · exact h1.elim
      · exact h1.elim
      · obtain ⟨rfl, rfl, hm', hc', hd'⟩ := h1
        have h2 := annB_name ss (k := k1) hm' hc' ha.2 hv
        simp only [Option.bind_some]
        revert h2
        rcases annB E outer cur' k1 ss with x | ⟨ss', cur'', k2⟩ <;>
          rcases nameB E.isVar ns' k1 ss with _ | ⟨ss'', k2'⟩ <;> intro h2
        · exact True.intro
        · exact h2.elim
        · exact h2.elim
        · obtain ⟨rfl, rfl, hd''⟩ := h2
          refine ⟨rfl, rfl, fun d hd => ?_⟩
          have e : ∀ n, n ∈ declared (s :: ss) ↔ n ∈ declared [s] ∨ n ∈ declared ss := by
            intro n
            cases s <;> simp [declared]
          rw [e]
          rcases hd'' d hd with h | h
          · exact (hd' d h).imp id .inl
          · exact .inr (.inr h)
end

theorem pick_find {addr : Ref → Nat} {n : Str} : ∀ {s : Scope}, (s.map Decl.name).Nodup →
    s.pick addr n = (List.find? (fun d => d.name == n) s).map Decl.ref
  | [], _ => rfl
  | d :: ds, h => by
    rw [List.map_cons, List.nodup_cons] at h
    rw [Scope.pick]
    by_cases he : d.name = n
    · rw [pick_none fun x hx e => h.1 (by rw [he, ← e]; exact List.mem_map_of_mem hx)]
      simp [he]
    · rw [pick_find h.2]
      simp only [he, if_false, false_and, List.find?_cons, beq_eq_false_iff_ne.2 he]
      cases (List.find? (fun d => d.name == n) ds).map Decl.ref <;> rfl

/-- A scope as names. -/
def asNames (s : Scope) : Names := s.map fun d => (d.name, d.ref)

theorem find_asNames (s : Scope) (n : Str) :
    (asNames s).find n = (List.find? (fun d => d.name == n) s).map Decl.ref := by
  unfold Names.find asNames
  rw [List.find?_map]
  simp [Function.comp_def]

theorem find_append (a b : Names) (n : Str) : Names.find (a ++ b) n = match a.find n with
    | some r => some r
    | none => b.find n := by
  unfold Names.find
  rw [List.find?_append]
  cases List.find? (fun d => d.1 == n) a <;> rfl

theorem map_mapIdx' {α β γ : Type} (g : β → γ) (f : Nat → α → β) (l : List α) :
    (l.mapIdx f).map g = l.mapIdx fun i x => g (f i x) := by
  apply List.ext_getElem? fun n => ?_
  simp only [List.getElem?_map, List.getElem?_mapIdx, Option.map_map]
  rfl

theorem mapIdx_map' {α β : Type} (f : α → β) (l : List α) : (l.mapIdx fun _ x => f x) = l.map f := by
  apply List.ext_getElem? fun n => ?_
  simp only [List.getElem?_map, List.getElem?_mapIdx]

theorem globalNames_eq (p : Prog Unit) : globalNames p = asNames (globalScope p) := by
  unfold globalNames asNames globalScope
  rw [map_mapIdx']

theorem argNames_eq (args : List Token) : argNames args = asNames (argScope args) := by
  unfold argNames asNames argScope
  rw [List.map_reverse, map_mapIdx']

theorem globalScope_names (p : Prog Unit) : (globalScope p).map Decl.name = p.map Item.declName := by
  unfold globalScope
  rw [map_mapIdx']
  exact mapIdx_map' _ _

theorem argScope_names (args : List Token) : (argScope args).map Decl.name = (args.map Token.str).reverse := by
  unfold argScope
  rw [List.map_reverse, map_mapIdx']
  exact congrArg List.reverse (mapIdx_map' _ _)

theorem isVarOf_eq (p : Prog Unit) : refIsVar p = isVarOf p := by
  funext r
  cases r with
  | item i =>
    simp only [refIsVar, isVarOf]
    cases p[i]? with
    | none => rfl
    | some x => cases x <;> rfl
  | arg i => rfl
  | loc k => rfl

theorem annItem_name {L : Layout} {p : Prog Unit} {vis v : List Str} (hg : (p.map Item.declName).Nodup)
    (i : Nat) (x : Item Unit) (hx : multiItem vis x = .ok v) (hv : vis.Nodup)
    (ha : ∀ f, x = .func f → ApartB [] f.body) :
    (annItem L p i x).toOption = nameItem p x := by
  have hfind : ∀ n, findDecl (L.addr i) n [globalScope p] = (globalNames p).find n := by
    intro n
    rw [globalNames_eq, find_asNames, findDecl, pick_find (by rw [globalScope_names]; exact hg)]
    cases (List.find? (fun d => d.name == n) (globalScope p)).map Decl.ref <;> rfl
  cases x with
  | syscall n a => rfl
  | var t c init =>
    have h1 := annO_name (lk := (AnnEnv.mk (L.addr i) (refIsVar p)).look [globalScope p])
      (find := (globalNames p).find) init (fun n _ => hfind n)
    have h1 : _ = nameO (globalNames p).find (refIsVar p) init := h1
    rw [annItem, nameItem, ← isVarOf_eq, ← h1]
    cases annO ((AnnEnv.mk (L.addr i) (refIsVar p)).look [globalScope p]) init <;> rfl
  | func f =>
    rw [multiItem] at hx
    split at hx
    · exact absurd hx errTok_ne
    · rename_i hn
      split at hx
      · cases hx
      · rename_i v1 hv1
        split at hx
        · cases hx
        · rename_i v2 hv2
          have hn : f.name.str ∉ vis := by simpa using hn
          obtain ⟨h1, rfl⟩ := (multiArgs_iff f.args _ v1 (List.nodup_cons.2 ⟨hn, hv⟩)).1 hv1
          have hm : Meets ⟨L.addr i, refIsVar p⟩ [] [argScope f.args, globalScope p]
              (argNames f.args ++ globalNames p) := by
            intro n _
            rw [find_append, argNames_eq, find_asNames, findDecl,
              pick_find (by rw [argScope_names]; exact (List.nodup_append.1 h1).1), ← hfind n]
            rfl
          have h2 := annB_name f.body (k := 0) hm (vis := (f.args.map Token.str).reverse ++ f.name.str :: vis)
            (fun d hd => .inr (List.mem_append_left _ (by
              rw [← argScope_names]; exact List.mem_map_of_mem hd))) (ha f rfl) hv2
          rw [annItem, nameItem, ← isVarOf_eq]
          revert h2
          simp only
          rcases annB ⟨L.addr i, refIsVar p⟩ [globalScope p] (argScope f.args) 0 f.body with x | ⟨b, sc, k1⟩ <;>
            rcases nameB (refIsVar p) (argNames f.args ++ globalNames p) 0 f.body with _ | ⟨b', k1'⟩ <;> intro h2
          · rfl
          · exact h2.elim
          · exact h2.elim
          · obtain ⟨rfl, rfl, _⟩ := h2
            rfl

theorem annItems_name {L : Layout} {p : Prog Unit} (hg : (p.map Item.declName).Nodup) :
    ∀ (xs : List (Item Unit)) (i : Nat) (vis : List Str), vis.Nodup → multiItems vis xs = .ok () →
      (∀ f, Item.func f ∈ xs → ApartB [] f.body) → (annItems L p i xs).toOption = nameItems p xs
  | [], i, vis, hv, hm, ha => rfl
  | x :: xs, i, vis, hv, hm, ha => by
    rw [multiItems] at hm
    split at hm
    · cases hm
    · rename_i v h1
      have hv' := ((multiItem_iff x vis v hv).1 h1).2
      have h2 := annItem_name (L := L) hg i x h1 hv (fun f hf => ha f (hf ▸ List.mem_cons_self ..))
      have h3 := annItems_name (L := L) hg xs (i + 1) v (hv'.2 ▸ hv'.1) hm
        (fun f hf => ha f (List.mem_cons_of_mem _ hf))
      rw [annItems, nameItems, ← h2, ← h3]
      cases annItem L p i x <;> cases annItems L p (i + 1) xs <;> rfl

/-! ### C18 -/

/-- C18, proved part: if no `else` branch mentions a name that its `then` branch declares, semantic
analysis resolves names as lexical scoping does, for every layout of the nodes in memory.  Missing:
programs with such `else` branches; see `C18_violated` and `C18_leaks`. -/
theorem C18_partial {L : Layout} {p : Prog Unit} {q : Prog Ref} (h : runSema L p = .ok q) (he : ElseApart p) :
    ∃ q1, annotate L p = .ok q1 ∧ resolve p = some q1 := by
  obtain ⟨q1, _, h1, _⟩ := runSema_steps h
  have h2 := annItems_name (L := L) (C17_globals h) p 0 [] List.nodup_nil (runSema_multi h) he
  refine ⟨q1, h1, ?_⟩
  unfold annotate at h1
  rw [h1] at h2
  exact h2.symm

/-- C18, proved part: then the tree does not depend on where the nodes lie in memory. -/
theorem C18_layout_partial {L : Layout} {p : Prog Unit} {q : Prog Ref} (h : runSema L p = .ok q)
    (he : ElseApart p) (L' : Layout) : runSema L' p = .ok q := by
  obtain ⟨q1, h1, h2⟩ := C18_partial h he
  have h3 := annItems_name (L := L') (C17_globals h) p 0 [] List.nodup_nil (runSema_multi h) he
  have h4 : annotate L' p = .ok q1 := by
    unfold annotate
    cases ha : annItems L' p 0 p with
    | ok q' =>
      rw [ha] at h3
      have : some q' = some q1 := h3.trans h2
      cases this
      rfl
    | error x =>
      rw [ha] at h3
      have : none = some q1 := h3.trans h2
      cases this
  unfold runSema at h ⊢
  rw [h1] at h
  rw [h4]
  exact h

/-- The hypotheses hold of a program with an `else` branch, and it has names to resolve. -/
example : ∃ q, runSema sampleLayout lateTree = .ok q ∧ ElseApart lateTree ∧
    (∃ q1, resolve lateTree = some q1 ∧ q1 ≠ []) := by
  have h := lateTree_ok
  split at h
  · rename_i q hq
    have he : ElseApart lateTree := by
      intro f hf
      simp only [lateTree, List.mem_cons, List.not_mem_nil, or_false, reduceCtorEq, false_or] at hf
      cases hf
      simp only [ApartB, ApartS, Free, mentionE, mentionO, declared]
      decide +kernel
    refine ⟨q, hq, he, ?_⟩
    obtain ⟨q1, h1, h2⟩ := C18_partial hq he
    refine ⟨q1, h2, fun e => ?_⟩
    have := (annItems_spec h1).1
    rw [e] at this
    cases this
  · cases h

/-- `if (a) var x = 1 else var x = 2, return x end`. -/
def twiceTree : Prog Unit :=
  [.func { name := nm "main", args := [nm "a"], stop := tk .END "end", body := [
     .ifS (tk .IF "if") (ix "a") [.var (nm "x") () (some (lit 1))] true
       [.var (nm "x") () (some (lit 2)), .ret (tk .RETURN "return") (some (ix "x"))]] }]

/-- Nodes made later lie higher in memory. -/
def upward : Layout := ⟨fun i => i, fun _ r => match r with | .loc k => k | _ => 0⟩
/-- Nodes made later lie lower in memory. -/
def downward : Layout := ⟨fun i => i, fun _ r => match r with | .loc k => 100 - k | _ => 0⟩

/-- C18 is violated: when both branches of an `if` declare a variable of the same name, its uses in the
`else` branch refer to one or the other, depending on where the nodes lie in memory. -/
theorem C18_violated : ∃ (p : Prog Unit) (L L' : Layout) (q q' : Prog Ref),
    runSema L p = .ok q ∧ runSema L' p = .ok q' ∧ q ≠ q' := by
  have h : (match runSema upward twiceTree, runSema downward twiceTree with
      | .ok [Item.func f], .ok [Item.func g] =>
        (match f.body, g.body with
          | [.ifS _ _ _ _ [_, .ret _ (some (.ident _ r))]], [.ifS _ _ _ _ [_, .ret _ (some (.ident _ r'))]] =>
            decide (r = .loc 0 ∧ r' = .loc 1)
          | _, _ => false)
      | _, _ => false) = true := by decide +kernel
  split at h
  · rename_i f g h1 h2
    refine ⟨_, _, _, _, _, h1, h2, fun e => ?_⟩
    cases e
    split at h
    · rename_i e1 e2
      rw [e1] at e2
      simp only [decide_eq_true_eq] at h
      obtain ⟨rfl, rfl⟩ := h
      simp at e2
    · cases h
  · cases h

/-- `if (a) var x = 1 else return x end`. -/
def leakTree : Prog Unit :=
  [.func { name := nm "main", args := [nm "a"], stop := tk .END "end", body := [
     .ifS (tk .IF "if") (ix "a") [.var (nm "x") () (some (lit 1))] true
       [.ret (tk .RETURN "return") (some (ix "x"))]] }]

/-- C18 is violated: a name of the `then` branch can be used in the `else` branch, where lexical scoping
gives it no meaning. -/
theorem C18_leaks : ∃ (p : Prog Unit) (L : Layout) (q : Prog Ref), runSema L p = .ok q ∧ resolve p = none := by
  have h : (match runSema upward leakTree with | .ok _ => true | _ => false) = true := by decide +kernel
  split at h
  · rename_i q hq
    refine ⟨_, _, _, hq, ?_⟩
    have h : (match resolve leakTree with | none => true | _ => false) = true := by decide +kernel
    split at h
    · assumption
    · cases h
  · cases h

end Ccml.Props
