import Verif.Props.Optimize
/-!
What the semantic passes guarantee: numbers of arguments (C19) and constants (C20).
-/
set_option linter.unusedSimpArgs false
namespace Ccml.Props
open Sem (State Res Vars Flow CallF evalE evalEs evalS evalB callFn Ctx)

/-! ### C19: numbers of arguments -/

mutual
/-- The calls in an expression: what is called, with how many arguments. -/
def callsE : Expr Ref → List (Expr Ref × Nat)
  | .arr _ es => callsEs es
  | .deref _ l i => callsE l ++ callsE i
  | .call _ c as => (c, as.length) :: (callsEs as ++ callsE c)
  | .bin _ l r => callsE l ++ callsE r
  | .un _ a => callsE a
  | _ => []
/-- The same for a list. -/
def callsEs : List (Expr Ref) → List (Expr Ref × Nat)
  | [] => []
  | e :: es => callsE e ++ callsEs es
end

/-- An expression that may be missing. -/
def callsO : Option (Expr Ref) → List (Expr Ref × Nat)
  | none => []
  | some e => callsE e

mutual
/-- The calls in a statement. -/
def callsS : Stmt Ref → List (Expr Ref × Nat)
  | .var _ _ init => callsO init
  | .assign _ _ e => callsE e
  | .assignArr _ _ i e => callsE i ++ callsE e
  | .assignMem _ _ _ e => callsE e
  | .call _ c as => (c, as.length) :: (callsEs as ++ callsE c)
  | .ifS _ c thn _ els => callsE c ++ (callsB thn ++ callsB els)
  | .whileS _ c body => callsE c ++ callsB body
  | .forS _ _ _ a b body => callsE a ++ (callsE b ++ callsB body)
  | .ret _ e => callsO e
/-- The calls in a block. -/
def callsB : List (Stmt Ref) → List (Expr Ref × Nat)
  | [] => []
  | s :: ss => callsS s ++ callsB ss
end

/-- The calls in a child of the program. -/
def callsItem : Item Ref → List (Expr Ref × Nat)
  | .var _ _ init => callsO init
  | .func f => callsB f.body
  | .syscall .. => []

/-- All calls in a program. -/
def callsP (q : Prog Ref) : List (Expr Ref × Nat) := q.flatMap callsItem

/-- A direct call has the number of arguments its function declares, or that of a system call that
takes a fixed number. -/
def Matches (q : Prog Ref) (x : Expr Ref × Nat) : Prop :=
  ∀ t i, x.1 = .ident t (.item i) →
    (∀ f, q[i]? = some (.func f) → x.2 = f.args.length) ∧
    (∀ s k, q[i]? = some (.syscall s (some k)) → x.2 = k)

variable {q : Prog Ref}

theorem errTok_ne {α : Type} {l : SrcLine} {a b : String} {t : Token} {x : α} : errTok l a t b ≠ .ok x := by
  unfold errTok onError
  split <;> intro h <;> cases h

theorem checkCall_iff {c : Expr Ref} {n : Nat} : checkCall q c n = .ok () ↔ Matches q (c, n) := by
  unfold checkCall Matches
  cases c with
  | ident t r =>
    cases r with
    | item i =>
      dsimp only [wantedArgs]
      have he : ∀ {α : Type} {l : SrcLine} {a b : String} {t : Token} {x : α}, errTok l a t b ≠ .ok x := errTok_ne
      cases hq : q[i]? with
      | none => simp [hq]
      | some x =>
        cases x with
        | var => simp [hq]
        | func f =>
          dsimp only
          rcases Nat.lt_trichotomy n f.args.length with h | h | h
          · rw [if_neg (by omega), if_pos h]
            simp [he, hq]
            intro hh
            omega
          · rw [if_neg (by omega), if_neg (by omega)]
            simp [hq, h]
          · rw [if_pos h]
            simp [he, hq]
            intro hh
            omega
        | syscall s k =>
          cases k with
          | none => simp [hq]
          | some k =>
            dsimp only
            rcases Nat.lt_trichotomy n k with h | h | h
            · rw [if_neg (by omega), if_pos h]
              simp [he, hq]
              intro hh
              omega
            · rw [if_neg (by omega), if_neg (by omega)]
              simp [hq, h]
            · rw [if_pos h]
              simp [he, hq]
              intro hh
              omega
    | arg i => simp [wantedArgs]
    | loc i => simp [wantedArgs]
  | _ => simp

theorem both_ok {a b : Comp Unit} :
    (match a with | Except.error x => Except.error x | .ok _ => b) = Except.ok () ↔ a = .ok () ∧ b = .ok () := by
  cases a <;> simp

mutual
theorem argsE_iff : ∀ e : Expr Ref, argsE q e = .ok () ↔ ∀ x ∈ callsE e, Matches q x
  | .arr _ es => by simpa [argsE, callsE] using argsEs_iff es
  | .deref _ l i => by
    rw [argsE, callsE, List.forall_mem_append, ← argsE_iff l, ← argsE_iff i]
    exact both_ok
  | .call _ c as => by
    rw [argsE, callsE, List.forall_mem_cons, List.forall_mem_append, ← argsEs_iff as, ← argsE_iff c,
      ← checkCall_iff]
    exact both_ok.trans (and_congr_right fun _ => both_ok)
  | .bin _ l i => by
    rw [argsE, callsE, List.forall_mem_append, ← argsE_iff l, ← argsE_iff i]
    exact both_ok
  | .un _ a => by simpa [argsE, callsE] using argsE_iff a
  | .ident .. => by simp [argsE, callsE]
  | .int .. => by simp [argsE, callsE]
  | .float .. => by simp [argsE, callsE]
  | .str .. => by simp [argsE, callsE]
  | .none _ => by simp [argsE, callsE]
  | .member .. => by simp [argsE, callsE]
theorem argsEs_iff : ∀ es : List (Expr Ref), argsEs q es = .ok () ↔ ∀ x ∈ callsEs es, Matches q x
  | [] => by simp [argsEs, callsEs]
  | e :: es => by
    rw [argsEs, callsEs, List.forall_mem_append, ← argsE_iff e, ← argsEs_iff es]
    exact both_ok
end

theorem argsO_iff (e : Option (Expr Ref)) : argsO q e = .ok () ↔ ∀ x ∈ callsO e, Matches q x := by
  cases e with
  | none => simp [argsO, callsO]
  | some e => exact argsE_iff e

mutual
theorem argsS_iff : ∀ s : Stmt Ref, argsS q s = .ok () ↔ ∀ x ∈ callsS s, Matches q x
  | .var _ _ init => by simpa [argsS, callsS] using argsO_iff init
  | .assign _ _ e => by simpa [argsS, callsS] using argsE_iff e
  | .assignArr _ _ i e => by
    rw [argsS, callsS, List.forall_mem_append, ← argsE_iff i, ← argsE_iff e]
    exact both_ok
  | .assignMem _ _ _ e => by simpa [argsS, callsS] using argsE_iff e
  | .call _ c as => by
    rw [argsS, callsS, List.forall_mem_cons, List.forall_mem_append, ← argsEs_iff as, ← argsE_iff c,
      ← checkCall_iff]
    exact both_ok.trans (and_congr_right fun _ => both_ok)
  | .ifS _ c thn _ els => by
    rw [argsS, callsS, List.forall_mem_append, List.forall_mem_append, ← argsE_iff c, ← argsB_iff thn,
      ← argsB_iff els]
    exact both_ok.trans (and_congr_right fun _ => both_ok)
  | .whileS _ c body => by
    rw [argsS, callsS, List.forall_mem_append, ← argsE_iff c, ← argsB_iff body]
    exact both_ok
  | .forS _ _ _ a b body => by
    rw [argsS, callsS, List.forall_mem_append, List.forall_mem_append, ← argsE_iff a, ← argsE_iff b,
      ← argsB_iff body]
    exact both_ok.trans (and_congr_right fun _ => both_ok)
  | .ret _ e => by simpa [argsS, callsS] using argsO_iff e
theorem argsB_iff : ∀ b : List (Stmt Ref), argsB q b = .ok () ↔ ∀ x ∈ callsB b, Matches q x
  | [] => by simp [argsB, callsB]
  | s :: ss => by
    rw [argsB, callsB, List.forall_mem_append, ← argsS_iff s, ← argsB_iff ss]
    exact both_ok
end

theorem argsItem_iff (x : Item Ref) : argsItem q x = .ok () ↔ ∀ c ∈ callsItem x, Matches q c := by
  cases x with
  | var t b init => exact argsO_iff init
  | func f => exact argsB_iff f.body
  | syscall => simp [argsItem, callsItem]

theorem argsItems_iff : ∀ p : List (Item Ref), argsItems q p = .ok () ↔ ∀ c ∈ callsP p, Matches q c
  | [] => by simp [argsItems, callsP]
  | x :: xs => by
    have h2 := argsItems_iff xs
    unfold callsP at h2 ⊢
    rw [argsItems, List.flatMap_cons, List.forall_mem_append, ← argsItem_iff x, ← h2]
    exact both_ok

/-- C19: the pass accepts exactly the programs in which every direct call has the right number of
arguments. -/
theorem C19_checked (q : Prog Ref) : numArgs q = .ok () ↔ ∀ c ∈ callsP q, Matches q c := argsItems_iff q

theorem runSema_steps {L : Layout} {p : Prog Unit} {q : Prog Ref} (h : runSema L p = .ok q) :
    ∃ q1 q2, annotate L p = .ok q1 ∧ globalVars q1 = .ok q2 ∧ consts q2 = .ok q ∧ multiDecls q = .ok () ∧
      numArgs q = .ok () := by
  unfold runSema at h
  split at h
  · cases h
  · rename_i q1 h1
    split at h
    · cases h
    · rename_i q2 h2
      split at h
      · cases h
      · rename_i q3 h3
        split at h
        · cases h
        · rename_i h4
          split at h
          · cases h
          · rename_i h5
            cases h
            exact ⟨q1, q2, h1, h2, h3, h4, h5⟩

/-- C19: in every program that passes the semantic analysis direct calls have the declared number of
arguments. -/
theorem C19_accepted {L : Layout} {p : Prog Unit} (h : runSema L p = .ok q) :
    ∀ c ∈ callsP q, Matches q c := by
  obtain ⟨_, _, _, _, _, _, h5⟩ := runSema_steps h
  exact (C19_checked q).1 h5

/-! The optimiser adds no calls. -/

theorem cut_calls : ∀ b : List (Stmt Ref), ∀ c ∈ callsB (cutAfterRet b), c ∈ callsB b
  | [], c, h => h
  | s :: ss, c, h => by
    unfold cutAfterRet at h
    split at h
    · simp only [callsB, List.append_nil, List.mem_append] at h ⊢
      exact .inl h
    · simp only [callsB, List.mem_append] at h ⊢
      exact h.imp_right (cut_calls ss c)

theorem foldTop_calls {e e' : Expr Ref} (h : foldTop e = .ok e') : ∀ c ∈ callsE e', c ∈ callsE e := by
  unfold foldTop at h
  split at h
  · cases h
  · split at h
    · cases h
      intro c h
      simp [callsE] at h
    · cases h
      exact fun _ h => h

mutual
theorem foldS_calls : ∀ {s s' : Stmt Ref}, foldS s = .ok s' → ∀ c ∈ callsS s', c ∈ callsS s
  | .var t d init, s', h => by
    rw [foldS] at h; split at h
    · cases h
    · cases h; exact fun _ h => h
  | .assign t d e, s', h => by
    rw [foldS] at h; split at h
    · cases h
    · rename_i he
      cases h
      exact foldTop_calls he
  | .assignArr t d i e, s', h => by
    rw [foldS] at h; split at h
    · cases h
    · split at h
      · cases h
      · cases h; exact fun _ h => h
  | .assignMem t d i e, s', h => by
    rw [foldS] at h; split at h
    · cases h
    · cases h; exact fun _ h => h
  | .call t c as, s', h => by
    rw [foldS] at h; split at h
    · cases h
    · split at h
      · cases h
      · cases h; exact fun _ h => h
  | .ifS t c thn he els, s', h => by
    rw [foldS] at h; split at h
    · cases h
    · rename_i h1
      split at h
      · cases h
      · rename_i h2
        split at h
        · cases h
        · rename_i h3
          cases h
          intro c h
          simp only [callsS, List.mem_append] at h ⊢
          exact h.imp (foldTop_calls h1 c) (fun h => h.imp (foldB_calls h2 c) (foldB_calls h3 c))
  | .whileS t c body, s', h => by
    rw [foldS] at h; split at h
    · cases h
    · rename_i h1
      split at h
      · cases h
      · rename_i h2
        cases h
        intro c h
        simp only [callsS, List.mem_append] at h ⊢
        exact h.imp (foldTop_calls h1 c) (foldB_calls h2 c)
  | .forS t nm d a b body, s', h => by
    rw [foldS] at h; split at h
    · cases h
    · split at h
      · cases h
      · split at h
        · cases h
        · rename_i h2
          cases h
          intro c h
          simp only [callsS, List.mem_append] at h ⊢
          exact h.imp_right (fun h => h.imp_right (foldB_calls h2 c))
  | .ret t none, s', h => by
    rw [foldS] at h; cases h; exact fun _ h => h
  | .ret t (some e), s', h => by
    rw [foldS] at h; split at h
    · cases h
    · rename_i he
      cases h
      exact foldTop_calls he
theorem foldB_calls : ∀ {b b' : List (Stmt Ref)}, foldB b = .ok b' → ∀ c ∈ callsB b', c ∈ callsB b
  | [], b', h => by
    rw [foldB] at h; cases h; exact fun _ h => h
  | s :: ss, b', h => by
    rw [foldB] at h; split at h
    · cases h
    · rename_i h1
      split at h
      · cases h
      · rename_i h2
        cases h
        intro c h
        simp only [callsB, List.mem_append] at h ⊢
        exact h.imp (foldS_calls h1 c) (foldB_calls h2 c)
end

mutual
theorem pruneS_calls : ∀ (s : Stmt Ref) (m : List Nat), ∀ c ∈ callsS (pruneS m s).1, c ∈ callsS s
  | .var .., m => fun _ h => h
  | .assign .., m => fun _ h => h
  | .assignArr .., m => fun _ h => h
  | .assignMem .., m => fun _ h => h
  | .call .., m => fun _ h => h
  | .ret .., m => fun _ h => h
  | .ifS t e thn he els, m => by
    have a := pruneB_calls thn m
    have b := pruneB_calls els (pruneB m thn).2
    rw [pruneS]
    split
    rename_i thn' m1 e1
    rw [e1] at a b
    dsimp only at a b
    split
    rename_i els' m2 e2
    rw [e2] at b
    dsimp only at b
    split
    · split
      · intro c h
        simp only [callsS, callsE, callsB, List.append_nil, List.nil_append, List.mem_append] at h ⊢
        exact .inl (a c h)
      · have hb : ∀ c ∈ callsB (if he = true then els' else []), c ∈ callsB thn ++ callsB els := by
          intro c h
          split at h
          · exact List.mem_append.2 (.inr (b c h))
          · simp [callsB] at h
        split <;>
        · intro c h
          simp only [callsS, callsE, callsB, List.append_nil, List.nil_append] at h ⊢
          exact hb c h
    · intro c h
      simp only [callsS, List.mem_append] at h ⊢
      exact h.imp_right fun h => h.imp (a c) (b c)
  | .whileS t e body, m => by
    have a := pruneB_calls body m
    rw [pruneS]
    split
    rename_i b' m1 e1
    rw [e1] at a
    dsimp only at a
    split
    · split
      · intro c h
        simp [callsS, callsE, callsB] at h
      · intro c h
        simp only [callsS, List.mem_append] at h ⊢
        exact h.imp_right (a c)
    · intro c h
      simp only [callsS, List.mem_append] at h ⊢
      exact h.imp_right (a c)
  | .forS t n d x y body, m => by
    have a := pruneB_calls body m
    rw [pruneS]
    split
    rename_i b' m1 e1
    rw [e1] at a
    intro c h
    simp only [callsS, List.mem_append] at h ⊢
    exact h.imp_right fun h => h.imp_right (a c)
theorem pruneB_calls : ∀ (b : List (Stmt Ref)) (m : List Nat), ∀ c ∈ callsB (pruneB m b).1, c ∈ callsB b
  | [], m => fun _ h => h
  | s :: ss, m => by
    have a := pruneS_calls s m
    have b := pruneB_calls ss (pruneS m s).2
    rw [pruneB]
    split
    rename_i s' m1 e1
    rw [e1] at a b
    dsimp only at a b
    split
    rename_i ss' m2 e2
    rw [e2] at b
    dsimp only at b
    intro c h
    simp only [callsB, List.mem_append] at h ⊢
    exact h.imp (a c) (b c)
end

/-- Overwriting literals in a call. -/
def patchCall (m : List Nat) (x : Expr Ref × Nat) : Expr Ref × Nat := (patchE m x.1, x.2)

theorem patchEs_length (m : List Nat) : ∀ es : List (Expr Ref), (patchEs m es).length = es.length
  | [] => by simp [patchEs]
  | e :: es => by simp [patchEs, patchEs_length m es]

mutual
theorem patchE_calls (m : List Nat) : ∀ e : Expr Ref, callsE (patchE m e) = (callsE e).map (patchCall m)
  | .arr _ es => by simpa [patchE, callsE] using patchEs_calls m es
  | .deref _ l i => by simp [patchE, callsE, patchE_calls m l, patchE_calls m i]
  | .call _ c as => by
    simp [patchE, callsE, patchE_calls m c, patchEs_calls m as, patchEs_length, patchCall]
  | .bin _ l i => by simp [patchE, callsE, patchE_calls m l, patchE_calls m i]
  | .un _ a => by simpa [patchE, callsE] using patchE_calls m a
  | .ident .. => by simp [patchE, callsE]
  | .int .. => by simp [patchE, callsE]
  | .float .. => by simp [patchE, callsE]
  | .str .. => by simp [patchE, callsE]
  | .none _ => by simp [patchE, callsE]
  | .member .. => by simp [patchE, callsE]
theorem patchEs_calls (m : List Nat) : ∀ es : List (Expr Ref), callsEs (patchEs m es) = (callsEs es).map (patchCall m)
  | [] => by simp [patchEs, callsEs]
  | e :: es => by simp [patchEs, callsEs, patchE_calls m e, patchEs_calls m es]
end

theorem patchO_calls (m : List Nat) (e : Option (Expr Ref)) :
    callsO (e.map (patchE m)) = (callsO e).map (patchCall m) := by
  cases e with
  | none => rfl
  | some e => exact patchE_calls m e

mutual
theorem patchS_calls (m : List Nat) : ∀ s : Stmt Ref, callsS (patchS m s) = (callsS s).map (patchCall m)
  | .var _ _ init => by simpa [patchS, callsS] using patchO_calls m init
  | .assign _ _ e => by simpa [patchS, callsS] using patchE_calls m e
  | .assignArr _ _ i e => by simp [patchS, callsS, patchE_calls]
  | .assignMem _ _ _ e => by simpa [patchS, callsS] using patchE_calls m e
  | .call _ c as => by
    simp [patchS, callsS, patchE_calls m c, patchEs_calls m as, patchEs_length, patchCall]
  | .ifS _ c thn _ els => by simp [patchS, callsS, patchE_calls, patchB_calls m thn, patchB_calls m els]
  | .whileS _ c body => by simp [patchS, callsS, patchE_calls, patchB_calls m body]
  | .forS _ _ _ a b body => by simp [patchS, callsS, patchE_calls, patchB_calls m body]
  | .ret _ e => by simpa [patchS, callsS] using patchO_calls m e
theorem patchB_calls (m : List Nat) : ∀ b : List (Stmt Ref), callsB (patchB m b) = (callsB b).map (patchCall m)
  | [] => by simp [patchB, callsB]
  | s :: ss => by simp [patchB, callsB, patchS_calls m s, patchB_calls m ss]
end

theorem postRet_calls (p : Prog Ref) : ∀ c ∈ callsP (postRet p), c ∈ callsP p := by
  intro c h
  simp only [callsP, postRet, List.mem_flatMap, List.mem_map] at h ⊢
  obtain ⟨_, ⟨x, hx, rfl⟩, h⟩ := h
  refine ⟨x, hx, ?_⟩
  cases x with
  | func f => exact cut_calls f.body c h
  | var => exact h
  | syscall => exact h

theorem constFold_calls : ∀ {p q : Prog Ref}, constFold p = .ok q → ∀ c ∈ callsP q, c ∈ callsP p
  | [], q, h => by cases h; exact fun _ h => h
  | x :: xs, q, h => by
    rw [constFold] at h
    split at h
    · cases h
    · rename_i y hy
      split at h
      · cases h
      · rename_i ys hys
        cases h
        intro c h
        have ih := constFold_calls hys c
        simp only [callsP, List.flatMap_cons, List.mem_append] at h ih ⊢
        refine h.imp (fun h => ?_) ih
        cases x with
        | var t b init =>
          simp only [foldItem] at hy
          split at hy
          · cases hy
          · cases hy; exact h
        | syscall n a => cases hy; exact h
        | func f =>
          simp only [foldItem] at hy
          split at hy
          · cases hy
          · rename_i b hb
            cases hy
            exact foldB_calls hb c h

theorem pruneItems_calls : ∀ (p : Prog Ref) (m : List Nat), ∀ c ∈ callsP (pruneItems m p).1, c ∈ callsP p
  | [], m, c, h => h
  | .func f :: xs, m, c, h => by
    have h' : c ∈ callsB (pruneB m f.body).1 ++ callsP (pruneItems (pruneB m f.body).2 xs).1 := h
    show c ∈ callsB f.body ++ callsP xs
    rw [List.mem_append] at h' ⊢
    exact h'.imp (pruneB_calls _ _ c) (pruneItems_calls xs _ c)
  | .var t b init :: xs, m, c, h => by
    have h' : c ∈ callsO init ++ callsP (pruneItems m xs).1 := h
    show c ∈ callsO init ++ callsP xs
    rw [List.mem_append] at h' ⊢
    exact h'.imp_right (pruneItems_calls xs _ c)
  | .syscall .. :: xs, m, c, h => pruneItems_calls xs m c h

theorem ifRemove_calls (p : Prog Ref) : ∀ c ∈ callsP (ifRemove p), ∃ m, ∃ c' ∈ callsP p, c = patchCall m c' := by
  intro c h
  have h' : c ∈ callsP ((pruneItems [] p).1.map (patchItem (pruneItems [] p).2)) := h
  simp only [callsP, List.mem_flatMap, List.mem_map] at h'
  obtain ⟨_, ⟨x, hx, rfl⟩, h'⟩ := h'
  have : callsItem (patchItem (pruneItems [] p).2 x) = (callsItem x).map (patchCall (pruneItems [] p).2) := by
    cases x with
    | var t b init => exact patchO_calls _ init
    | func f => exact patchB_calls _ f.body
    | syscall => rfl
  rw [this, List.mem_map] at h'
  obtain ⟨c', h1, h2⟩ := h'
  exact ⟨_, c', pruneItems_calls p [] c' (List.mem_flatMap.2 ⟨x, hx, h1⟩), h2.symm⟩

/-- The kind of a child and the number of its arguments. -/
def Item.arity : Item Ref → Option (Option Nat)
  | .func f => some (some f.args.length)
  | .syscall _ a => some a
  | .var .. => none

theorem matches_arity {p q : Prog Ref} (h : p.map Item.arity = q.map Item.arity) {x : Expr Ref × Nat}
    (hm : Matches q x) : Matches p x := by
  intro t i hx
  obtain ⟨h1, h2⟩ := hm t i hx
  have hg : p[i]?.map Item.arity = q[i]?.map Item.arity := by
    rw [← List.getElem?_map, ← List.getElem?_map, h]
  have key : ∀ k, p[i]?.map Item.arity = some (some (some k)) → x.2 = k := by
    intro k hk
    rw [hg] at hk
    cases hq : q[i]? with
    | none => simp [hq] at hk
    | some y =>
      cases y with
      | func f =>
        have : f.args.length = k := by simpa [hq, Item.arity] using hk
        rw [← this]; exact h1 f hq
      | syscall s a =>
        have : a = some k := by simpa [hq, Item.arity] using hk
        subst this; exact h2 s k hq
      | var => simp [hq, Item.arity] at hk
  exact ⟨fun f hf => key _ (by simp [hf, Item.arity]), fun s k hf => key _ (by simp [hf, Item.arity])⟩

theorem optimize_arity {opt : Bool} {p q : Prog Ref} (h : runOptimize opt p = .ok q) :
    q.map Item.arity = p.map Item.arity := by
  have h1 : ∀ p : Prog Ref, (postRet p).map Item.arity = p.map Item.arity := by
    intro p
    induction p with
    | nil => rfl
    | cons x p ih =>
      simp only [postRet, List.map_cons] at ih ⊢
      rw [ih]
      cases x <;> rfl
  have h2 : ∀ {p q : Prog Ref}, constFold p = .ok q → q.map Item.arity = p.map Item.arity := by
    intro p
    induction p with
    | nil => intro q h; cases h; rfl
    | cons x p ih =>
      intro q h
      rw [constFold] at h
      split at h
      · cases h
      · rename_i y hy
        split at h
        · cases h
        · rename_i ys hys
          cases h
          rw [List.map_cons, List.map_cons, ih hys]
          congr 1
          cases x with
          | var t b init =>
            simp only [foldItem] at hy
            split at hy
            · cases hy
            · cases hy; rfl
          | syscall n a => cases hy; rfl
          | func f =>
            simp only [foldItem] at hy
            split at hy
            · cases hy
            · cases hy; rfl
  have h3 : ∀ (p : Prog Ref) (m : List Nat), (pruneItems m p).1.map Item.arity = p.map Item.arity := by
    intro p
    induction p with
    | nil => intro m; rfl
    | cons x p ih =>
      intro m
      cases x with
      | func f => show _ :: _ = _ :: _; rw [ih]; rfl
      | var => show _ :: _ = _ :: _; rw [ih]
      | syscall => show _ :: _ = _ :: _; rw [ih]
  have h4 : ∀ (p : Prog Ref) (m : List Nat), (p.map (patchItem m)).map Item.arity = p.map Item.arity := by
    intro p m
    rw [List.map_map]
    refine List.map_congr_left fun x _ => ?_
    cases x <;> rfl
  unfold runOptimize at h
  split at h
  · split at h
    · cases h
    · rename_i p1 k
      cases h
      show ((pruneItems [] p1).1.map (patchItem (pruneItems [] p1).2)).map Item.arity = _
      rw [h4, h3, h2 k, h1]
  · cases h; rfl

theorem matches_patch {m : List Nat} {x : Expr Ref × Nat} (h : Matches q x) : Matches q (patchCall m x) := by
  intro t i hx
  refine h t i ?_
  obtain ⟨e, n⟩ := x
  cases e <;> simp_all [patchCall, patchE]

/-- C19: and so they have in the optimised program that is translated. -/
theorem C19_compiled {L : Layout} {opt : Bool} {p : Prog Unit} {prog : Program} (h : Compiles L opt p q prog) :
    ∀ c ∈ callsP q, Matches q c := by
  obtain ⟨q0, h1, h2, _⟩ := h
  have h0 := C19_accepted h1
  have ha := optimize_arity h2
  intro c hc
  refine matches_arity ha ?_
  unfold runOptimize at h2
  split at h2
  · split at h2
    · cases h2
    · rename_i p1 k
      cases h2
      obtain ⟨m, c', hc', rfl⟩ := ifRemove_calls _ c hc
      exact matches_patch (h0 c' (postRet_calls _ c' (constFold_calls k c' hc')))
  · cases h2
    exact h0 c hc

/-- The sample program calls `fib` three times directly. -/
example : ((callsP sampleQ).filter fun x => match x.1 with | .ident _ (.item 2) => true | _ => false).map (·.2) =
    [1, 1, 1] := by decide +kernel

/-- A call with a missing argument is rejected. -/
example : isOk (runSema sampleLayout
    [.func { name := nm "f", args := [nm "x"], stop := tk .END "end", body := [
      .ret (tk .RETURN "return") (some (.call (nm "f") (ix "f") []))] }]) = false := by decide +kernel

end Ccml.Props
