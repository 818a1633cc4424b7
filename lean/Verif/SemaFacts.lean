import Verif.AsmProg
/-!
What the passes before code generation keep: names of declarations are distinct, local variables of a
function are distinct (proof infrastructure).
-/
set_option linter.unusedSimpArgs false
namespace Ccml

/-! ### The local variables of a body -/

mutual
/-- The variables declared in a statement, in the order of the text. -/
def declsS : Stmt Ref → List Ref
  | .var _ r _ => [r]
  | .ifS _ _ thn _ els => declsB thn ++ declsB els
  | .whileS _ _ body => declsB body
  | .forS _ _ _ _ _ body => declsB body
  | _ => []
/-- The variables declared in a block. -/
def declsB : List (Stmt Ref) → List Ref
  | [] => []
  | s :: ss => declsS s ++ declsB ss
end

mutual
theorem offS_refs : ∀ (s : Stmt Ref) (cur : Nat), (offS cur s).1.map LocalVar.ref = declsS s
  | .var .., _ => rfl
  | .assign .., _ => rfl
  | .assignArr .., _ => rfl
  | .assignMem .., _ => rfl
  | .call .., _ => rfl
  | .ret .., _ => rfl
  | .ifS _ _ thn _ els, cur => by
    simp only [offS, declsS, List.map_append, offB_refs thn cur, offB_refs els cur]
  | .whileS _ _ body, cur => by simp only [offS, declsS, offB_refs body cur]
  | .forS _ _ _ _ _ body, cur => by simp only [offS, declsS, offB_refs body cur]
theorem offB_refs : ∀ (ss : List (Stmt Ref)) (cur : Nat), (offB cur ss).1.map LocalVar.ref = declsB ss
  | [], _ => rfl
  | s :: ss, cur => by
    simp only [offB, declsB, List.map_append, offS_refs s cur, offB_refs ss _]
end

theorem funcLocals_refs (body : List (Stmt Ref)) : (funcLocals body).map LocalVar.ref = declsB body :=
  offB_refs body 0

/-- Every function declares its variables once. -/
def LocalsOk (p : Prog Ref) : Prop := ∀ f, Item.func f ∈ p → (declsB f.body).Nodup

/-- The variables numbered from `k` to below `k'`. -/
def Numbered (k k' : Nat) (l : List Ref) : Prop := ∃ m, k' = k + m ∧ l = (List.range' k m).map .loc

theorem Numbered.nil (k : Nat) : Numbered k k [] := ⟨0, rfl, rfl⟩

theorem Numbered.append {a b c : Nat} {l m : List Ref} (h : Numbered a b l) (k : Numbered b c m) :
    Numbered a c (l ++ m) := by
  obtain ⟨x, rfl, rfl⟩ := h
  obtain ⟨y, rfl, rfl⟩ := k
  refine ⟨x + y, by omega, ?_⟩
  rw [← List.map_append, List.range'_append_1]

theorem Numbered.nodup {a b : Nat} {l : List Ref} (h : Numbered a b l) : l.Nodup := by
  obtain ⟨x, rfl, rfl⟩ := h
  refine List.Pairwise.map _ ?_ (List.nodup_range' (step := 1) (h := by omega))
  intro a b h k
  cases k
  exact h rfl

mutual
theorem annS_decls {E : AnnEnv} : ∀ (s : Stmt Unit) {outer : List Scope} {cur : Scope} {k : Nat}
    {s' : Stmt Ref} {cur' : Scope} {k' : Nat}, annS E outer cur k s = .ok (s', cur', k') →
    Numbered k k' (declsS s')
  | .var t d init, outer, cur, k, s', cur', k', h => by
    rw [annS] at h
    split at h
    · cases h
    · cases h
      exact ⟨1, rfl, rfl⟩
  | .assign t d e, outer, cur, k, s', cur', k', h => by
    rw [annS] at h
    repeat (split at h <;> try cases h)
    all_goals exact .nil _
  | .assignArr t d i e, outer, cur, k, s', cur', k', h => by
    rw [annS] at h
    repeat (split at h <;> try cases h)
    all_goals exact .nil _
  | .assignMem t d i e, outer, cur, k, s', cur', k', h => by
    rw [annS] at h
    repeat (split at h <;> try cases h)
    all_goals exact .nil _
  | .call t c as, outer, cur, k, s', cur', k', h => by
    rw [annS] at h
    repeat (split at h <;> try cases h)
    all_goals exact .nil _
  | .ret t e, outer, cur, k, s', cur', k', h => by
    rw [annS] at h
    repeat (split at h <;> try cases h)
    all_goals exact .nil _
  | .ifS t c thn he els, outer, cur, k, s', cur', k', h => by
    rw [annS] at h
    split at h
    · cases h
    · split at h
      · cases h
      · rename_i h1
        split at h
        · cases h
        · rename_i h2
          cases h
          exact (annB_decls thn h1).append (annB_decls els h2)
  | .whileS t c body, outer, cur, k, s', cur', k', h => by
    rw [annS] at h
    split at h
    · cases h
    · split at h
      · cases h
      · rename_i h1
        cases h
        exact annB_decls body h1
  | .forS t n d a b body, outer, cur, k, s', cur', k', h => by
    rw [annS] at h
    split at h
    · cases h
    · split at h
      · cases h
      · split at h
        · cases h
        · split at h
          · cases h
          · rename_i h1
            cases h
            exact annB_decls body h1
theorem annB_decls {E : AnnEnv} : ∀ (ss : List (Stmt Unit)) {outer : List Scope} {cur : Scope} {k : Nat}
    {ss' : List (Stmt Ref)} {cur' : Scope} {k' : Nat}, annB E outer cur k ss = .ok (ss', cur', k') →
    Numbered k k' (declsB ss')
  | [], outer, cur, k, s', cur', k', h => by
    rw [annB] at h
    cases h
    exact .nil _
  | s :: ss, outer, cur, k, s', cur', k', h => by
    rw [annB] at h
    split at h
    · cases h
    · rename_i h1
      split at h
      · cases h
      · rename_i h2
        cases h
        exact (annS_decls s h1).append (annB_decls ss h2)
end

/-! ### Names and functions through the passes -/

theorem annItems_spec {L : Layout} {p0 : Prog Unit} : ∀ {i : Nat} {p : List (Item Unit)} {q : Prog Ref},
    annItems L p0 i p = .ok q → q.map Item.declName = p.map Item.declName ∧ LocalsOk q
  | i, [], q, h => by
    rw [annItems] at h
    cases h
    exact ⟨rfl, fun f hf => by cases hf⟩
  | i, x :: xs, q, h => by
    rw [annItems] at h
    split at h
    · cases h
    · rename_i x' hx
      split at h
      · cases h
      · rename_i xs' hxs
        cases h
        obtain ⟨h1, h2⟩ := annItems_spec hxs
        have : x'.declName = x.declName ∧ ∀ f, x' = .func f → (declsB f.body).Nodup := by
          cases x with
          | var t c init =>
            rw [annItem] at hx
            split at hx
            · cases hx
            · cases hx
              exact ⟨rfl, fun f hf => by cases hf⟩
          | func f =>
            rw [annItem] at hx
            split at hx
            · cases hx
            · rename_i hb
              cases hx
              refine ⟨rfl, fun f hf => ?_⟩
              cases hf
              exact (annB_decls _ hb).nodup
          | syscall n a =>
            cases hx
            exact ⟨rfl, fun f hf => by cases hf⟩
        refine ⟨by rw [List.map_cons, List.map_cons, this.1, h1], fun f hf => ?_⟩
        rcases List.mem_cons.1 hf with hf | hf
        · exact this.2 f hf.symm
        · exact h2 f hf

theorem map_set_same {α β : Type} {f : α → β} {l : List α} {i : Nat} {x y : α} (h : l[i]? = some x)
    (hf : f y = f x) : (l.set i y).map f = l.map f := by
  apply List.ext_getElem?
  intro n
  simp only [List.getElem?_map, List.getElem?_set]
  split
  · subst_vars
    split
    · simp [h, hf]
    · rename_i hlt
      rw [List.getElem?_eq_none (by omega)]
  · rfl

theorem mem_set_cases {α : Type} {l : List α} {i : Nat} {x y : α} (h : x ∈ l.set i y) : x ∈ l ∨ x = y :=
  List.mem_or_eq_of_mem_set h

theorem globalPass_spec : ∀ {is : List Nat} {p q : Prog Ref} {ch ch' : Bool},
    globalPass is p ch = .ok (q, ch') → q.map Item.declName = p.map Item.declName ∧
      ∀ f, Item.func f ∈ q → Item.func f ∈ p
  | [], p, q, ch, ch', h => by
    rw [globalPass] at h
    cases h
    exact ⟨rfl, fun _ h => h⟩
  | i :: is, p, q, ch, ch', h => by
    rw [globalPass] at h
    split at h
    · rename_i t c e hi
      split at h
      · cases h
      · obtain ⟨h1, h2⟩ := globalPass_spec h
        refine ⟨h1.trans (map_set_same hi rfl), fun f hf => ?_⟩
        rcases mem_set_cases (h2 f hf) with k | k
        · exact k
        · cases k
    · exact globalPass_spec h

theorem globalLoop_spec : ∀ {n : Nat} {p q : Prog Ref}, globalLoop n p = .ok q →
    q.map Item.declName = p.map Item.declName ∧ ∀ f, Item.func f ∈ q → Item.func f ∈ p
  | 0, p, q, h => by rw [globalLoop] at h; cases h
  | n + 1, p, q, h => by
    rw [globalLoop] at h
    split at h
    · cases h
    · rename_i h1
      obtain ⟨k1, k2⟩ := globalPass_spec h1
      obtain ⟨k3, k4⟩ := globalLoop_spec h
      exact ⟨k3.trans k1, fun f hf => k2 f (k4 f hf)⟩
    · rename_i h1
      cases h
      exact globalPass_spec h1

theorem globalVars_spec {p q : Prog Ref} (h : globalVars p = .ok q) :
    q.map Item.declName = p.map Item.declName ∧ ∀ f, Item.func f ∈ q → Item.func f ∈ p := by
  unfold globalVars at h
  split at h
  · cases h
  · rename_i h1
    split at h
    · cases h
    · rename_i h2
      cases h
      obtain ⟨k1, k2⟩ := globalLoop_spec h1
      obtain ⟨k3, k4⟩ := globalPass_spec h2
      exact ⟨k3.trans k1, fun f hf => k2 f (k4 f hf)⟩

mutual
theorem constS_decls {p : Prog Ref} : ∀ (s : Stmt Ref) {s' : Stmt Ref}, constS p s = .ok s' →
    declsS s' = declsS s
  | .var t d init, s', h => by
    rw [constS] at h
    repeat (split at h <;> try cases h)
    all_goals rfl
  | .assign t d e, s', h => by
    rw [constS] at h
    split at h
    · simp only [errTok] at h
      repeat (split at h <;> try cases h)
    · repeat (split at h <;> try cases h)
      all_goals rfl
  | .assignArr t d i e, s', h => by
    rw [constS] at h
    repeat (split at h <;> try cases h)
    all_goals rfl
  | .assignMem t d i e, s', h => by
    rw [constS] at h
    repeat (split at h <;> try cases h)
    all_goals rfl
  | .call t c as, s', h => by
    rw [constS] at h
    repeat (split at h <;> try cases h)
    all_goals rfl
  | .ret t e, s', h => by
    rw [constS] at h
    repeat (split at h <;> try cases h)
    all_goals rfl
  | .ifS t c thn he els, s', h => by
    rw [constS] at h
    split at h
    · cases h
    · split at h
      · cases h
      · rename_i h1
        split at h
        · cases h
        · rename_i h2
          cases h
          rw [declsS, declsS, constB_decls thn h1, constB_decls els h2]
  | .whileS t c body, s', h => by
    rw [constS] at h
    split at h
    · cases h
    · split at h
      · cases h
      · rename_i h1
        cases h
        rw [declsS, declsS, constB_decls body h1]
  | .forS t n d a b body, s', h => by
    rw [constS] at h
    split at h
    · cases h
    · split at h
      · cases h
      · split at h
        · cases h
        · rename_i h1
          cases h
          rw [declsS, declsS, constB_decls body h1]
theorem constB_decls {p : Prog Ref} : ∀ (ss : List (Stmt Ref)) {ss' : List (Stmt Ref)},
    constB p ss = .ok ss' → declsB ss' = declsB ss
  | [], s', h => by
    rw [constB] at h
    cases h
    rfl
  | s :: ss, s', h => by
    rw [constB] at h
    split at h
    · cases h
    · rename_i h1
      split at h
      · cases h
      · rename_i h2
        cases h
        rw [declsB, declsB, constS_decls s h1, constB_decls ss h2]
end

theorem constItem_spec {p : Prog Ref} {x y : Item Ref} (h : constItem p x = .ok y) :
    y.declName = x.declName ∧ ∀ f, y = .func f → ∃ g, x = .func g ∧ g.name = f.name ∧
      g.args = f.args ∧ declsB f.body = declsB g.body := by
  cases x with
  | var t c init =>
    rw [constItem] at h
    split at h
    · cases h
    · split at h
      · simp only [errTok] at h
        repeat (split at h <;> try cases h)
      · cases h
        exact ⟨rfl, fun f hf => by cases hf⟩
  | func f =>
    rw [constItem] at h
    split at h
    · cases h
    · rename_i hb
      cases h
      refine ⟨rfl, fun g hg => ?_⟩
      cases hg
      exact ⟨f, rfl, rfl, rfl, constB_decls _ hb⟩
  | syscall n a =>
    cases h
    exact ⟨rfl, fun f hf => by cases hf⟩

theorem constPass_spec : ∀ {is : List Nat} {p q : Prog Ref}, constPass is p = .ok q →
    LocalsOk p → q.map Item.declName = p.map Item.declName ∧ LocalsOk q
  | [], p, q, h, hp => by
    rw [constPass] at h
    cases h
    exact ⟨rfl, hp⟩
  | i :: is, p, q, h, hp => by
    rw [constPass] at h
    split at h
    · exact constPass_spec h hp
    · rename_i x hi
      split at h
      · cases h
      · rename_i y hy
        obtain ⟨h1, h2⟩ := constItem_spec hy
        have hp' : LocalsOk (p.set i y) := by
          intro f hf
          rcases mem_set_cases hf with k | k
          · exact hp f k
          · obtain ⟨g, hg, _, _, hd⟩ := h2 f k.symm
            rw [hd]
            exact hp g (hg ▸ List.mem_of_getElem? hi)
        obtain ⟨k1, k2⟩ := constPass_spec h hp'
        exact ⟨k1.trans (map_set_same hi h1), k2⟩

theorem declare_ok {D : Type} {vis vis' : List Str} {t : Token} {d : D} (h : declare vis t d = .ok vis') :
    t.str ∉ vis ∧ vis' = t.str :: vis := by
  unfold declare at h
  split at h
  · simp only [errTok] at h
    repeat (split at h <;> try cases h)
  · rename_i hc
    cases h
    exact ⟨by simpa [Item.declName] using hc, rfl⟩

theorem multiItem_ok {D : Type} {vis vis' : List Str} {x : Item D} (h : multiItem vis x = .ok vis') :
    x.declName ∉ vis ∧ vis' = x.declName :: vis := by
  cases x with
  | var t c init => exact declare_ok (d := ()) h
  | func f =>
    rw [multiItem] at h
    split at h
    · simp only [errTok] at h
      repeat (split at h <;> try cases h)
    · rename_i hc
      split at h
      · cases h
      · split at h
        · cases h
        · cases h
          exact ⟨by simpa [Item.declName] using hc, rfl⟩
  | syscall n a =>
    rw [multiItem] at h
    split at h
    · cases h
    · rename_i hc
      cases h
      exact ⟨by simpa [Item.declName] using hc, rfl⟩

theorem multiItems_ok {D : Type} : ∀ {p : List (Item D)} {vis : List Str}, multiItems vis p = .ok () →
    (p.map Item.declName).Nodup ∧ ∀ n ∈ p.map Item.declName, n ∉ vis
  | [], vis, _ => ⟨.nil, fun n h => by cases h⟩
  | x :: xs, vis, h => by
    rw [multiItems] at h
    split at h
    · cases h
    · rename_i v hv
      obtain ⟨h1, rfl⟩ := multiItem_ok hv
      obtain ⟨h2, h3⟩ := multiItems_ok h
      refine ⟨List.nodup_cons.2 ⟨fun hm => h3 _ hm (List.mem_cons_self ..), h2⟩, ?_⟩
      intro n hn
      rcases List.mem_cons.1 hn with k | k
      · exact k ▸ h1
      · exact fun hv => h3 n k (List.mem_cons_of_mem _ hv)

/-- What the semantic passes guarantee. -/
theorem runSema_spec {L : Layout} {p : Prog Unit} {q : Prog Ref} (h : runSema L p = .ok q) :
    q.map Item.declName = p.map Item.declName ∧ (q.map Item.declName).Nodup ∧ LocalsOk q := by
  unfold runSema at h
  split at h
  · cases h
  · rename_i h1
    split at h
    · cases h
    · rename_i h2
      split at h
      · cases h
      · rename_i h3
        split at h
        · cases h
        · rename_i h4
          split at h
          · cases h
          · cases h
            obtain ⟨a1, a2⟩ := annItems_spec h1
            obtain ⟨b1, b2⟩ := globalVars_spec h2
            obtain ⟨c1, c2⟩ := constPass_spec h3 (fun f hf => a2 f (b2 f hf))
            exact ⟨c1.trans (b1.trans a1), (multiItems_ok h4).1, c2⟩

/-! ### The optimiser -/

theorem cutAfterRet_decls : ∀ ss : List (Stmt Ref), (declsB (cutAfterRet ss)).Sublist (declsB ss)
  | [] => .slnil
  | s :: ss => by
    rw [cutAfterRet]
    split
    · simp only [declsB, List.append_nil]
      exact List.sublist_append_left _ _
    · exact (List.Sublist.refl _).append (cutAfterRet_decls ss)

mutual
theorem foldS_decls : ∀ (s : Stmt Ref) {s' : Stmt Ref}, foldS s = .ok s' → declsS s' = declsS s
  | .var t d init, s', h => by
    rw [foldS] at h
    repeat (split at h <;> try cases h)
    all_goals rfl
  | .assign t d e, s', h => by
    rw [foldS] at h
    repeat (split at h <;> try cases h)
    all_goals rfl
  | .assignArr t d i e, s', h => by
    rw [foldS] at h
    repeat (split at h <;> try cases h)
    all_goals rfl
  | .assignMem t d i e, s', h => by
    rw [foldS] at h
    repeat (split at h <;> try cases h)
    all_goals rfl
  | .call t c as, s', h => by
    rw [foldS] at h
    repeat (split at h <;> try cases h)
    all_goals rfl
  | .ret t none, s', h => by
    rw [foldS] at h
    cases h
    rfl
  | .ret t (some e), s', h => by
    rw [foldS] at h
    repeat (split at h <;> try cases h)
    all_goals rfl
  | .ifS t c thn he els, s', h => by
    rw [foldS] at h
    split at h
    · cases h
    · split at h
      · cases h
      · rename_i h1
        split at h
        · cases h
        · rename_i h2
          cases h
          rw [declsS, declsS, foldB_decls thn h1, foldB_decls els h2]
  | .whileS t c body, s', h => by
    rw [foldS] at h
    split at h
    · cases h
    · split at h
      · cases h
      · rename_i h1
        cases h
        rw [declsS, declsS, foldB_decls body h1]
  | .forS t n d a b body, s', h => by
    rw [foldS] at h
    split at h
    · cases h
    · split at h
      · cases h
      · split at h
        · cases h
        · rename_i h1
          cases h
          rw [declsS, declsS, foldB_decls body h1]
theorem foldB_decls : ∀ (ss : List (Stmt Ref)) {ss' : List (Stmt Ref)},
    foldB ss = .ok ss' → declsB ss' = declsB ss
  | [], s', h => by
    rw [foldB] at h
    cases h
    rfl
  | s :: ss, s', h => by
    rw [foldB] at h
    split at h
    · cases h
    · rename_i h1
      split at h
      · cases h
      · rename_i h2
        cases h
        rw [declsB, declsB, foldS_decls s h1, foldB_decls ss h2]
end

mutual
theorem pruneS_decls : ∀ (s : Stmt Ref) (m : List Nat),
    (declsS (pruneS m s).1).Sublist (declsS s)
  | .var t d init, m => .refl _
  | .assign t d e, m => .refl _
  | .assignArr t d i e, m => .refl _
  | .assignMem t d i e, m => .refl _
  | .call t c as, m => .refl _
  | .ret t e, m => .refl _
  | .ifS t c thn he els, m => by
    have h1 := pruneB_decls thn m
    have h2 := pruneB_decls els (pruneB m thn).2
    rw [pruneS]
    split
    rename_i thn' m1 e1
    rw [e1] at h1 h2
    split
    rename_i els' m2 e2
    rw [e2] at h2
    dsimp only at h1 h2
    split
    · split
      · simp only [declsS, declsB, List.append_nil]
        exact h1.trans (List.sublist_append_left _ _)
      · split
        · simp only [declsS, declsB, List.append_nil]
          split
          · exact h2.trans (List.sublist_append_right _ _)
          · exact List.nil_sublist _
        · simp only [declsS, declsB, List.append_nil]
          split
          · exact h2.trans (List.sublist_append_right _ _)
          · exact List.nil_sublist _
    · exact h1.append h2
  | .whileS t c body, m => by
    have h1 := pruneB_decls body m
    rw [pruneS]
    split
    rename_i b m1 e1
    rw [e1] at h1
    split
    · split
      · exact List.nil_sublist _
      · exact h1
    · exact h1
  | .forS t n d a b body, m => by
    have h1 := pruneB_decls body m
    rw [pruneS]
    split
    rename_i b m1 e1
    rw [e1] at h1
    exact h1
theorem pruneB_decls : ∀ (ss : List (Stmt Ref)) (m : List Nat),
    (declsB (pruneB m ss).1).Sublist (declsB ss)
  | [], m => .refl _
  | s :: ss, m => by
    have h1 := pruneS_decls s m
    have h2 := pruneB_decls ss (pruneS m s).2
    rw [pruneB]
    split
    rename_i s' m1 e1
    rw [e1] at h1 h2
    split
    rename_i ss' m2 e2
    rw [e2] at h2
    exact h1.append h2
end

mutual
theorem patchS_decls (m : List Nat) : ∀ s : Stmt Ref, declsS (patchS m s) = declsS s
  | .var .. => rfl
  | .assign .. => rfl
  | .assignArr .. => rfl
  | .assignMem .. => rfl
  | .call .. => rfl
  | .ret .. => rfl
  | .ifS _ _ thn _ els => by simp only [patchS, declsS, patchB_decls m thn, patchB_decls m els]
  | .whileS _ _ body => by simp only [patchS, declsS, patchB_decls m body]
  | .forS _ _ _ _ _ body => by simp only [patchS, declsS, patchB_decls m body]
theorem patchB_decls (m : List Nat) : ∀ ss : List (Stmt Ref), declsB (patchB m ss) = declsB ss
  | [] => rfl
  | s :: ss => by simp only [patchB, declsB, patchS_decls m s, patchB_decls m ss]
end

/-- What a pass of the optimiser does to a child: kind and name stay, functions lose local
variables at most. -/
def ItemLess (x y : Item Ref) : Prop :=
  x.declName = y.declName ∧ x.isSlot = y.isSlot ∧ ∀ f, x = .func f → ∃ g, y = .func g ∧
    f.name = g.name ∧ f.args = g.args ∧ (declsB f.body).Sublist (declsB g.body)

theorem ItemLess.refl (x : Item Ref) : ItemLess x x :=
  ⟨rfl, rfl, fun f hf => ⟨f, hf, rfl, rfl, .refl _⟩⟩

theorem ItemLess.trans {x y z : Item Ref} (h : ItemLess x y) (k : ItemLess y z) : ItemLess x z := by
  refine ⟨h.1.trans k.1, h.2.1.trans k.2.1, fun f hf => ?_⟩
  obtain ⟨g, hg, h1, h2, h3⟩ := h.2.2 f hf
  obtain ⟨g', hg', k1, k2, k3⟩ := k.2.2 g hg
  exact ⟨g', hg', h1.trans k1, h2.trans k2, h3.trans k3⟩

/-- Child by child. -/
inductive Less : Prog Ref → Prog Ref → Prop
  | nil : Less [] []
  | cons {x y p q} : ItemLess x y → Less p q → Less (x :: p) (y :: q)

theorem Less.refl : ∀ p, Less p p
  | [] => .nil
  | x :: p => .cons (.refl x) (Less.refl p)

theorem Less.trans {p q r : Prog Ref} (h : Less p q) (k : Less q r) : Less p r := by
  induction h generalizing r with
  | nil => exact k
  | cons h1 h2 ih =>
    cases k with
    | cons k1 k2 => exact .cons (h1.trans k1) (ih k2)

theorem Less.names {p q : Prog Ref} (h : Less p q) : p.map Item.declName = q.map Item.declName := by
  induction h with
  | nil => rfl
  | cons h1 h2 ih => rw [List.map_cons, List.map_cons, h1.1, ih]

theorem Less.func {p q : Prog Ref} (h : Less p q) : ∀ {f}, Item.func f ∈ p →
    ∃ g, Item.func g ∈ q ∧ f.name = g.name ∧ f.args = g.args ∧
      (declsB f.body).Sublist (declsB g.body) := by
  induction h with
  | nil => intro f hf; cases hf
  | cons h1 h2 ih =>
    intro f hf
    rcases List.mem_cons.1 hf with hf | hf
    · obtain ⟨g, hg, h⟩ := h1.2.2 f hf.symm
      exact ⟨g, hg ▸ List.mem_cons_self .., h⟩
    · obtain ⟨g, hg, h⟩ := ih hf
      exact ⟨g, List.mem_cons_of_mem _ hg, h⟩

theorem Less.slots {p q : Prog Ref} (h : Less p q) : p.countP Item.isSlot = q.countP Item.isSlot := by
  induction h with
  | nil => rfl
  | cons h1 h2 ih => rw [List.countP_cons, List.countP_cons, h1.2.1, ih]

theorem Less.localsOk {p q : Prog Ref} (h : Less p q) (k : LocalsOk q) : LocalsOk p := by
  intro f hf
  obtain ⟨g, hg, _, _, hs⟩ := h.func hf
  exact (k g hg).sublist hs

theorem Less.map {f : Item Ref → Item Ref} (h : ∀ x, ItemLess (f x) x) : ∀ p, Less (p.map f) p
  | [] => .nil
  | x :: p => .cons (h x) (Less.map h p)

theorem postRet_less (p : Prog Ref) : Less (postRet p) p := by
  refine Less.map (fun x => ?_) p
  cases x with
  | func f =>
    refine ⟨rfl, rfl, fun g hg => ⟨f, rfl, ?_⟩⟩
    cases hg
    exact ⟨rfl, rfl, cutAfterRet_decls _⟩
  | _ => exact .refl _

theorem constFold_less : ∀ {p q : Prog Ref}, constFold p = .ok q → Less q p
  | [], q, h => by
    rw [constFold] at h
    cases h
    exact .nil
  | x :: p, q, h => by
    rw [constFold] at h
    split at h
    · cases h
    · rename_i y hy
      split at h
      · cases h
      · rename_i hp
        cases h
        refine .cons ?_ (constFold_less hp)
        cases x with
        | var t c init =>
          rw [foldItem] at hy
          split at hy
          · cases hy
          · cases hy
            exact .refl _
        | func f =>
          rw [foldItem] at hy
          split at hy
          · cases hy
          · rename_i hb
            cases hy
            refine ⟨rfl, rfl, fun g hg => ⟨f, rfl, ?_⟩⟩
            cases hg
            refine ⟨rfl, rfl, ?_⟩
            rw [foldB_decls _ hb]
            exact .refl _
        | syscall n a =>
          cases hy
          exact .refl _

theorem pruneItems_less : ∀ (p : Prog Ref) (m : List Nat), Less (pruneItems m p).1 p
  | [], m => .nil
  | .func f :: p, m => by
    have h1 := pruneB_decls f.body m
    have h2 := pruneItems_less p (pruneB m f.body).2
    rw [pruneItems]
    split
    rename_i b m1 e1
    rw [e1] at h1 h2
    split
    rename_i p' m2 e2
    rw [e2] at h2
    refine .cons ⟨rfl, rfl, fun g hg => ⟨f, rfl, ?_⟩⟩ h2
    cases hg
    exact ⟨rfl, rfl, h1⟩
  | .var t c i :: p, m => by
    have h2 := pruneItems_less p m
    rw [pruneItems]
    · split
      rename_i p' m2 e2
      rw [e2] at h2
      exact .cons (.refl _) h2
    · intro f hf; cases hf
  | .syscall n a :: p, m => by
    have h2 := pruneItems_less p m
    rw [pruneItems]
    · split
      rename_i p' m2 e2
      rw [e2] at h2
      exact .cons (.refl _) h2
    · intro f hf; cases hf

theorem ifRemove_less (p : Prog Ref) : Less (ifRemove p) p := by
  have h := pruneItems_less p []
  unfold ifRemove
  split
  rename_i p' m e
  rw [e] at h
  refine Less.trans (Less.map (fun x => ?_) p') h
  cases x with
  | func f =>
    refine ⟨rfl, rfl, fun g hg => ⟨f, rfl, ?_⟩⟩
    cases hg
    refine ⟨rfl, rfl, ?_⟩
    simp only [patchB_decls]
    exact .refl _
  | var t c i => exact ⟨rfl, rfl, fun g hg => by cases hg⟩
  | syscall n a => exact .refl _

theorem runOptimize_less {opt : Bool} {p q : Prog Ref} (h : runOptimize opt p = .ok q) : Less q p := by
  unfold runOptimize at h
  split at h
  · split at h
    · cases h
    · rename_i h1
      cases h
      exact (ifRemove_less _).trans ((constFold_less h1).trans (postRet_less p))
  · cases h
    exact .refl _

theorem funcNames_sub (p : Prog Ref) : (funcNames p).Sublist (p.map Item.declName) := by
  induction p with
  | nil => exact .slnil
  | cons x p ih =>
    cases x with
    | func f => exact ih.cons_cons _
    | _ => exact ih.cons _

end Ccml
