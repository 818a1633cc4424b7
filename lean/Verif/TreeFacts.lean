import Verif.Tree
/-!
Facts about `ast_t::gc` and `ast_t::dump` (Tree.lean).
-/
namespace Ccml.Tree

/-- The tree at `n` is finite, and every pointer in it leads to a node. -/
inductive Whole (mem : Nat → Option Node) : Nat → Prop
  | node {n : Nat} {x : Node} : mem n = some x → (∀ c, some c ∈ x.kids → Whole mem c) → Whole mem n

/-- `Below mem a b`: the node `b` is in the tree at `a`. -/
inductive Below (mem : Nat → Option Node) : Nat → Nat → Prop
  | here {a : Nat} : Below mem a a
  | step {a b c : Nat} {x : Node} : mem a = some x → some b ∈ x.kids → Below mem b c → Below mem a c

theorem bound {P : Nat → Nat → Prop} : ∀ (ps : List Ptr), (∀ c, some c ∈ ps → ∃ m, ∀ k, m ≤ k → P k c) →
    ∃ m, ∀ k, m ≤ k → ∀ c, some c ∈ ps → P k c
  | [], _ => ⟨0, fun _ _ _ h => by cases h⟩
  | none :: ps, h => by
    obtain ⟨m, hm⟩ := bound ps fun c hc => h c (by simp [hc])
    exact ⟨m, fun k hk c hc => hm k hk c (by simpa using hc)⟩
  | some a :: ps, h => by
    obtain ⟨m, hm⟩ := bound ps fun c hc => h c (by simp [hc])
    obtain ⟨m', hm'⟩ := h a (by simp)
    refine ⟨m + m', fun k hk c hc => ?_⟩
    rcases List.mem_cons.1 hc with e | hc
    · cases e; exact hm' k (by omega)
    · exact hm k (by omega) c hc

variable {α : Type} {f g : Nat → Out (List α)}

theorem each_congr : ∀ {ps : List Ptr}, (∀ c, some c ∈ ps → f c = g c) → each f ps = each g ps
  | [], _ => rfl
  | none :: ps, h => each_congr (ps := ps) fun c hc => h c (by simp [hc])
  | some a :: ps, h => by
    simp only [each, h a (by simp), each_congr (ps := ps) fun c hc => h c (by simp [hc])]

theorem each_ok : ∀ {ps : List Ptr}, (∀ c, some c ∈ ps → ∃ l, f c = .ok l) →
    ∃ l, each f ps = .ok l ∧ ∀ x, x ∈ l ↔ ∃ c l', some c ∈ ps ∧ f c = .ok l' ∧ x ∈ l'
  | [], _ => ⟨[], rfl, by simp⟩
  | none :: ps, h => by
    obtain ⟨l, h1, h2⟩ := each_ok (ps := ps) fun c hc => h c (by simp [hc])
    exact ⟨l, h1, by simpa using h2⟩
  | some a :: ps, h => by
    obtain ⟨l, h1, h2⟩ := each_ok (ps := ps) fun c hc => h c (by simp [hc])
    obtain ⟨l', h3⟩ := h a (by simp)
    refine ⟨l' ++ l, by simp [each, h3, h1], fun x => ?_⟩
    rw [List.mem_append, h2]
    constructor
    · rintro (hx | ⟨c, l2, h4, h5, h6⟩)
      · exact ⟨a, l', by simp, h3, hx⟩
      · exact ⟨c, l2, by simp [h4], h5, h6⟩
    · rintro ⟨c, l2, h4, h5, h6⟩
      rcases List.mem_cons.1 h4 with e | h4
      · cases e; rw [h3] at h5; cases h5; exact .inl h6
      · exact .inr ⟨c, l2, h4, h5, h6⟩

theorem each_ub : ∀ {ps : List Ptr}, (∀ c, some c ∈ ps → (∃ l, f c = .ok l) ∨ f c = .error .ub) →
    (∃ c, some c ∈ ps ∧ f c = .error .ub) → each f ps = .error .ub
  | [], _, ⟨_, h, _⟩ => by cases h
  | none :: ps, h, ⟨c, h1, h2⟩ =>
    each_ub (ps := ps) (fun c hc => h c (by simp [hc])) ⟨c, by simpa using h1, h2⟩
  | some a :: ps, h, ⟨c, h1, h2⟩ => by
    rcases h a (by simp) with ⟨l, hl⟩ | hl
    · rcases List.mem_cons.1 h1 with e | h1
      · cases e; rw [hl] at h2; cases h2
      · simp [each, hl, each_ub (ps := ps) (fun c hc => h c (by simp [hc])) ⟨c, h1, h2⟩]
    · simp [each, hl]

variable {mem mem' : Nat → Option Node} {fl : FloatOps}

/-- The set of the collector: the nodes of the tree of types it knows. -/
theorem marks_ok {n : Nat} (h : Whole mem n) : ∃ m, ∀ k, m ≤ k → ∃ l, marks mem k n = .ok l ∧
    ∀ b, b ∈ l ↔ Below mem n b ∧ ∃ x, mem b = some x ∧ x.kept = true := by
  induction h with
  | @node n x hx hk ih =>
    obtain ⟨m, hm⟩ := bound x.kids ih
    refine ⟨m + 1, fun k hk => ?_⟩
    obtain ⟨k, rfl⟩ : ∃ j, k = j + 1 := ⟨k - 1, by omega⟩
    have hm := hm k (by omega)
    obtain ⟨l, h1, h2⟩ := each_ok (f := marks mem k) (ps := x.kids) fun c hc => by
      obtain ⟨l, hl, _⟩ := hm c hc
      exact ⟨l, hl⟩
    refine ⟨_, by simp only [marks, hx, h1]; rfl, fun b => ?_⟩
    rw [List.mem_append, h2]
    constructor
    · rintro (hb | ⟨c, l', h3, h4, h5⟩)
      · split at hb
        · rename_i hkept
          obtain rfl := List.mem_singleton.1 hb
          exact ⟨.here, x, hx, hkept⟩
        · cases hb
      · obtain ⟨l2, h6, h7⟩ := hm c h3
        rw [h4] at h6
        cases h6
        obtain ⟨h8, h9⟩ := (h7 b).1 h5
        exact ⟨.step hx h3 h8, h9⟩
    · rintro ⟨h3, y, h4, h5⟩
      cases h3 with
      | here =>
        rw [hx] at h4
        cases h4
        rw [if_pos h5]
        exact .inl (by simp)
      | step h6 h7 h8 =>
        rw [hx] at h6
        cases h6
        obtain ⟨l2, h9, h10⟩ := hm _ h7
        exact .inr ⟨_, l2, h7, h9, (h10 b).2 ⟨h8, y, h4, h5⟩⟩

/-- The text of a whole tree is written. -/
theorem dumpNode_ok {n : Nat} (h : Whole mem n) : ∃ m, ∀ k, m ≤ k → ∀ d, ∃ t, dumpNode fl mem k d n = .ok t := by
  induction h with
  | @node n x hx hk ih =>
    obtain ⟨m, hm⟩ := bound x.kids ih
    refine ⟨m + 1, fun k hk d => ?_⟩
    obtain ⟨k, rfl⟩ : ∃ j, k = j + 1 := ⟨k - 1, by omega⟩
    obtain ⟨l, h1, -⟩ := each_ok (f := dumpNode fl mem k (d + 1)) (ps := x.kids) fun c hc => hm k (by omega) c hc (d + 1)
    exact ⟨_, by simp only [dumpNode, hx, h1]; rfl⟩

/-- The text depends on the nodes of the tree only. -/
theorem dumpNode_same : ∀ (k d n : Nat), (∀ b, Below mem n b → mem' b = mem b) →
    dumpNode fl mem' k d n = dumpNode fl mem k d n
  | 0, _, _, _ => rfl
  | k + 1, d, n, h => by
    simp only [dumpNode, h n .here]
    cases hx : mem n with
    | none => rfl
    | some x =>
      dsimp only
      rw [each_congr (f := dumpNode fl mem' k (d + 1)) (g := dumpNode fl mem k (d + 1)) fun c hc =>
        dumpNode_same k (d + 1) c fun b hb => h b (.step hx hc hb)]

/-- A pointer to a deleted node is followed. -/
theorem dumpNode_ub {n : Nat} (h : Whole mem n) (hb : ∀ b, Below mem n b → mem' b = mem b ∨ mem' b = none)
    (he : ∃ b, Below mem n b ∧ mem' b = none) : ∃ m, ∀ k, m ≤ k → ∀ d, dumpNode fl mem' k d n = .error .ub := by
  induction h with
  | @node n x hx hk ih =>
    have key : ∃ m, ∀ k, m ≤ k → ∀ c, some c ∈ x.kids → ∀ d, ((∃ b, Below mem c b ∧ mem' b = none) →
        dumpNode fl mem' k d c = .error .ub) ∧ ((¬∃ b, Below mem c b ∧ mem' b = none) →
        ∃ t, dumpNode fl mem' k d c = .ok t) := by
      refine bound (P := fun k c => ∀ d, ((∃ b, Below mem c b ∧ mem' b = none) →
        dumpNode fl mem' k d c = .error .ub) ∧ ((¬∃ b, Below mem c b ∧ mem' b = none) →
        ∃ t, dumpNode fl mem' k d c = .ok t)) x.kids fun c hc => ?_
      by_cases hg : ∃ b, Below mem c b ∧ mem' b = none
      · obtain ⟨m, hm⟩ := ih c hc (fun b h => hb b (.step hx hc h)) hg
        exact ⟨m, fun k hk d => ⟨fun _ => hm k hk d, fun h => absurd hg h⟩⟩
      · obtain ⟨m, hm⟩ := dumpNode_ok (fl := fl) (hk c hc)
        refine ⟨m, fun k hk d => ⟨fun h => absurd h hg, fun _ => ?_⟩⟩
        rw [dumpNode_same k d c fun b h => by
          rcases hb b (.step hx hc h) with e | e
          · exact e
          · exact absurd ⟨b, h, e⟩ hg]
        exact hm k hk d
    obtain ⟨m, hm⟩ := key
    refine ⟨m + 1, fun k hk d => ?_⟩
    obtain ⟨k, rfl⟩ : ∃ j, k = j + 1 := ⟨k - 1, by omega⟩
    have hm := hm k (by omega)
    rcases hb n .here with e | e
    · obtain ⟨b, h1, h2⟩ := he
      cases h1 with
      | here => rw [e, hx] at h2; cases h2
      | step h3 h4 h5 =>
        rw [hx] at h3
        cases h3
        have := each_ub (f := dumpNode fl mem' k (d + 1)) (ps := x.kids) (fun c hc => by
          by_cases hg : ∃ b, Below mem c b ∧ mem' b = none
          · exact .inr ((hm c hc (d + 1)).1 hg)
          · exact .inl ((hm c hc (d + 1)).2 hg)) ⟨_, h4, (hm _ h4 (d + 1)).1 ⟨b, h5, h2⟩⟩
        simp only [dumpNode, e, hx, this]
    · simp only [dumpNode, e]

/-! ### Whole trees -/

/-- A node is in the tree. -/
def Ast.Used (t : Ast) (n : Nat) : Prop := ∃ c, some c ∈ t.children ∧ Below t.mem c n

theorem gc_ok {t : Ast} (h : ∀ c, some c ∈ t.children → Whole t.mem c) : ∃ m, ∀ k, m ≤ k → ∃ found : List Nat,
    gc k t = .ok ⟨t.children, fun n => if n ∈ t.allocs ∧ n ∉ found then none else t.mem n,
      t.allocs.filter fun n => found.contains n⟩ ∧
    ∀ b, b ∈ found ↔ t.Used b ∧ ∃ x, t.mem b = some x ∧ x.kept = true := by
  obtain ⟨m, hm⟩ := bound t.children fun c hc => marks_ok (h c hc)
  refine ⟨m, fun k hk => ?_⟩
  have hm := hm k hk
  obtain ⟨l, h1, h2⟩ := each_ok (f := marks t.mem k) (ps := t.children) fun c hc => by
    obtain ⟨l, hl, _⟩ := hm c hc
    exact ⟨l, hl⟩
  refine ⟨l, by simp only [gc, h1], fun b => ?_⟩
  rw [h2]
  constructor
  · rintro ⟨c, l', h3, h4, h5⟩
    obtain ⟨l2, h6, h7⟩ := hm c h3
    rw [h4] at h6
    cases h6
    obtain ⟨h8, h9⟩ := (h7 b).1 h5
    exact ⟨⟨c, h3, h8⟩, h9⟩
  · rintro ⟨⟨c, h3, h4⟩, h5⟩
    obtain ⟨l2, h6, h7⟩ := hm c h3
    exact ⟨c, l2, h3, h6, (h7 b).2 ⟨h4, h5⟩⟩

end Ccml.Tree
