import Verif.GcLemmas
/-!
Nesting depth of arrays and the recursion of the tracer; layout of the arenas.
-/
namespace Ccml

/-- Arrays are nested at most `n` levels deep below the node. -/
inductive Height {A : Type} (G : Graph A) : A → Nat → Prop
  | leaf {a x n} : G a = some x → (∀ xs, x ≠ .arr xs) → Height G a n
  | arr {a xs n} : G a = some (.arr xs) → (∀ x ∈ xs, Height G x n) → Height G a (n + 1)

theorem Height.le {A : Type} {G : Graph A} {a : A} {n m : Nat} (h : Height G a n) (hm : n ≤ m) :
    Height G a m := by
  induction h generalizing m with
  | leaf h1 h2 => exact .leaf h1 h2
  | arr h1 _ ih =>
    cases m with
    | zero => omega
    | succ m => exact .arr h1 (fun x hx => ih x hx (by omega))

theorem traceList_no_diverge {A : Type} {G : Graph A} {n : Nat}
    {one : Heap → Option Ptr → Out (Option Ptr × Heap)}
    (hone : ∀ h L K a p, Tracing G h L K → Rep G h L a p →
      match one h p with
      | .error f => f = .oom ∨ f = .diverge
      | .ok (p', h') => ∃ L' K', Traced G h L K a p' h' L' K')
    (hdiv : ∀ h L K a p, Tracing G h L K → Rep G h L a p → Height G a n →
      one h p ≠ .error .diverge) :
    ∀ (as : List A) (ps : List (Option Ptr)) h L K, Tracing G h L K → All2 (Rep G h L) as ps →
      (∀ a ∈ as, Height G a n) → traceList one h ps ≠ .error .diverge := by
  intro as ps
  induction ps generalizing as with
  | nil => intro h L K t r _; simp [traceList]
  | cons p ps ih =>
    intro h L K t r ha
    cases r with
    | cons r rs =>
      rename_i a as
      rw [traceList]
      have h1 := hone h L K a p t r
      have h2 := hdiv h L K a p t r (ha a (by simp))
      cases hx : one h p with
      | error f => rw [hx] at h2; simpa using h2
      | ok y =>
        obtain ⟨p', h'⟩ := y
        rw [hx] at h1
        obtain ⟨L', K', d⟩ := h1
        dsimp only
        have h3 := ih as h' L' K' d.inv (rs.mono (fun _ _ r => r.ext d.ext d.grow))
          (fun x hx => ha x (by simp [hx]))
        cases hy : traceList one h' ps with
        | error f => rw [hy] at h3; simpa using h3
        | ok z => simp

theorem moveCell_no_diverge (h : Heap) (c : Cell) : moveCell h c ≠ .error .diverge := by
  unfold moveCell; split <;> simp

/-- The tracer does not run out of stack if the nesting depth is within the available depth. -/
theorem traceOne_no_diverge {A : Type} {G : Graph A} :
    ∀ depth h L K (a : A) p, Tracing G h L K → Rep G h L a p → Height G a depth →
      traceOne depth h p ≠ .error .diverge := by
  intro depth
  induction depth with
  | zero =>
    intro h L K a p t r ht
    cases ht with
    | leaf hG hna =>
      unfold Rep at r
      rw [hG] at r
      cases p with
      | none => simp [traceOne]
      | some q =>
        rw [traceOne.eq_def]
        dsimp only
        cases hq : h.get q with
        | none => simp
        | some c =>
          try dsimp only
          rename_i x
          cases x with
          | arr xs => exact absurd rfl (hna xs)
          | none => cases r
          | _ =>
            obtain ⟨q', e, hq'⟩ := r
            cases e
            first | (have hq' := hq'.1; rw [hq] at hq'; cases hq') | (rw [hq] at hq'; cases hq')
            try dsimp only
            split
            · simp
            · first | exact moveCell_no_diverge _ _ | (split; simp; exact moveCell_no_diverge _ _)
  | succ depth ih =>
    intro h L K a p t r ht
    cases p with
    | none => simp [traceOne]
    | some q =>
      rw [traceOne.eq_def]
      dsimp only
      cases hq : h.get q with
      | none => simp
      | some c =>
        try dsimp only
        cases c with
        | arr ps =>
          dsimp only
          cases ht with
          | leaf hG hna =>
            unfold Rep at r
            rw [hG] at r
            rename_i x
            cases x with
            | arr xs => exact absurd rfl (hna xs)
            | none => cases r
            | _ =>
              obtain ⟨q', e, hq'⟩ := r
              cases e
              first | (have hq' := hq'.1; rw [hq] at hq'; cases hq') | (rw [hq] at hq'; cases hq')
          | arr hG hx =>
            rename_i xs
            unfold Rep at r
            rw [hG] at r
            obtain ⟨q', e, hl⟩ := r
            cases e
            obtain ⟨ys, qs, h1, h2, h3, h4⟩ := t.arr _ _ hl
            rw [hG] at h1; cases h1
            rw [hq] at h3; cases h3
            have := traceList_no_diverge (traceOne_spec (G := G) depth) ih xs ps h L K t h4 hx
            cases hy : traceList (traceOne depth) h ps with
            | error f => rw [hy] at this; simpa using this
            | ok z =>
              dsimp only
              split
              · simp
              · split
                · simp
                · split <;> simp
        | _ =>
          dsimp only
          split
          · simp
          · first | exact moveCell_no_diverge _ _ | (split; simp; exact moveCell_no_diverge _ _)

theorem traceList_height {A : Type} {G : Graph A} {n : Nat}
    {one : Heap → Option Ptr → Out (Option Ptr × Heap)}
    (hone : ∀ h L K a p, Tracing G h L K → Rep G h L a p →
      match one h p with
      | .error f => f = .oom ∨ f = .diverge
      | .ok (p', h') => ∃ L' K', Traced G h L K a p' h' L' K')
    (hh : ∀ h L K a p y, Tracing G h L K → Rep G h L a p → one h p = .ok y → Height G a n) :
    ∀ (as : List A) (ps : List (Option Ptr)) h L K y, Tracing G h L K → All2 (Rep G h L) as ps →
      traceList one h ps = .ok y → ∀ a ∈ as, Height G a n := by
  intro as ps
  induction ps generalizing as with
  | nil => intro h L K y t r _; cases r; simp
  | cons p ps ih =>
    intro h L K y t r hy
    cases r with
    | cons r rs =>
      rename_i a as
      rw [traceList] at hy
      have h1 := hone h L K a p t r
      cases hx : one h p with
      | error f => rw [hx] at hy; simp at hy
      | ok z =>
        have h2 := hh h L K a p z t r hx
        obtain ⟨p', h'⟩ := z
        rw [hx] at h1 hy
        obtain ⟨L', K', d⟩ := h1
        dsimp only at hy
        cases hz : traceList one h' ps with
        | error f => rw [hz] at hy; simp at hy
        | ok w =>
          have h3 := ih as h' L' K' w d.inv (rs.mono (fun _ _ r => r.ext d.ext d.grow)) hz
          intro b hb
          rcases List.mem_cons.1 hb with rfl | hb
          · exact h2
          · exact h3 b hb

/-- A trace that ends has nesting depth within the available depth. -/
theorem traceOne_height {A : Type} {G : Graph A} :
    ∀ depth h L K (a : A) p y, Tracing G h L K → Rep G h L a p → traceOne depth h p = .ok y →
      Height G a depth := by
  intro depth
  induction depth with
  | zero =>
    intro h L K a p y t r hy
    unfold Rep at r
    split at r
    case h_7 xs hG =>
      obtain ⟨q, rfl, hl⟩ := r
      obtain ⟨_, ps, _, _, h3, _⟩ := t.arr _ _ hl
      rw [traceOne.eq_def] at hy
      simp [h3] at hy
    case h_8 => exact r.elim
    all_goals
      rename_i hG
      exact .leaf hG (fun _ => nofun)
  | succ depth ih =>
    intro h L K a p y t r hy
    unfold Rep at r
    split at r
    case h_7 xs hG =>
      obtain ⟨q, rfl, hl⟩ := r
      obtain ⟨ys, ps, h1, _, h3, h4⟩ := t.arr _ _ hl
      rw [hG] at h1; cases h1
      rw [traceOne.eq_def] at hy
      simp only [h3] at hy
      cases hz : traceList (traceOne depth) h ps with
      | error f => rw [hz] at hy; simp at hy
      | ok z =>
        exact .arr hG (traceList_height (traceOne_spec (G := G) depth) ih xs ps h L K z t h4 hz)
    case h_8 => exact r.elim
    all_goals
      rename_i hG
      exact .leaf hG (fun _ => nofun)

/-! ### Layout -/

/-- Every value lies below the fill level and values do not overlap. -/
structure Arena.Packed (a : Arena) : Prop where
  head : a.head < arenaCapacity
  inside : ∀ o c, a.cells o = some c → o + (8 + c.extra) ≤ a.head
  apart : ∀ o c o' c', a.cells o = some c → a.cells o' = some c' → o < o' →
    o + (8 + c.extra) ≤ o'

theorem Arena.packed_clear : Arena.Packed .clear :=
  ⟨by simp [Arena.clear, arenaCapacity], fun o c h => by simp [Arena.clear] at h,
   fun o c _ _ h => by simp [Arena.clear] at h⟩

theorem Arena.packed_alloc {a : Arena} (p : a.Packed) {c : Cell} {o : Nat} {a' : Arena}
    (hc : c.extra < 9223372036854775809) (h : a.alloc c.extra c = some (o, a')) :
    a'.Packed := by
  unfold Arena.alloc arenaReserve at h
  have hlt := p.head
  have hs : sizeT (a.head + 8 + c.extra) = a.head + 8 + c.extra := by
    unfold sizeT; unfold arenaCapacity at hlt; omega
  rw [hs] at h
  split at h
  · simp at h
  · rename_i head hh
    split at hh
    · rename_i hcap
      simp at hh h
      obtain ⟨rfl, rfl⟩ := h
      subst hh
      refine ⟨hcap, ?_, ?_⟩
      · intro o d hd
        dsimp only at hd ⊢
        split at hd
        · cases hd; omega
        · have := p.inside _ _ hd; omega
      · intro o d o' d' hd hd' hlt'
        dsimp only at hd hd'
        split at hd <;> split at hd'
        · omega
        · have := p.inside _ _ hd'; omega
        · have := p.inside _ _ hd; omega
        · exact p.apart _ _ _ _ hd hd' hlt'
    · simp at hh

/-- Both arenas are laid out properly. -/
def Heap.Packed (h : Heap) : Prop := h.frm.Packed ∧ h.to.Packed

theorem Arena.packed_put {a : Arena} (p : a.Packed) {o : Nat} {c c' : Cell}
    (ho : a.cells o = some c) (he : c'.extra = c.extra) :
    Arena.Packed { a with cells := fun x => if x = o then some c' else a.cells x } := by
  refine ⟨p.head, ?_, ?_⟩
  · intro x d hd
    dsimp only at hd ⊢
    split at hd
    · rename_i e; cases hd; subst e; rw [he]; exact p.inside _ _ ho
    · exact p.inside _ _ hd
  · intro x d x' d' hd hd' hlt
    dsimp only at hd hd'
    split at hd <;> split at hd'
    · omega
    · rename_i e _; cases hd; subst e; rw [he]; exact p.apart _ _ _ _ ho hd' hlt
    · rename_i e; cases hd'; subst e; exact p.apart _ _ _ _ hd ho hlt
    · exact p.apart _ _ _ _ hd hd' hlt

theorem Heap.packed_put {h : Heap} (p : h.Packed) {q : Ptr} {c c' : Cell}
    (hq : h.get q = some c) (he : c'.extra = c.extra) : (h.put q c').Packed := by
  unfold Heap.put
  unfold Heap.get at hq
  split at hq
  · rename_i hin; rw [if_pos hin]; exact ⟨p.1, Arena.packed_put p.2 hq he⟩
  · rename_i hin; rw [if_neg hin]; exact ⟨Arena.packed_put p.1 hq he, p.2⟩

theorem Heap.packed_alloc {h : Heap} (p : h.Packed) {c : Cell} {q : Ptr} {h' : Heap}
    (hc : c.extra < 9223372036854775809) (ha : h.allocTo c.extra c = some (q, h')) :
    h'.Packed := by
  unfold Heap.allocTo at ha
  split at ha
  · simp at ha
  · rename_i off a hoff
    simp at ha
    obtain ⟨_, rfl⟩ := ha
    exact ⟨p.1, Arena.packed_alloc p.2 hc hoff⟩

theorem Heap.packed_flip {h : Heap} (p : h.Packed) : h.flipSpaces.Packed :=
  ⟨p.2, Arena.packed_clear⟩

theorem Heap.Packed.extra {h : Heap} (p : h.Packed) {q : Ptr} {c : Cell}
    (hq : h.get q = some c) : c.extra < 1048576 := by
  unfold Heap.get at hq
  have h1 := p.1.head
  have h2 := p.2.head
  unfold arenaCapacity at h1 h2
  split at hq
  · have := p.2.inside _ _ hq; omega
  · have := p.1.inside _ _ hq; omega

/-- Array cells keep their length from one heap to the next. -/
def Heap.SameSizes (h h' : Heap) : Prop :=
  ∀ q c, h.get q = some c → ∃ c', h'.get q = some c' ∧ c'.extra = c.extra ∧
    c'.scalar = c.scalar

theorem Heap.SameSizes.refl (h : Heap) : h.SameSizes h := fun _ c hq => ⟨c, hq, rfl, rfl⟩

theorem Heap.SameSizes.trans {a b c : Heap} (h1 : a.SameSizes b) (h2 : b.SameSizes c) :
    a.SameSizes c := by
  intro q d hd
  obtain ⟨d', h3, h4, h5⟩ := h1 q d hd
  obtain ⟨d'', h6, h7, h8⟩ := h2 q d' h3
  exact ⟨d'', h6, h7.trans h4, h8.trans h5⟩

theorem Heap.Packed.below {h : Heap} (p : h.Packed) : h.Below :=
  ⟨p.2.head, fun o c ho => by have := p.2.inside o c ho; omega⟩

theorem sameSizes_alloc {h : Heap} {c : Cell} {q : Ptr} {h' : Heap} (a : Heap.Alloced h c q h') :
    h.SameSizes h' := by
  intro x d hx
  refine ⟨d, ?_, rfl, rfl⟩
  rw [a.get, if_neg]; exact hx
  intro e; subst e; rw [a.fresh] at hx; cases hx

theorem sameSizes_put {h : Heap} {q : Ptr} {c c' : Cell} (hq : h.get q = some c)
    (he : c'.extra = c.extra) (hs : c'.scalar = c.scalar) : h.SameSizes (h.put q c') := by
  intro x d hx
  rw [Heap.get_put]
  split
  · rename_i e; subst e; rw [hq] at hx; cases hx; exact ⟨c', rfl, he, hs⟩
  · exact ⟨d, hx, rfl, rfl⟩

theorem moveCell_packed {h : Heap} {c : Cell} {y} (p : h.Packed) (hc : c.extra < 1048576)
    (hm : moveCell h c = .ok y) : y.2.Packed ∧ h.SameSizes y.2 := by
  unfold moveCell at hm
  split at hm
  · simp at hm
  · rename_i q h' ha
    cases hm
    exact ⟨Heap.packed_alloc p (by omega) ha,
      sameSizes_alloc (Heap.allocTo_spec p.below (by omega) ha)⟩

theorem traceList_packed {one : Heap → Option Ptr → Out (Option Ptr × Heap)}
    (hone : ∀ h p y, h.Packed → one h p = .ok y → y.2.Packed ∧ h.SameSizes y.2) :
    ∀ ps h y, h.Packed → traceList one h ps = .ok y →
      y.2.Packed ∧ h.SameSizes y.2 ∧ y.1.length = ps.length := by
  intro ps
  induction ps with
  | nil => intro h y p hy; simp [traceList] at hy; subst hy; exact ⟨p, .refl h, rfl⟩
  | cons x ps ih =>
    intro h y p hy
    rw [traceList] at hy
    cases hx : one h x with
    | error f => rw [hx] at hy; simp at hy
    | ok z =>
      obtain ⟨x', h'⟩ := z
      rw [hx] at hy
      dsimp only at hy
      obtain ⟨h1, h2⟩ := hone _ _ _ p hx
      cases hz : traceList one h' ps with
      | error f => rw [hz] at hy; simp at hy
      | ok w =>
        rw [hz] at hy
        obtain ⟨ps', h''⟩ := w
        dsimp only at hy
        cases hy
        obtain ⟨h3, h4, h5⟩ := ih _ _ h1 hz
        exact ⟨h3, h2.trans h4, by simpa using h5⟩

theorem traceOne_packed : ∀ depth h p y, h.Packed → traceOne depth h p = .ok y →
    y.2.Packed ∧ h.SameSizes y.2 := by
  intro depth
  induction depth with
  | zero =>
    intro h p y hp hy
    cases p with
    | none => simp [traceOne] at hy; subst hy; exact ⟨hp, .refl h⟩
    | some q =>
      rw [traceOne.eq_def] at hy
      dsimp only at hy
      cases hq : h.get q with
      | none => simp [hq] at hy
      | some c =>
        rw [hq] at hy
        have hc := hp.extra hq
        cases c <;> dsimp only at hy
        case arr => simp at hy
        case str s =>
          split at hy
          · cases hy; exact ⟨hp, .refl h⟩
          · split at hy
            · simp at hy
            · exact moveCell_packed hp hc hy
        all_goals
          split at hy
          · cases hy; exact ⟨hp, .refl h⟩
          · exact moveCell_packed hp hc hy
  | succ depth ih =>
    intro h p y hp hy
    cases p with
    | none => simp [traceOne] at hy; subst hy; exact ⟨hp, .refl h⟩
    | some q =>
      rw [traceOne.eq_def] at hy
      dsimp only at hy
      cases hq : h.get q with
      | none => simp [hq] at hy
      | some c =>
        rw [hq] at hy
        have hc := hp.extra hq
        cases c <;> dsimp only at hy
        case arr ps =>
          cases hl : traceList (traceOne depth) h ps with
          | error f => rw [hl] at hy; simp at hy
          | ok z =>
            obtain ⟨ps', h1⟩ := z
            rw [hl] at hy
            obtain ⟨p1, s1, l1⟩ := traceList_packed ih _ _ _ hp hl
            dsimp only at hy p1 s1 l1
            obtain ⟨c1, g1, e1, sc1⟩ := s1 _ _ hq
            have e2 : (Cell.arr ps').extra = c1.extra := by rw [e1]; simp [Cell.extra, l1]
            have p2 := Heap.packed_put (c' := .arr ps') p1 g1 e2
            have s2 : h1.SameSizes (h1.put q (.arr ps')) :=
              sameSizes_put g1 e2 (by rw [sc1]; rfl)
            split at hy
            · cases hy; exact ⟨p2, s1.trans s2⟩
            · split at hy
              · cases hy; exact ⟨p2, s1.trans s2⟩
              · split at hy
                · simp at hy
                · rename_i n h3 ha
                  cases hy
                  have hlen : 8 * ps'.length < 1048576 := by
                    simp [Cell.extra] at hc; omega
                  have p3 := Heap.packed_alloc (c := .arr ps') p2 (by simp [Cell.extra]; omega) ha
                  have s3 := sameSizes_alloc (Heap.allocTo_spec p2.below (by omega) ha)
                  exact ⟨p3, (s1.trans s2).trans s3⟩
        case str s =>
          split at hy
          · cases hy; exact ⟨hp, .refl h⟩
          · split at hy
            · simp at hy
            · exact moveCell_packed hp hc hy
        all_goals
          split at hy
          · cases hy; exact ⟨hp, .refl h⟩
          · exact moveCell_packed hp hc hy

theorem gcRun_packed {depth h roots y} (hp : Heap.Packed h) (hy : gcRun depth h roots = .ok y) :
    y.2.Packed := by
  unfold gcRun at hy
  cases hx : traceList (traceOne depth) h roots with
  | error f => rw [hx] at hy; simp at hy
  | ok z =>
    rw [hx] at hy
    obtain ⟨r', h'⟩ := z
    cases hy
    exact Heap.packed_flip (traceList_packed (traceOne_packed depth) _ _ _ hp hx).1

theorem nodup_subset_length {α : Type} [DecidableEq α] : ∀ (l1 l2 : List α), l1.Nodup → l1 ⊆ l2 →
    l1.length ≤ l2.length := by
  intro l1
  induction l1 with
  | nil => simp
  | cons a t ih =>
    intro l2 hn hs
    have ha : a ∈ l2 := hs (by simp)
    have h1 := ih (l2.erase a) (List.nodup_cons.1 hn).2 (by
      intro x hx
      have hxa : x ≠ a := by
        intro e; subst e; exact (List.nodup_cons.1 hn).1 hx
      exact (List.mem_erase_of_ne hxa).2 (hs (by simp [hx])))
    rw [List.length_erase_of_mem ha] at h1
    have := List.length_pos_of_mem ha
    simp; omega

end Ccml
