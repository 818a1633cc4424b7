import Verif.GcHeight
/-!
Properties of the garbage collector: C41, C42, C43, C44.
-/
namespace Ccml.Props
open Ccml

/-! ### Specification -/

/-- The values a program can get at from its roots: the roots and the elements of arrays. -/
inductive Reach (h : Heap) (roots : List (Option Ptr)) : Ptr → Prop
  | root {q} : some q ∈ roots → Reach h roots q
  | elem {q x ps} : Reach h roots q → h.get q = some (.arr ps) → some x ∈ ps → Reach h roots x

/-- Everything reachable is allocated, strings hold no NUL and lengths are those of C++ objects.
Programs only ever build such heaps: `C45_heap_sound`. -/
def Sound (h : Heap) (roots : List (Option Ptr)) : Prop :=
  ∀ q, Reach h roots q → ∃ c, h.get q = some c ∧
    (∀ s, c = .str s → (∀ b ∈ s, b ≠ 0) ∧ s.length < 2 ^ 63) ∧
    (∀ ps, c = .arr ps → ps.length < 2 ^ 31)

/-- A heap between two collections: no forwarding entries, both spaces laid out without overlap. -/
structure Idle (h : Heap) : Prop where
  packed : h.Packed
  fwd : ∀ q, h.fwd q = none

/-- Two pointers correspond: both null or related by `β`. -/
def Corr (β : Ptr → Ptr → Prop) : Option Ptr → Option Ptr → Prop
  | none, none => True
  | some q, some q' => β q q'
  | _, _ => False

/-- The same value up to `β`: scalars are equal, arrays have equal length and corresponding
elements. -/
def SameValue (β : Ptr → Ptr → Prop) : Cell → Cell → Prop
  | .arr ps, .arr ps' => All2 (Corr β) ps ps'
  | .arr _, _ => False
  | c, c' => c = c'

/-- `β` shows that the program sees the same before (`h`, `roots`) and after (`h'`, `roots'`):
as many roots in the same order, equal types and contents, the same array stays the same array and
different arrays stay different. -/
structure SameGraph (β : Ptr → Ptr → Prop) (h : Heap) (roots : List (Option Ptr)) (h' : Heap)
    (roots' : List (Option Ptr)) : Prop where
  roots : All2 (Corr β) roots roots'
  value : ∀ q q', β q q' → ∃ c c', h.get q = some c ∧ h'.get q' = some c' ∧ SameValue β c c'
  same : ∀ q q1 q2 ps, h.get q = some (.arr ps) → β q q1 → β q q2 → q1 = q2
  different : ∀ q r q' ps, h'.get q' = some (.arr ps) → β q q' → β r q' → q = r

/-! ### The heap as a graph -/

/-- The graph stored in a heap. -/
def ptrGraph (h : Heap) : Graph (Option Ptr)
  | none => some .none
  | some q => match h.get q with
    | none => none
    | some (.int v) => some (.int v)
    | some (.float v) => some (.float v)
    | some (.str v) => some (.str v)
    | some (.arr v) => some (.arr v)
    | some (.func v) => some (.func v)
    | some (.syscall v) => some (.syscall v)

/-- Every reachable array stands for itself. -/
def selfRel (h : Heap) (roots : List (Option Ptr)) (a : Option Ptr) (q : Ptr) : Prop :=
  a = some q ∧ Reach h roots q ∧ ∃ ps, h.get q = some (.arr ps)

theorem rep_self {h : Heap} {roots} (hs : Sound h roots) {p : Option Ptr}
    (hp : ∀ q, p = some q → Reach h roots q) : Rep (ptrGraph h) h (selfRel h roots) p p := by
  cases p with
  | none => simp [Rep, ptrGraph]
  | some q =>
    obtain ⟨c, hc, h1, h2⟩ := hs q (hp q rfl)
    unfold Rep ptrGraph
    dsimp only
    rw [hc]
    cases c <;> dsimp only
    case arr ps => exact ⟨q, rfl, rfl, hp q rfl, ps, hc⟩
    case str s => exact ⟨q, rfl, hc, cstr_eq (h1 s rfl).1, by simpa using (h1 s rfl).2⟩
    all_goals exact ⟨q, rfl, hc⟩

theorem all2_self {α : Type} {R : α → α → Prop} : ∀ {as : List α}, (∀ a ∈ as, R a a) →
    All2 R as as
  | [], _ => .nil
  | a :: as, h => .cons (h a (by simp)) (all2_self (fun x hx => h x (by simp [hx])))

theorem holds_self {h : Heap} {roots} (hi : Idle h) (hs : Sound h roots) :
    Holds (ptrGraph h) h (selfRel h roots) := by
  refine ⟨hi.packed.below, ?_, ?_, ?_, hi.fwd⟩
  · rintro a q ⟨rfl, hr, ps, hp⟩
    obtain ⟨c, hc, _, h2⟩ := hs q hr
    rw [hp] at hc; cases hc
    refine ⟨ps, ps, by simp [ptrGraph, hp], by simpa using h2 ps rfl, hp, ?_⟩
    apply all2_self
    intro p hpm
    exact rep_self hs (fun x hx => .elem hr hp (hx ▸ hpm))
  · rintro a b q ⟨rfl, _⟩ ⟨rfl, _⟩; rfl
  · rintro a q q' ⟨rfl, _⟩ ⟨h1, _⟩; cases h1; rfl

theorem run_self {depth : Nat} {h : Heap} {roots roots' h'} (hi : Idle h) (hs : Sound h roots)
    (hr : gcRun depth h roots = .ok (roots', h')) :
    ∃ L, Holds (ptrGraph h) h' L ∧ All2 (Rep (ptrGraph h) h' L) roots roots' := by
  have := gcRun_spec (depth := depth) (holds_self hi hs) (as := roots) (ps := roots)
    (all2_self (fun p hp => rep_self hs (fun q hq => .root (hq ▸ hp))))
  rw [hr] at this
  exact this

/-! ### C41 -/

theorem rep_none {h h' : Heap} {L} {p : Option Ptr} (r : Rep (ptrGraph h) h' L p none) :
    p = none := by
  cases p with
  | none => rfl
  | some q =>
    unfold Rep ptrGraph at r
    dsimp only at r
    split at r
    · rename_i e; split at e <;> simp at e
    all_goals (try exact r.elim)
    all_goals (obtain ⟨_, h1, _⟩ := r; cases h1)

theorem rep_corr {h h' : Heap} {L} {p p' : Option Ptr} (r : Rep (ptrGraph h) h' L p p') :
    Corr (fun q q' => Rep (ptrGraph h) h' L (some q) (some q')) p p' := by
  cases p' with
  | none => rw [rep_none r]; trivial
  | some q' =>
    cases p with
    | none => simp [Rep, ptrGraph] at r
    | some q => exact r

/-- C41: a collection that succeeds changes nothing a program can see: there is a correspondence
between the values before and after under which roots match in order and number, every reachable
value has the same type and content, and arrays keep their identity. -/
theorem C41_collect_preserves {depth : Nat} {h h' : Heap} {roots roots'} (hi : Idle h)
    (hs : Sound h roots) (hr : gcRun depth h roots = .ok (roots', h')) :
    ∃ β, SameGraph β h roots h' roots' := by
  obtain ⟨L, w, ra⟩ := run_self hi hs hr
  refine ⟨fun q q' => Rep (ptrGraph h) h' L (some q) (some q'), ra.mono (fun _ _ => rep_corr), ?_,
    ?_, ?_⟩
  · intro q q' r
    have r0 := r
    unfold Rep at r
    split at r
    all_goals (try exact r.elim)
    · cases r
    case h_7 xs hG =>
      obtain ⟨_, e, hl⟩ := r
      cases e
      obtain ⟨ys, ps, h1, _, h3, h4⟩ := w.arr _ _ hl
      rw [hG] at h1; cases h1
      refine ⟨.arr xs, .arr ps, ?_, h3, h4.mono (fun _ _ => rep_corr)⟩
      unfold ptrGraph at hG
      dsimp only at hG
      split at hG <;> simp at hG
      rename_i hq
      rw [hq, hG]
    all_goals
      rename_i hG
      obtain ⟨_, e, hg⟩ := r
      cases e
      have hq' : h.get q = h'.get q' := by
        first | rw [hg.1] | rw [hg]
        unfold ptrGraph at hG
        dsimp only at hG
        split at hG <;> simp at hG
        rename_i hq
        rw [hq, hG]
      first
        | exact ⟨_, _, hq'.trans hg.1, hg.1, rfl⟩
        | exact ⟨_, _, hq'.trans hg, hg, rfl⟩
  · intro q q1 q2 ps hq h1 h2
    unfold Rep at h1 h2
    simp only [ptrGraph, hq] at h1 h2
    obtain ⟨_, e1, h1⟩ := h1
    obtain ⟨_, e2, h2⟩ := h2
    cases e1; cases e2
    exact w.func _ _ _ h1 h2
  · intro q r q' ps hq h1 h2
    have key : ∀ q, Rep (ptrGraph h) h' L (some q) (some q') → L (some q) q' := by
      intro q h1
      unfold Rep at h1
      split at h1
      all_goals (try exact h1.elim)
      · cases h1
      case h_7 => obtain ⟨_, e, h1⟩ := h1; cases e; exact h1
      all_goals
        obtain ⟨_, e, hg⟩ := h1
        cases e
        first | (have hg := hg.1; rw [hq] at hg; cases hg) | (rw [hq] at hg; cases hg)
    have := w.inj _ _ _ (key q h1) (key r h2)
    cases this; rfl

/-- C41: the collector fails only for want of memory or, on arrays nested deeper than the stack
allows (in particular cyclic ones), by running out of stack; it never reads a stale pointer and no
assertion about strings or forwarding fails. -/
theorem C41_collect_failures {depth : Nat} {h : Heap} {roots f} (hi : Idle h)
    (hs : Sound h roots) (hr : gcRun depth h roots = .error f) : f = .oom ∨ f = .diverge := by
  have := gcRun_spec (depth := depth) (holds_self hi hs) (as := roots) (ps := roots)
    (all2_self (fun p hp => rep_self hs (fun q hq => .root (hq ▸ hp))))
  rw [hr] at this
  exact this

/-! ### C42 -/

/-- C42: after a collection everything reachable from the roots lies in the surviving space and is
intact; the other space, which allocation is going to use, is not referred to.  The heap is again
idle and sound. -/
theorem C42_no_dangling {depth : Nat} {h h' : Heap} {roots roots'} (hi : Idle h)
    (hs : Sound h roots) (hr : gcRun depth h roots = .ok (roots', h')) :
    (∀ q, Reach h' roots' q → h'.inTo q = false) ∧ Sound h' roots' ∧ Idle h' ∧
      h'.to.head = 0 := by
  obtain ⟨L, w, ra⟩ := run_self hi hs hr
  have hto : h'.to = .clear := by
    unfold gcRun at hr
    split at hr
    · simp at hr
    · cases hr; rfl
  have alloced : ∀ q c, h'.get q = some c → h'.inTo q = false := by
    intro q c hc
    unfold Heap.get at hc
    split at hc
    · rw [hto] at hc; simp [Arena.clear] at hc
    · rename_i hq; simpa using hq
  have hrep : ∀ q, Reach h' roots' q → ∃ a, Rep (ptrGraph h) h' L a (some q) := by
    intro q hq
    induction hq with
    | root hm =>
      obtain ⟨i, hi, he⟩ := List.mem_iff_getElem.1 hm
      obtain ⟨a, _, ha⟩ := ra.get i _ (List.getElem?_eq_some_iff.2 ⟨hi, he⟩)
      exact ⟨a, ha⟩
    | elem _ hg hm ih =>
      obtain ⟨a, ha⟩ := ih
      unfold Rep at ha
      split at ha
      all_goals (try exact ha.elim)
      · cases ha
      case h_7 =>
        obtain ⟨_, e, hl⟩ := ha
        cases e
        obtain ⟨ys, ps, h1, _, h3, h4⟩ := w.arr _ _ hl
        rw [hg] at h3; cases h3
        obtain ⟨i, hi, he⟩ := List.mem_iff_getElem.1 hm
        obtain ⟨b, _, hb⟩ := h4.get i _ (List.getElem?_eq_some_iff.2 ⟨hi, he⟩)
        exact ⟨b, hb⟩
      all_goals
        obtain ⟨_, e, hq⟩ := ha
        cases e
        first | (have hq := hq.1; rw [hg] at hq; cases hq) | (rw [hg] at hq; cases hq)
  have hcell : ∀ q, Reach h' roots' q → ∃ c, h'.get q = some c ∧
      (∀ s, c = .str s → (∀ b ∈ s, b ≠ 0) ∧ s.length < 2 ^ 63) ∧
      (∀ ps, c = .arr ps → ps.length < 2 ^ 31) := by
    intro q hq
    obtain ⟨a, ha⟩ := hrep q hq
    unfold Rep at ha
    split at ha
    all_goals (try exact ha.elim)
    · cases ha
    case h_7 =>
      obtain ⟨_, e, hl⟩ := ha
      cases e
      obtain ⟨ys, ps, h1, h2, h3, h4⟩ := w.arr _ _ hl
      exact ⟨_, h3, nofun, fun ps' e => by cases e; rw [← h4.length]; simpa using h2⟩
    case h_4 s _ =>
      obtain ⟨_, e, hg, hn, hl⟩ := ha
      cases e
      refine ⟨_, hg, fun s' e => ?_, nofun⟩
      cases e
      refine ⟨?_, by simpa using hl⟩
      exact (cstr_eq_iff _).1 hn
    all_goals
      obtain ⟨_, e, hg⟩ := ha
      cases e
      exact ⟨_, hg, nofun, nofun⟩
  refine ⟨?_, hcell, ⟨gcRun_packed hi.packed hr, w.fwd⟩, by rw [hto]; rfl⟩
  intro q hq
  obtain ⟨c, hc, _⟩ := hcell q hq
  exact alloced q c hc

/-! ### C43 -/

/-- `x` is inside the array `q`, directly or through other arrays. -/
inductive Inside (h : Heap) : Ptr → Ptr → Prop
  | elem {q x ps} : h.get q = some (.arr ps) → some x ∈ ps → Inside h q x
  | trans {q x y} : Inside h q x → Inside h x y → Inside h q y

theorem Inside.reach {h : Heap} {roots q x} (hi : Inside h q x) : Reach h roots q →
    Reach h roots x := by
  induction hi with
  | elem h1 h2 => exact fun r => .elem r h1 h2
  | trans _ _ ih1 ih2 => exact fun r => ih2 (ih1 r)

theorem Inside.head {h : Heap} {q y} (hi : Inside h q y) :
    ∃ ps x, h.get q = some (.arr ps) ∧ some x ∈ ps ∧ (x = y ∨ Inside h x y) := by
  induction hi with
  | elem h1 h2 => exact ⟨_, _, h1, h2, .inl rfl⟩
  | trans _ b ih1 _ =>
    obtain ⟨ps, x, h1, h2, h3⟩ := ih1
    refine ⟨ps, x, h1, h2, ?_⟩
    rcases h3 with rfl | h3
    · exact .inr b
    · exact .inr (h3.trans b)

theorem height_inside {h : Heap} : ∀ n q, Height (ptrGraph h) (some q) n → ¬ Inside h q q := by
  intro n
  induction n with
  | zero =>
    intro q hq hi
    obtain ⟨ps, x, h1, _, _⟩ := hi.head
    cases hq with
    | leaf h2 h3 => simp [ptrGraph, h1] at h2; exact h3 _ h2.symm
  | succ n ih =>
    intro q hq hi
    obtain ⟨ps, x, h1, h2, h3⟩ := hi.head
    cases hq with
    | leaf h4 h5 => simp [ptrGraph, h1] at h4; exact h5 _ h4.symm
    | arr h4 h5 =>
      simp [ptrGraph, h1] at h4
      subst h4
      refine ih x (h5 _ h2) ?_
      rcases h3 with rfl | h3
      · exact hi
      · exact h3.trans (.elem h1 h2)

theorem height_reach {h : Heap} {roots : List (Option Ptr)} {q : Ptr} (hr : Reach h roots q) {n : Nat}
    (hh : ∀ p ∈ roots, Height (ptrGraph h) p n) : Height (ptrGraph h) (some q) n := by
  induction hr with
  | root hm => exact hh _ hm
  | elem _ hg hm ih =>
    cases ih with
    | leaf h4 h5 => simp [ptrGraph, hg] at h4; exact absurd h4.symm (h5 _)
    | arr h4 h5 =>
      simp [ptrGraph, hg] at h4
      subst h4
      exact (h5 _ hm).le (by omega)

/-- C43, the violation: if some array reachable from the roots is inside itself, no stack depth is
enough: the tracer does not return. -/
theorem C43_cycle_diverges {h : Heap} {roots : List (Option Ptr)} {q : Ptr} (hi : Idle h)
    (hs : Sound h roots) (hr : Reach h roots q) (hc : Inside h q q) (depth : Nat) :
    ∀ y, gcRun depth h roots ≠ .ok y := by
  intro y hy
  unfold gcRun at hy
  cases hx : traceList (traceOne depth) h roots with
  | error f => rw [hx] at hy; simp at hy
  | ok z =>
    have := traceList_height (traceOne_spec (G := ptrGraph h) depth) (traceOne_height depth)
      roots roots h (selfRel h roots) _ z (holds_self hi hs).tracing
      (all2_self (fun p hp => rep_self hs (fun q hq => .root (hq ▸ hp)))) hx
    exact height_inside depth q (height_reach hr this) hc

/-- All places where a value may begin. -/
def allPtrs : List Ptr :=
  (List.range arenaCapacity).map (Ptr.mk false) ++ (List.range arenaCapacity).map (Ptr.mk true)

theorem mem_allPtrs {h : Heap} (hp : h.Packed) {q c} (hq : h.get q = some c) : q ∈ allPtrs := by
  have : q.off < arenaCapacity := by
    unfold Heap.get at hq
    have h1 := hp.1.head
    have h2 := hp.2.head
    split at hq
    · have := hp.2.inside _ _ hq; omega
    · have := hp.1.inside _ _ hq; omega
  obtain ⟨s, o⟩ := q
  unfold allPtrs
  rw [List.mem_append]
  cases s
  · exact .inl (List.mem_map.2 ⟨o, List.mem_range.2 this, rfl⟩)
  · exact .inr (List.mem_map.2 ⟨o, List.mem_range.2 this, rfl⟩)

theorem allPtrs_length : allPtrs.length = 2 * arenaCapacity := by
  simp only [allPtrs, List.length_append, List.length_map, List.length_range]; omega

/-- Without cycles the nesting depth is bounded by the number of places for values. -/
theorem height_bound {h : Heap} {roots : List (Option Ptr)} (hp : h.Packed) (hs : Sound h roots)
    (ha : ∀ q, Reach h roots q → ¬ Inside h q q) :
    ∀ (n : Nat) (anc : List Ptr) (q : Ptr), anc.Nodup → anc ⊆ allPtrs → Reach h roots q →
      (∀ a ∈ anc, Inside h a q) → 2 * arenaCapacity ≤ n + anc.length →
      Height (ptrGraph h) (some q) n := by
  intro n
  induction n with
  | zero =>
    intro anc q hn hsub hr hin hlen
    exfalso
    obtain ⟨c, hc, _⟩ := hs q hr
    have hq : q ∉ anc := fun hm => ha q hr (hin q hm)
    have := nodup_subset_length (q :: anc) allPtrs (List.nodup_cons.2 ⟨hq, hn⟩) (by
      intro x hx
      rcases List.mem_cons.1 hx with rfl | hx
      · exact mem_allPtrs hp hc
      · exact hsub hx)
    rw [allPtrs_length, List.length_cons] at this
    omega
  | succ n ih =>
    intro anc q hn hsub hr hin hlen
    obtain ⟨c, hc, _⟩ := hs q hr
    have hq : q ∉ anc := fun hm => ha q hr (hin q hm)
    by_cases hs' : c.scalar = true
    · refine .leaf (x := ?_) ?_ ?_
      · exact match c with
          | .int v => .int v
          | .float v => .float v
          | .str v => .str v
          | .arr v => .arr v
          | .func v => .func v
          | .syscall v => .syscall v
      · simp only [ptrGraph, hc]; cases c <;> rfl
      · cases c <;> simp [Cell.scalar] at hs' ⊢
    · cases c with
      | arr ps =>
        refine .arr (xs := ps) (by simp [ptrGraph, hc]) ?_
        intro x hx
        cases x with
        | none => exact .leaf (x := .none) rfl nofun
        | some x =>
          refine ih (q :: anc) x (List.nodup_cons.2 ⟨hq, hn⟩) ?_ (.elem hr hc hx) ?_ ?_
          · intro y hy
            rcases List.mem_cons.1 hy with rfl | hy
            · exact mem_allPtrs hp hc
            · exact hsub hy
          · intro y hy
            rcases List.mem_cons.1 hy with rfl | hy
            · exact .elem hc hx
            · exact (hin y hy).trans (.elem hc hx)
          · simp only [List.length_cons]; omega
      | _ => simp [Cell.scalar] at hs'

/-- C43: on every heap without an array inside itself the collection ends: a fixed stack depth is
enough for the recursion, whatever the heap, the sharing and the roots. -/
theorem C43_acyclic_terminates_partial {h : Heap} {roots : List (Option Ptr)} (hi : Idle h)
    (hs : Sound h roots) (ha : ∀ q, Reach h roots q → ¬ Inside h q q) (depth : Nat)
    (hd : 2 * arenaCapacity ≤ depth) : gcRun depth h roots ≠ .error .diverge := by
  have hh : ∀ p ∈ roots, Height (ptrGraph h) p depth := by
    intro p hp
    cases p with
    | none => exact .leaf (x := .none) rfl nofun
    | some q =>
      exact (height_bound hi.packed hs ha depth [] q .nil (by simp) (.root hp) (by simp)
        (by simpa using hd))
  have := traceList_no_diverge (traceOne_spec (G := ptrGraph h) depth) (traceOne_no_diverge depth)
    roots roots h (selfRel h roots) _ (holds_self hi hs).tracing
    (all2_self (fun p hp => rep_self hs (fun q hq => .root (hq ▸ hp)))) hh
  unfold gcRun
  cases hx : traceList (traceOne depth) h roots with
  | error f => rw [hx] at this; simpa using this
  | ok z => simp

/-! ### C44 -/

/-- What can be done with an arena. -/
inductive ArenaOp
  | alloc (extra : Nat)
  | clear

/-- The effect on the fill level and on the byte ranges (start, length) handed out since the last
clear. -/
def arenaStep : Nat × List (Nat × Nat) → ArenaOp → Nat × List (Nat × Nat)
  | (head, live), .alloc extra =>
    match arenaReserve head extra with
    | none => (head, live)
    | some head' => (head', (head, 8 + extra) :: live)
  | _, .clear => (0, [])

/-- Two byte ranges have no byte in common. -/
def Apart (a b : Nat × Nat) : Prop := a.1 + a.2 ≤ b.1 ∨ b.1 + b.2 ≤ a.1

/-- C44: after any sequence of allocations and clears the ranges handed out lie inside the arena and
are pairwise disjoint. -/
theorem C44_disjoint (ops : List ArenaOp) (hsz : ∀ e, .alloc e ∈ ops → e < 2 ^ 63) :
    let s := ops.foldl arenaStep (0, [])
    (∀ r ∈ s.2, r.1 + r.2 ≤ s.1) ∧ s.1 < 1048576 ∧ s.2.Pairwise Apart := by
  have key : ∀ (ops : List ArenaOp) (s : Nat × List (Nat × Nat)),
      (∀ e, .alloc e ∈ ops → e < 2 ^ 63) →
      ((∀ r ∈ s.2, r.1 + r.2 ≤ s.1) ∧ s.1 < 1048576 ∧ s.2.Pairwise Apart) →
      ((∀ r ∈ (ops.foldl arenaStep s).2, r.1 + r.2 ≤ (ops.foldl arenaStep s).1) ∧
        (ops.foldl arenaStep s).1 < 1048576 ∧ (ops.foldl arenaStep s).2.Pairwise Apart) := by
    intro ops
    induction ops with
    | nil => intro s _ h; exact h
    | cons op ops ih =>
      intro s hsz hs
      rw [List.foldl_cons]
      refine ih _ (fun e he => hsz e (by simp [he])) ?_
      obtain ⟨head, live⟩ := s
      obtain ⟨h1, h2, h3⟩ := hs
      cases op with
      | clear => simp [arenaStep]
      | alloc e =>
        have he := hsz e (by simp)
        have hst : sizeT (head + 8 + e) = head + 8 + e := by
          unfold sizeT; simp at he h2; omega
        simp only [arenaStep, arenaReserve, hst, arenaCapacity]
        split
        · rename_i hc
          split at hc
          · simp at hc
          · exact ⟨h1, h2, h3⟩
        · rename_i head' hc
          split at hc
          · rename_i hlt
            simp at hc
            subst hc
            refine ⟨?_, hlt, List.pairwise_cons.2 ⟨?_, h3⟩⟩
            · intro r hr
              rcases List.mem_cons.1 hr with rfl | hr
              · simp only; omega
              · have := h1 r hr; simp only at this ⊢; omega
            · intro r hr
              exact .inr (h1 r hr)
          · simp at hc
  exact key ops (0, []) hsz ⟨by simp, by simp, by simp⟩

/-- C44: an allocation succeeds exactly if a byte of the arena is left behind it, then it starts at
the old fill level, and otherwise it changes nothing. -/
theorem C44_fails_cleanly (head : Nat) (live : List (Nat × Nat)) (e : Nat) (hh : head < 1048576)
    (he : e < 2 ^ 63) :
    arenaStep (head, live) (.alloc e) =
      if head + 8 + e < 1048576 then (head + 8 + e, (head, 8 + e) :: live) else (head, live) := by
  have hst : sizeT (head + 8 + e) = head + 8 + e := by
    unfold sizeT; simp at he; omega
  simp only [arenaStep, arenaReserve, hst, arenaCapacity]
  split <;> rename_i h <;> split at h <;> simp_all

/-- C44, a case outside: for sizes near 2^64 the check wraps around, the allocation "succeeds" and
the next one overlaps it.  `new_array` computes such a size for a negative length before it checks
the length; every caller refuses negative lengths first. -/
theorem C44_huge_size_wraps :
    arenaStep (16, []) (.alloc (2 ^ 64 - 8)) = (16, [(16, 2 ^ 64)]) := by
  decide

/-- What the machine does with the memory. -/
inductive HeapOp
  | new (c : Cell)
  | set (p : Option Ptr) (i : Nat) (v : Option Ptr)
  | collect (depth : Nat) (roots : List (Option Ptr))

/-- The effect of an operation that succeeds. -/
def heapStep (h : Heap) : HeapOp → Option Heap
  | .new c => match gcNew h c with
    | .ok (_, h') => some h'
    | .error _ => none
  | .set p i v => match gcArrSet h p i v with
    | .ok h' => some h'
    | .error _ => none
  | .collect d roots => match gcRun d h roots with
    | .ok (_, h') => some h'
    | .error _ => none

/-- Heaps the machine can get to. -/
inductive HeapRun : Heap → Prop
  | start : HeapRun .empty
  | step {h op h'} : HeapRun h → (∀ c, op = .new c → c.extra ≤ 2 ^ 63) →
      heapStep h op = some h' → HeapRun h'

/-- Every heap the machine can get to is idle (the hypothesis of C41-C43). -/
theorem HeapRun.idle {h : Heap} (hr : HeapRun h) : Idle h := by
  induction hr with
  | start => exact ⟨⟨Arena.packed_clear, Arena.packed_clear⟩, fun _ => rfl⟩
  | step _ hsz hs ih =>
    rename_i h1 op h2 _
    cases op with
    | new c =>
      simp only [heapStep, gcNew] at hs
      split at hs
      · rename_i hx
        split at hx
        · simp at hx
        · rename_i ha
          simp at hs hx
          rw [← hs, ← hx.2]
          have hc : c.extra < 9223372036854775809 := by
            have := hsz c rfl; simp at this; omega
          refine ⟨Heap.packed_alloc ih.packed hc ha, ?_⟩
          rw [(Heap.allocTo_spec ih.packed.below hc ha).fwd]
          exact ih.fwd
      · simp at hs
    | set p i v =>
      simp only [heapStep, gcArrSet] at hs
      split at hs
      · rename_i hx
        simp at hs; subst hs
        split at hx
        · simp at hx
        · split at hx
          · rename_i hg
            split at hx
            · simp at hx
              rw [← hx]
              exact ⟨Heap.packed_put ih.packed hg (by simp [Cell.extra]), by simpa using ih.fwd⟩
            · simp at hx
          · simp at hx
      · simp at hs
    | collect d roots =>
      simp only [heapStep] at hs
      split at hs
      · rename_i hx
        simp at hs; subst hs
        refine ⟨gcRun_packed ih.packed hx, ?_⟩
        unfold gcRun at hx
        split at hx
        · simp at hx
        · cases hx; exact fun _ => rfl
      · simp at hs

/-- The bytes of the arena that a value occupies: its `value_t` and the data behind it. -/
def extent (q : Ptr) (c : Cell) : Nat × Nat := (q.off, 8 + c.extra)

/-- C44 for the heap: whatever is allocated, written and collected, each value lies inside its arena
and two values in the same arena have no byte in common, so writing one never changes another. -/
theorem C44_values_disjoint {h : Heap} (hr : HeapRun h) {q q' : Ptr} {c c' : Cell}
    (hq : h.get q = some c) (hq' : h.get q' = some c') :
    q.off + (8 + c.extra) ≤ 1048576 ∧
      (q.space = q'.space → q ≠ q' → Apart (extent q c) (extent q' c')) := by
  have hp : h.Packed := hr.idle.packed
  have key : ∀ (a : Arena), a.Packed → ∀ o o' d d', a.cells o = some d → a.cells o' = some d' →
      o + (8 + d.extra) ≤ 1048576 ∧ (o ≠ o' → Apart (o, 8 + d.extra) (o', 8 + d'.extra)) := by
    intro a pa o o' d d' ho ho'
    have h1 := pa.inside _ _ ho
    have h2 := pa.head
    unfold arenaCapacity at h2
    refine ⟨by omega, ?_⟩
    intro hne
    rcases Nat.lt_or_gt_of_ne hne with hlt | hlt
    · exact .inl (pa.apart _ _ _ _ ho ho' hlt)
    · exact .inr (pa.apart _ _ _ _ ho' ho hlt)
  unfold Heap.get at hq hq'
  have hin : q.space = q'.space → h.inTo q = h.inTo q' := fun e => by simp [Heap.inTo, e]
  have hne : q.space = q'.space → q ≠ q' → q.off ≠ q'.off := by
    intro e h1 h2
    cases q; cases q'; simp_all
  split at hq
  · rename_i hi1
    refine ⟨(key _ hp.2 _ _ _ _ hq hq).1, ?_⟩
    intro e h1
    rw [if_pos (hin e ▸ hi1)] at hq'
    exact (key _ hp.2 _ _ _ _ hq hq').2 (hne e h1)
  · rename_i hi1
    refine ⟨(key _ hp.1 _ _ _ _ hq hq).1, ?_⟩
    intro e h1
    rw [if_neg (hin e ▸ hi1)] at hq'
    exact (key _ hp.1 _ _ _ _ hq hq').2 (hne e h1)

/-! ### Examples -/

/-- A decidable criterion for `Sound`: the pointers of `ps` include the roots and are closed under
elements. -/
def closedUnder (h : Heap) (roots : List (Option Ptr)) (ps : List Ptr) : Bool :=
  roots.all (fun p => p.all (fun q => ps.contains q)) &&
  ps.all (fun q => match h.get q with
    | none => false
    | some (.str s) => s.all (fun b => b != 0) && decide (s.length < 2 ^ 63)
    | some (.arr es) => es.all (fun p => p.all (fun q => ps.contains q)) &&
        decide (es.length < 2 ^ 31)
    | some _ => true)

theorem sound_of_closed {h roots ps} (hc : closedUnder h roots ps = true) : Sound h roots := by
  unfold closedUnder at hc
  rw [Bool.and_eq_true, List.all_eq_true, List.all_eq_true] at hc
  have hm : ∀ q, Reach h roots q → q ∈ ps := by
    intro q hq
    induction hq with
    | root hm => simpa using hc.1 _ hm
    | elem _ hg hm ih =>
      have := hc.2 _ ih
      rw [hg] at this
      simp only [Bool.and_eq_true, List.all_eq_true] at this
      simpa using this.1 _ hm
  intro q hq
  have := hc.2 _ (hm q hq)
  cases hg : h.get q with
  | none => rw [hg] at this; simp at this
  | some c =>
    rw [hg] at this
    refine ⟨c, rfl, ?_, ?_⟩
    · rintro s rfl
      simp only [Bool.and_eq_true, List.all_eq_true, decide_eq_true_eq] at this
      exact ⟨fun b hb => by simpa using this.1 b hb, this.2⟩
    · rintro es rfl
      simp only [Bool.and_eq_true, decide_eq_true_eq] at this
      exact this.2

/-- Build a heap. -/
def buildHeap (ops : List HeapOp) : Option Heap := ops.foldlM heapStep Heap.empty

theorem buildHeap_run {ops : List HeapOp} {h : Heap} (hb : buildHeap ops = some h)
    (hsz : ∀ op ∈ ops, ∀ c, op = .new c → c.extra ≤ 2 ^ 63) : HeapRun h := by
  have key : ∀ (ops : List HeapOp) (h0 h : Heap), HeapRun h0 → ops.foldlM heapStep h0 = some h →
      (∀ op ∈ ops, ∀ c, op = .new c → c.extra ≤ 2 ^ 63) → HeapRun h := by
    intro ops
    induction ops with
    | nil => intro h0 h hr hb _; simp at hb; rw [← hb]; exact hr
    | cons op ops ih =>
      intro h0 h hr hb hsz
      rw [List.foldlM_cons] at hb
      cases hx : heapStep h0 op with
      | none => rw [hx] at hb; simp at hb
      | some h1 =>
        rw [hx] at hb
        exact ih h1 h (.step hr (hsz op (by simp)) hx) hb (fun o ho => hsz o (by simp [ho]))
  exact key ops _ _ .start hb hsz

/-- An array with an integer and a string survives a collection, then a younger array is made that
refers to the first one and to its integer. -/
def sampleOps : List HeapOp :=
  [.new (.arr [none, none]), .new (.int 7), .new (.str (str "hi")),
   .set (some ⟨true, 0⟩) 0 (some ⟨true, 24⟩), .set (some ⟨true, 0⟩) 1 (some ⟨true, 32⟩),
   .collect 3 [some ⟨true, 0⟩], .new (.arr [some ⟨true, 0⟩, some ⟨true, 24⟩])]

def sampleRoots : List (Option Ptr) := [some ⟨true, 0⟩, some ⟨false, 0⟩, some ⟨true, 0⟩, none]

/-- Read a pointer two levels deep. -/
def peek (h : Heap) (p : Option Ptr) : List (Option Cell) :=
  match p with
  | none => []
  | some q => match h.get q with
    | some (.arr ps) => ps.map (fun x => x.bind h.get)
    | c => [c]

-- the sample is collected; the shared array is moved once and the roots still agree
example : ((buildHeap sampleOps).map fun h =>
    match gcRun 5 h sampleRoots with
    | .ok (roots', h') =>
      (roots'.map (peek h'), decide (roots'[0]? = roots'[2]?), h'.frm.head, h'.to.head)
    | .error _ => ([], false, 0, 0)) =
    some ([[some (.int 7), some (.str (str "hi"))],
           [some (.arr [some ⟨false, 24⟩, some ⟨false, 32⟩]), some (.int 7)],
           [some (.int 7), some (.str (str "hi"))], []], true, 75, 0) := by
  decide +kernel

-- and it meets the hypotheses of C41 and C42
example : ∃ h, buildHeap sampleOps = some h ∧ Sound h sampleRoots ∧ Idle h := by
  have h1 : ((buildHeap sampleOps).map fun h => closedUnder h sampleRoots
      [⟨true, 0⟩, ⟨true, 24⟩, ⟨true, 32⟩, ⟨false, 0⟩]) = some true := by decide +kernel
  cases hb : buildHeap sampleOps with
  | none => rw [hb] at h1; simp at h1
  | some h =>
    rw [hb] at h1
    refine ⟨h, rfl, sound_of_closed (by simpa using h1), (buildHeap_run hb ?_).idle⟩
    intro op ho c hc
    subst hc
    simp [sampleOps] at ho
    rcases ho with rfl | rfl | rfl | rfl <;> decide

/-- An array that holds itself. -/
def cyclicOps : List HeapOp := [.new (.arr [none]), .set (some ⟨true, 0⟩) 0 (some ⟨true, 0⟩)]

-- it meets the hypotheses of C43
example : ∃ h, buildHeap cyclicOps = some h ∧ Sound h [some ⟨true, 0⟩] ∧ Idle h ∧
    Inside h ⟨true, 0⟩ ⟨true, 0⟩ := by
  have h1 : ((buildHeap cyclicOps).map fun h => (closedUnder h [some ⟨true, 0⟩] [⟨true, 0⟩],
      h.get ⟨true, 0⟩)) = some (true, some (.arr [some ⟨true, 0⟩])) := by decide +kernel
  cases hb : buildHeap cyclicOps with
  | none => rw [hb] at h1; simp at h1
  | some h =>
    rw [hb] at h1
    simp at h1
    refine ⟨h, rfl, sound_of_closed h1.1, (buildHeap_run hb ?_).idle, .elem h1.2 (by simp)⟩
    intro op ho c hc
    subst hc
    simp [cyclicOps] at ho
    subst ho; decide

example : [ArenaOp.alloc 3, .alloc 0, .clear, .alloc 8].foldl arenaStep (0, []) =
    (16, [(0, 16)]) := by decide

end Ccml.Props
