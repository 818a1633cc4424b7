import Verif.Gc
/-!
What tracing does to a heap that represents a graph of values.
-/
namespace Ccml

theorem cstr_eq_iff (s : Str) : cstr s = s ↔ ∀ b ∈ s, b ≠ 0 := by
  unfold cstr
  induction s with
  | nil => simp
  | cons a t ih =>
    by_cases ha : a = 0
    · subst ha; simp
    · have hb : (a != 0) = true := by simpa using ha
      rw [List.takeWhile_cons, if_pos hb, List.cons.injEq, ih]
      constructor
      · rintro ⟨_, h⟩ b hb
        rcases List.mem_cons.1 hb with rfl | hb
        · exact ha
        · exact h b hb
      · exact fun h => ⟨rfl, fun b hb => h b (List.mem_cons_of_mem _ hb)⟩

theorem cstr_eq {s : Str} (h : ∀ b ∈ s, b ≠ 0) : cstr s = s := (cstr_eq_iff s).2 h


/-- Two lists related element by element. -/
inductive All2 {α β : Type} (R : α → β → Prop) : List α → List β → Prop
  | nil : All2 R [] []
  | cons {a b as bs} : R a b → All2 R as bs → All2 R (a :: as) (b :: bs)

theorem All2.mono {α β} {R R' : α → β → Prop} {as bs} (h : All2 R as bs)
    (f : ∀ a b, R a b → R' a b) : All2 R' as bs := by
  induction h with
  | nil => exact .nil
  | cons h _ ih => exact .cons (f _ _ h) ih

theorem All2.mem_right {α β} {R : α → β → Prop} {as : List α} {bs : List β} (h : All2 R as bs)
    {b : β} (hb : b ∈ bs) : ∃ a, R a b := by
  induction h with
  | nil => cases hb
  | cons h _ ih =>
    rcases List.mem_cons.1 hb with rfl | hb
    · exact ⟨_, h⟩
    · exact ih hb

theorem All2.length {α β} {R : α → β → Prop} {as bs} (h : All2 R as bs) :
    as.length = bs.length := by
  induction h with
  | nil => rfl
  | cons _ _ ih => simp [ih]

theorem All2.get {α β} {R : α → β → Prop} {as : List α} {bs : List β} (h : All2 R as bs) :
    ∀ (i : Nat) (b : β), bs[i]? = some b → ∃ a, as[i]? = some a ∧ R a b := by
  induction h with
  | nil => simp
  | cons h _ ih =>
    intro i b hb
    cases i with
    | zero => simp at hb; subst hb; exact ⟨_, rfl, h⟩
    | succ i => simpa using ih i b (by simpa using hb)

theorem All2.get' {α β} {R : α → β → Prop} {as : List α} {bs : List β} (h : All2 R as bs) :
    ∀ (i : Nat) (a : α), as[i]? = some a → ∃ b, bs[i]? = some b ∧ R a b := by
  induction h with
  | nil => simp
  | cons h _ ih =>
    intro i b hb
    cases i with
    | zero => simp at hb; subst hb; exact ⟨_, rfl, h⟩
    | succ i => simpa using ih i b (by simpa using hb)

theorem All2.set {α β} {R : α → β → Prop} {as : List α} {bs : List β} (h : All2 R as bs)
    (i : Nat) {a b} (hab : R a b) : All2 R (as.set i a) (bs.set i b) := by
  induction h generalizing i with
  | nil => exact .nil
  | cons h t ih =>
    cases i with
    | zero => exact .cons hab t
    | succ i => exact .cons h (ih i)

theorem All2.replicate {α β} {R : α → β → Prop} {a b} (hab : R a b) (n : Nat) :
    All2 R (List.replicate n a) (List.replicate n b) := by
  induction n with
  | zero => exact .nil
  | succ n ih => exact .cons hab ih

theorem All2.append {α β} {R : α → β → Prop} {as bs as' bs'} (h : All2 R as bs)
    (h' : All2 R as' bs') : All2 R (as ++ as') (bs ++ bs') := by
  induction h with
  | nil => exact h'
  | cons h _ ih => exact .cons h ih

theorem All2.and {α β} {R S : α → β → Prop} {as bs} (h : All2 R as bs) (h' : All2 S as bs) :
    All2 (fun a b => R a b ∧ S a b) as bs := by
  induction h with
  | nil => exact .nil
  | cons h _ ih =>
    cases h' with
    | cons g g' => exact .cons ⟨h, g⟩ (ih g')

theorem All2.right {α β} {R : α → β → Prop} {as : List α} {bs : List β} {Q : β → Prop}
    (h : All2 R as bs) (hq : ∀ b ∈ bs, Q b) : All2 (fun a b => R a b ∧ Q b) as bs := by
  induction h with
  | nil => exact .nil
  | cons h _ ih =>
    exact .cons ⟨h, hq _ (by simp)⟩ (ih (fun b hb => hq b (by simp [hb])))

/-! ### Heap access -/

/-- The value is not an array. -/
def Cell.scalar : Cell → Bool
  | .arr _ => false
  | _ => true

namespace Heap

@[simp] theorem put_flip (h : Heap) (q : Ptr) (c : Cell) : (h.put q c).flip = h.flip := by
  unfold put; split <;> rfl

@[simp] theorem put_fwd (h : Heap) (q : Ptr) (c : Cell) : (h.put q c).fwd = h.fwd := by
  unfold put; split <;> rfl

@[simp] theorem put_inTo (h : Heap) (q q' : Ptr) (c : Cell) : (h.put q c).inTo q' = h.inTo q' := by
  unfold inTo; simp

@[simp] theorem put_to_head (h : Heap) (q : Ptr) (c : Cell) :
    (h.put q c).to.head = h.to.head := by
  unfold put; split <;> rfl

theorem ptr_ext {h : Heap} {q q' : Ptr} (ht : h.inTo q = h.inTo q') (ho : q.off = q'.off) :
    q = q' := by
  cases q with | mk s o => cases q' with | mk s' o' =>
  cases h with | mk fl fr t fw =>
  simp [inTo] at ht ho ⊢
  subst ho
  cases s <;> cases s' <;> cases fl <;> simp_all

theorem get_put (h : Heap) (q q' : Ptr) (c : Cell) :
    (h.put q c).get q' = if q' = q then some c else h.get q' := by
  unfold get
  rw [put_inTo]
  unfold put
  by_cases hq : h.inTo q = true <;> by_cases hq' : h.inTo q' = true
  · simp only [hq, hq', if_true]
    by_cases ho : q'.off = q.off
    · have := ptr_ext (h := h) (hq'.trans hq.symm) ho
      simp [this]
    · have : q' ≠ q := fun e => ho (by rw [e])
      simp [ho, this]
  · have : q' ≠ q := fun e => hq' (by rw [e]; exact hq)
    simp [hq, hq', this]
  · have : q' ≠ q := fun e => hq (by rw [← e]; exact hq')
    simp [hq, hq', this]
  · rw [Bool.not_eq_true] at hq hq'
    simp only [hq, hq', Bool.false_eq_true, if_false]
    by_cases ho : q'.off = q.off
    · have := ptr_ext (h := h) (hq'.trans hq.symm) ho
      simp [this]
    · have : q' ≠ q := fun e => ho (by rw [e])
      simp [ho, this]

/-- Values begin below the fill level of the to-space. -/
def Below (h : Heap) : Prop :=
  h.to.head < arenaCapacity ∧ ∀ o c, h.to.cells o = some c → o < h.to.head

theorem below_put {h : Heap} (hb : h.Below) {q : Ptr} {c c' : Cell} (hg : h.get q = some c') :
    (h.put q c).Below := by
  refine ⟨by simpa using hb.1, ?_⟩
  intro o d ho
  rw [put_to_head]
  unfold put at ho
  unfold get at hg
  split at ho
  · rename_i ht
    rw [if_pos ht] at hg
    simp only at ho
    split at ho
    · rename_i e; rw [e]; exact hb.2 _ _ hg
    · exact hb.2 _ _ ho
  · exact hb.2 _ _ ho

/-- Facts about a successful allocation. -/
structure Alloced (h : Heap) (c : Cell) (q : Ptr) (h' : Heap) : Prop where
  flip : h'.flip = h.flip
  fwd : h'.fwd = h.fwd
  inTo : h'.inTo q = true
  fresh : h.get q = none
  get : ∀ x, h'.get x = if x = q then some c else h.get x
  below : h'.Below

theorem allocTo_spec {h : Heap} {extra : Nat} {c : Cell} {q : Ptr} {h' : Heap} (hb : h.Below)
    (he : extra < 9223372036854775809) (ha : h.allocTo extra c = some (q, h')) :
    Alloced h c q h' := by
  unfold allocTo Arena.alloc arenaReserve at ha
  have hlt := hb.1
  have hs : sizeT (h.to.head + 8 + extra) = h.to.head + 8 + extra := by
    unfold sizeT; unfold arenaCapacity at hlt; omega
  rw [hs] at ha
  split at ha
  · simp at ha
  · rename_i off a hoff
    split at hoff
    · simp at hoff
    · rename_i head hh
      split at hh
      · rename_i hcap
        simp at hh ha hoff
        obtain ⟨rfl, rfl⟩ := ha
        obtain ⟨rfl, rfl⟩ := hoff
        subst hh
        have hfresh : h.to.cells h.to.head = none := by
          cases hc : h.to.cells h.to.head with
          | none => rfl
          | some c' => exact absurd (hb.2 _ _ hc) (Nat.lt_irrefl _)
        have hin : h.inTo ⟨!h.flip, h.to.head⟩ = true := by simp [Heap.inTo]
        refine ⟨rfl, rfl, by simp [Heap.inTo], ?_, ?_, ⟨by simpa using hcap, ?_⟩⟩
        · simp [Heap.get, hin, hfresh]
        · intro x
          by_cases hx : x = ⟨!h.flip, h.to.head⟩
          · subst hx; simp [Heap.get, Heap.inTo]
          · rw [if_neg hx]
            unfold Heap.get
            by_cases hxt : h.inTo x = true
            · have hxt' : (Heap.inTo { h with to := ⟨h.to.head + 8 + extra, fun o => if o = h.to.head then some c else h.to.cells o⟩ } x) = true := hxt
              rw [if_pos hxt, if_pos hxt']
              have : x.off ≠ h.to.head := fun e =>
                hx (ptr_ext (h := h) (hxt.trans hin.symm) e)
              simp [this]
            · have hxt' : ¬ (Heap.inTo { h with to := ⟨h.to.head + 8 + extra, fun o => if o = h.to.head then some c else h.to.cells o⟩ } x) = true := hxt
              rw [if_neg hxt, if_neg hxt']
        · intro o d hod
          simp only at hod ⊢
          split at hod
          · omega
          · have := hb.2 _ _ hod; omega
      · simp at hh

/-- Later states of a heap: the spaces keep their roles, values that are not arrays stay, arrays
stay arrays. -/
structure Ext (h h' : Heap) : Prop where
  flip : h'.flip = h.flip
  keep : ∀ q c, h.get q = some c → c.scalar = true → h'.get q = some c
  arr : ∀ q ps, h.get q = some (.arr ps) → ∃ ps', h'.get q = some (.arr ps')

theorem Ext.refl (h : Heap) : Ext h h := ⟨rfl, fun _ _ h _ => h, fun _ ps h => ⟨ps, h⟩⟩

theorem Ext.trans {h1 h2 h3 : Heap} (a : Ext h1 h2) (b : Ext h2 h3) : Ext h1 h3 :=
  ⟨b.flip.trans a.flip, fun q c hq hc => b.keep q c (a.keep q c hq hc) hc, fun q ps hq => by
    obtain ⟨ps', h'⟩ := a.arr q ps hq
    exact b.arr q ps' h'⟩

theorem Ext.inTo {h h' : Heap} (e : Ext h h') (q : Ptr) : h'.inTo q = h.inTo q := by
  unfold Heap.inTo; rw [e.flip]

theorem ext_put {h : Heap} {q : Ptr} {ps ps' : List (Option Ptr)} (hg : h.get q = some (.arr ps)) :
    Ext h (h.put q (.arr ps')) := by
  refine ⟨by simp, ?_, ?_⟩
  · intro x c hx hc
    rw [get_put]
    split
    · rename_i e
      subst e
      rw [hg] at hx
      cases hx
      simp [Cell.scalar] at hc
    · exact hx
  · intro x qs hx
    rw [get_put]
    split
    · exact ⟨ps', rfl⟩
    · exact ⟨qs, hx⟩

theorem Alloced.ext {h : Heap} {c : Cell} {q : Ptr} {h' : Heap} (a : Alloced h c q h') :
    Ext h h' := by
  have hne : ∀ x d, h.get x = some d → x ≠ q := by
    intro x d hx e
    subst e
    rw [a.fresh] at hx
    cases hx
  refine ⟨a.flip, ?_, ?_⟩
  · intro x d hx _
    rw [a.get, if_neg (hne _ _ hx)]; exact hx
  · intro x ps hx
    refine ⟨ps, ?_⟩
    rw [a.get, if_neg (hne _ _ hx)]; exact hx

end Heap

/-! ### Graphs of values and their representation -/

/-- What a node of a graph of values holds. -/
inductive Node (A : Type)
  | none
  | int (v : I32)
  | float (f : F32)
  | str (s : Str)
  | arr (xs : List A)
  | func (v : I32)
  | syscall (v : I32)

/-- A graph of values; nodes that are not values have no content. -/
abbrev Graph (A : Type) := A → Option (Node A)

/-- The pointer `p` represents the node `a`: arrays by the correspondence `L`. -/
def Rep {A : Type} (G : Graph A) (h : Heap) (L : A → Ptr → Prop) (a : A) (p : Option Ptr) : Prop :=
  match G a with
  | some .none => p = Option.none
  | some (.int v) => ∃ q, p = some q ∧ h.get q = some (.int v)
  | some (.float v) => ∃ q, p = some q ∧ h.get q = some (.float v)
  | some (.str v) => ∃ q, p = some q ∧ h.get q = some (.str v) ∧ cstr v = v ∧
      v.length < 9223372036854775808
  | some (.func v) => ∃ q, p = some q ∧ h.get q = some (.func v)
  | some (.syscall v) => ∃ q, p = some q ∧ h.get q = some (.syscall v)
  | some (.arr _) => ∃ q, p = some q ∧ L a q
  | Option.none => False

theorem Rep.ext {A : Type} {G : Graph A} {h h' : Heap} {L L' : A → Ptr → Prop} {a : A}
    {p : Option Ptr} (hr : Rep G h L a p) (he : Heap.Ext h h') (hl : ∀ a q, L a q → L' a q) :
    Rep G h' L' a p := by
  unfold Rep at hr ⊢
  split <;> rename_i hg <;> rw [hg] at hr
  · exact hr
  · obtain ⟨q, rfl, hq⟩ := hr; exact ⟨q, rfl, he.keep _ _ hq rfl⟩
  · obtain ⟨q, rfl, hq⟩ := hr; exact ⟨q, rfl, he.keep _ _ hq rfl⟩
  · obtain ⟨q, rfl, hq, hn⟩ := hr; exact ⟨q, rfl, he.keep _ _ hq rfl, hn⟩
  · obtain ⟨q, rfl, hq⟩ := hr; exact ⟨q, rfl, he.keep _ _ hq rfl⟩
  · obtain ⟨q, rfl, hq⟩ := hr; exact ⟨q, rfl, he.keep _ _ hq rfl⟩
  · obtain ⟨q, rfl, hq⟩ := hr; exact ⟨q, rfl, hl _ _ hq⟩
  · exact hr

/-- Nothing is left to do for a pointer: null, or into the to-space and either not an array or
an array in the finished set `K`. -/
def Good (h : Heap) (K : Ptr → Prop) (p : Option Ptr) : Prop :=
  ∀ q, p = some q → h.inTo q = true ∧ (K q ∨ ∃ c, h.get q = some c ∧ c.scalar = true)

theorem Good.ext {h h' : Heap} {K K' : Ptr → Prop} {p : Option Ptr} (hg : Good h K p)
    (he : Heap.Ext h h') (hk : ∀ q, K q → K' q) : Good h' K' p := by
  intro q hq
  obtain ⟨h1, h2⟩ := hg q hq
  refine ⟨by rw [he.inTo]; exact h1, ?_⟩
  rcases h2 with h2 | ⟨c, hc, hs⟩
  · exact .inl (hk _ h2)
  · exact .inr ⟨c, he.keep _ _ hc hs, hs⟩

/-- The state of a heap between the steps of a trace.  `L` relates the arrays of the graph with
their copies, `K` is the set of finished arrays. -/
structure Tracing {A : Type} (G : Graph A) (h : Heap) (L : A → Ptr → Prop) (K : Ptr → Prop) :
    Prop where
  below : h.Below
  arr : ∀ a q, L a q → ∃ xs ps, G a = some (.arr xs) ∧ xs.length < 2147483648 ∧
    h.get q = some (.arr ps) ∧ All2 (Rep G h L) xs ps
  inj : ∀ a b q, L a q → L b q → a = b
  func : ∀ a q q', L a q → L a q' → q = q' ∨
    (h.inTo q = false ∧ h.inTo q' = true ∧ h.fwd q = some q') ∨
    (h.inTo q' = false ∧ h.inTo q = true ∧ h.fwd q' = some q)
  fwd : ∀ q q', h.fwd q = some q' → h.inTo q = false ∧ K q' ∧ ∃ a, L a q ∧ L a q'
  done : ∀ q, K q → h.inTo q = true ∧ ∃ ps, h.get q = some (.arr ps) ∧ ∀ p ∈ ps, Good h K p

namespace Tracing
variable {A : Type} {G : Graph A} {h : Heap} {L : A → Ptr → Prop} {K : Ptr → Prop}

/-- Writing finished elements back into an array. -/
theorem put (t : Tracing G h L K) {a q xs ps} (hl : L a q) (hg : G a = some (.arr xs))
    (hr : All2 (Rep G h L) xs ps) (hgood : ∀ p ∈ ps, Good h K p) :
    Tracing G (h.put q (.arr ps)) L (fun x => K x ∨ (x = q ∧ h.inTo q = true)) ∧
      Heap.Ext h (h.put q (.arr ps)) := by
  obtain ⟨xs', ps0, hg', hlen, hq, _⟩ := t.arr a q hl
  have he : Heap.Ext h (h.put q (.arr ps)) := Heap.ext_put hq
  refine ⟨?_, he⟩
  have hgood' : ∀ p ∈ ps, Good (h.put q (.arr ps))
      (fun x => K x ∨ (x = q ∧ h.inTo q = true)) p := fun p hp =>
    (hgood p hp).ext he (fun _ hk => .inl hk)
  constructor
  · exact Heap.below_put t.below hq
  · intro b x hb
    by_cases hx : x = q
    · subst hx
      have := t.inj _ _ _ hb hl
      subst this
      exact ⟨xs, ps, hg, by rw [hg] at hg'; cases hg'; exact hlen, by simp [Heap.get_put],
        hr.mono (fun _ _ r => r.ext he (fun _ _ h => h))⟩
    · obtain ⟨ys, qs, h1, h2, h3, h4⟩ := t.arr b x hb
      exact ⟨ys, qs, h1, h2, by simp [Heap.get_put, hx, h3],
        h4.mono (fun _ _ r => r.ext he (fun _ _ h => h))⟩
  · exact t.inj
  · simpa using t.func
  · intro x y hxy
    simp only [Heap.put_fwd, Heap.put_inTo] at hxy ⊢
    obtain ⟨h1, h2, h3⟩ := t.fwd x y hxy
    exact ⟨h1, .inl h2, h3⟩
  · intro x hx
    rw [Heap.put_inTo]
    by_cases hxq : x = q
    · subst hxq
      refine ⟨?_, ps, by simp [Heap.get_put], hgood'⟩
      rcases hx with hx | hx
      · exact (t.done _ hx).1
      · exact hx.2
    · rcases hx with hx | hx
      · obtain ⟨h1, qs, h2, h3⟩ := t.done _ hx
        exact ⟨h1, qs, by simp [Heap.get_put, hxq, h2],
          fun p hp => (h3 p hp).ext he (fun _ hk => .inl hk)⟩
      · exact absurd hx.1 hxq

theorem alloc_scalar (t : Tracing G h L K) {c : Cell} {q : Ptr} {h' : Heap}
    (a : Heap.Alloced h c q h') : Tracing G h' L K ∧ Heap.Ext h h' := by
  have he := a.ext
  have hne : ∀ x d, h.get x = some d → x ≠ q := by
    intro x d hx e
    subst e
    rw [a.fresh] at hx
    cases hx
  refine ⟨⟨a.below, ?_, t.inj, ?_, ?_, ?_⟩, he⟩
  · intro b x hb
    obtain ⟨ys, qs, h1, h2, h3, h4⟩ := t.arr b x hb
    exact ⟨ys, qs, h1, h2, by rw [a.get, if_neg (hne _ _ h3)]; exact h3,
      h4.mono (fun _ _ r => r.ext he (fun _ _ h => h))⟩
  · intro b x y hx hy
    rw [he.inTo, he.inTo, a.fwd]
    exact t.func b x y hx hy
  · intro x y hxy
    rw [a.fwd] at hxy
    rw [he.inTo]
    exact t.fwd x y hxy
  · intro x hx
    obtain ⟨h1, qs, h2, h3⟩ := t.done _ hx
    exact ⟨by rw [he.inTo]; exact h1, qs, by rw [a.get, if_neg (hne _ _ h2)]; exact h2,
      fun p hp => (h3 p hp).ext he (fun _ hk => hk)⟩

/-- Moving an array whose elements are finished. -/
theorem alloc_arr (t : Tracing G h L K) {b q xs ps n} {h' : Heap} (hl : L b q)
    (hg : G b = some (.arr xs)) (hr : All2 (Rep G h L) xs ps) (hgood : ∀ p ∈ ps, Good h K p)
    (hq : h.inTo q = false) (hf : h.fwd q = none)
    (a : Heap.Alloced h (.arr ps) n h') :
    Tracing G { h' with fwd := fun x => if x = q then some n else h'.fwd x }
      (fun x y => L x y ∨ (x = b ∧ y = n)) (fun x => K x ∨ x = n) ∧
    Heap.Ext h { h' with fwd := fun x => if x = q then some n else h'.fwd x } := by
  have he0 := a.ext
  have hget : ∀ x, ({ h' with fwd := fun x => if x = q then some n else h'.fwd x } : Heap).get x =
      h'.get x := fun _ => rfl
  have hto : ∀ x, ({ h' with fwd := fun x => if x = q then some n else h'.fwd x } : Heap).inTo x =
      h'.inTo x := fun _ => rfl
  have he : Heap.Ext h { h' with fwd := fun x => if x = q then some n else h'.fwd x } :=
    ⟨he0.flip, he0.keep, he0.arr⟩
  have hne : ∀ x d, h.get x = some d → x ≠ n := by
    intro x d hx e
    subst e
    rw [a.fresh] at hx
    cases hx
  have hLn : ∀ x, ¬ L x n := by
    intro x hx
    obtain ⟨_, _, _, _, h3, _⟩ := t.arr x n hx
    exact hne _ _ h3 rfl
  have hKn : ¬ K n := by
    intro hx
    obtain ⟨_, _, h3, _⟩ := t.done n hx
    exact hne _ _ h3 rfl
  have hnt : h.inTo n = true := by rw [← he0.inTo]; exact a.inTo
  have hlen : xs.length < 2147483648 := by
    obtain ⟨ys, _, h1, h2, _⟩ := t.arr _ _ hl
    rw [hg] at h1; cases h1; exact h2
  refine ⟨⟨a.below, ?_, ?_, ?_, ?_, ?_⟩, he⟩
  · intro x y hxy
    rw [hget]
    rcases hxy with hxy | ⟨rfl, rfl⟩
    · obtain ⟨ys, qs, h1, h2, h3, h4⟩ := t.arr x y hxy
      exact ⟨ys, qs, h1, h2, by rw [a.get, if_neg (hne _ _ h3)]; exact h3,
        h4.mono (fun _ _ r => r.ext he (fun _ _ h => .inl h))⟩
    · exact ⟨xs, ps, hg, hlen, by rw [a.get, if_pos rfl],
        hr.mono (fun _ _ r => r.ext he (fun _ _ h => .inl h))⟩
  · intro x y z hx hy
    rcases hx with hx | ⟨rfl, rfl⟩ <;> rcases hy with hy | ⟨rfl, hy⟩
    · exact t.inj _ _ _ hx hy
    · subst hy; exact absurd hx (hLn _)
    · exact absurd hy (hLn _)
    · rfl
  · intro x y z hy hz
    simp only [hto, he0.inTo]
    have key : ∀ y, L b y → y = q := by
      intro y hy
      rcases t.func b y q hy hl with h | ⟨h1, h2, h3⟩ | ⟨h1, h2, h3⟩
      · exact h
      · rw [hq] at h2; cases h2
      · rw [hf] at h3; cases h3
    rcases hy with hy | ⟨rfl, rfl⟩ <;> rcases hz with hz | ⟨hz1, hz⟩
    · rcases t.func x y z hy hz with h | ⟨h1, h2, h3⟩ | ⟨h1, h2, h3⟩
      · exact .inl h
      · refine .inr (.inl ⟨h1, h2, ?_⟩)
        rw [if_neg, a.fwd]; exact h3
        intro e; subst e; rw [hf] at h3; cases h3
      · refine .inr (.inr ⟨h1, h2, ?_⟩)
        rw [if_neg, a.fwd]; exact h3
        intro e; subst e; rw [hf] at h3; cases h3
    · subst hz1; subst hz
      have := key y hy
      subst this
      exact .inr (.inl ⟨hq, hnt, by simp⟩)
    · have := key z hz
      subst this
      exact .inr (.inr ⟨hq, hnt, by simp⟩)
    · exact .inl hz.symm
  · intro x y hxy
    simp only [hto, he0.inTo] at hxy ⊢
    split at hxy
    · rename_i e
      cases hxy
      subst e
      exact ⟨hq, .inr rfl, b, .inl hl, .inr ⟨rfl, rfl⟩⟩
    · rw [a.fwd] at hxy
      obtain ⟨h1, h2, c, h3, h4⟩ := t.fwd x y hxy
      exact ⟨h1, .inl h2, c, .inl h3, .inl h4⟩
  · intro x hx
    simp only [hget, hto, he0.inTo]
    rcases hx with hx | rfl
    · obtain ⟨h1, qs, h2, h3⟩ := t.done _ hx
      exact ⟨h1, qs, by rw [a.get, if_neg (hne _ _ h2)]; exact h2,
        fun p hp => (h3 p hp).ext he (fun _ hk => .inl hk)⟩
    · exact ⟨hnt, ps, by rw [a.get, if_pos rfl], fun p hp => (hgood p hp).ext he (fun _ hk => .inl hk)⟩

end Tracing

/-- What a successful trace of one pointer (`p` for the node `a`) achieves. -/
structure Traced {A : Type} (G : Graph A) (h : Heap) (L : A → Ptr → Prop) (K : Ptr → Prop)
    (a : A) (p' : Option Ptr) (h' : Heap) (L' : A → Ptr → Prop) (K' : Ptr → Prop) : Prop where
  inv : Tracing G h' L' K'
  ext : Heap.Ext h h'
  grow : ∀ a q, L a q → L' a q
  more : ∀ q, K q → K' q
  rep : Rep G h' L' a p'
  good : Good h' K' p'

/-- What a successful trace of a list of pointers achieves. -/
structure TracedAll {A : Type} (G : Graph A) (h : Heap) (L : A → Ptr → Prop) (K : Ptr → Prop)
    (as : List A) (ps' : List (Option Ptr)) (h' : Heap) (L' : A → Ptr → Prop) (K' : Ptr → Prop) :
    Prop where
  inv : Tracing G h' L' K'
  ext : Heap.Ext h h'
  grow : ∀ a q, L a q → L' a q
  more : ∀ q, K q → K' q
  rep : All2 (Rep G h' L') as ps'
  good : ∀ p ∈ ps', Good h' K' p

theorem traceList_spec {A : Type} {G : Graph A} {one : Heap → Option Ptr → Out (Option Ptr × Heap)}
    (hone : ∀ h L K a p, Tracing G h L K → Rep G h L a p →
      match one h p with
      | .error f => f = .oom ∨ f = .diverge
      | .ok (p', h') => ∃ L' K', Traced G h L K a p' h' L' K') :
    ∀ (as : List A) (ps : List (Option Ptr)) h L K, Tracing G h L K → All2 (Rep G h L) as ps →
      match traceList one h ps with
      | .error f => f = .oom ∨ f = .diverge
      | .ok (ps', h') => ∃ L' K', TracedAll G h L K as ps' h' L' K' := by
  intro as ps
  induction ps generalizing as with
  | nil =>
    intro h L K t r
    cases r
    exact ⟨L, K, t, .refl h, fun _ _ h => h, fun _ h => h, .nil, by simp⟩
  | cons p ps ih =>
    intro h L K t r
    cases r with
    | cons r rs =>
      rename_i a as
      rw [traceList]
      have h1 := hone h L K a p t r
      cases hx : one h p with
      | error f => rw [hx] at h1; exact h1
      | ok y =>
        obtain ⟨p', h'⟩ := y
        rw [hx] at h1
        obtain ⟨L', K', d⟩ := h1
        dsimp only
        have h2 := ih as h' L' K' d.inv (rs.mono (fun _ _ r => r.ext d.ext d.grow))
        cases hy : traceList one h' ps with
        | error f => rw [hy] at h2; exact h2
        | ok z =>
          obtain ⟨ps', h''⟩ := z
          rw [hy] at h2
          obtain ⟨L'', K'', d'⟩ := h2
          exact ⟨L'', K'', d'.inv, d.ext.trans d'.ext, fun a q h => d'.grow _ _ (d.grow _ _ h),
            fun q h => d'.more _ (d.more _ h), .cons (d.rep.ext d'.ext d'.grow) d'.rep, by
              intro x hx
              rcases List.mem_cons.1 hx with rfl | hx
              · exact d.good.ext d'.ext d'.more
              · exact d'.good x hx⟩

theorem moveCell_spec {A : Type} {G : Graph A} {h L K} {a : A} {c : Cell} (t : Tracing G h L K)
    (hs : c.scalar = true) (hc : c.extra < 9223372036854775809)
    (hrep : ∀ h' q, h'.get q = some c → Rep G h' L a (some q)) :
    match moveCell h c with
    | .error f => f = .oom ∨ f = .diverge
    | .ok (p', h') => ∃ L' K', Traced G h L K a p' h' L' K' := by
  unfold moveCell
  cases hx : h.allocTo c.extra c with
  | none => exact .inl rfl
  | some y =>
    obtain ⟨q, h'⟩ := y
    have al := Heap.allocTo_spec t.below hc hx
    obtain ⟨t', e⟩ := t.alloc_scalar al
    have hg : h'.get q = some c := by rw [al.get, if_pos rfl]
    exact ⟨L, K, t', e, fun _ _ h => h, fun _ h => h, hrep h' q hg, fun x hx => by
      cases hx; exact ⟨al.inTo, .inr ⟨c, hg, hs⟩⟩⟩

theorem traceOne_spec {A : Type} {G : Graph A} :
    ∀ depth h L K (a : A) p, Tracing G h L K → Rep G h L a p →
      match traceOne depth h p with
      | .error f => f = .oom ∨ f = .diverge
      | .ok (p', h') => ∃ L' K', Traced G h L K a p' h' L' K' := by
  intro depth
  induction depth with
  | zero =>
    intro h L K a p t r
    have r0 := r
    unfold Rep at r
    split at r
    · subst r; rw [traceOne]
      exact ⟨L, K, t, .refl h, fun _ _ h => h, fun _ h => h, r0, fun q hq => by cases hq⟩
    all_goals (try (exact r.elim))
    case h_7 =>
      obtain ⟨q, rfl, hq⟩ := r
      obtain ⟨xs, ps, _, _, hg, _⟩ := t.arr _ _ hq
      rw [traceOne.eq_def]; simp [hg]
    all_goals
      rename_i hG
      obtain ⟨q, rfl, hq⟩ := r
      rw [traceOne.eq_def]
      first | simp only [hq.1] | simp only [hq]
      by_cases hin : h.inTo q = true
      · rw [if_pos hin]
        exact ⟨L, K, t, .refl h, fun _ _ h => h, fun _ h => h, r0, fun x hx => by
          cases hx; exact ⟨hin, .inr ⟨_, (by first | exact hq.1 | exact hq), rfl⟩⟩⟩
      · rw [if_neg hin]
        try rw [if_neg (by simpa using hq.2.1)]
        refine moveCell_spec t rfl ?_ ?_
        · first | (simp [Cell.extra]; done) | (have := hq.2.2; simp only [Cell.extra]; omega)
        · intro h' q' hq'
          unfold Rep; rw [hG]
          first | exact ⟨q', rfl, hq'⟩ | exact ⟨q', rfl, hq', hq.2⟩
  | succ depth ih =>
    intro h L K a p t r
    have r0 := r
    unfold Rep at r
    split at r
    · subst r; rw [traceOne]
      exact ⟨L, K, t, .refl h, fun _ _ h => h, fun _ h => h, r0, fun q hq => by cases hq⟩
    all_goals (try (exact r.elim))
    case h_7 xs0 hG =>
      obtain ⟨q, rfl, hq⟩ := r
      obtain ⟨xs, ps, hG', hlen, hg, hel⟩ := t.arr _ _ hq
      rw [traceOne.eq_def]
      simp only [hg]
      have hl := traceList_spec ih xs ps h L K t hel
      cases hx : traceList (traceOne depth) h ps with
      | error f => rw [hx] at hl; exact hl
      | ok y =>
        obtain ⟨ps', h1⟩ := y
        rw [hx] at hl
        obtain ⟨L1, K1, d⟩ := hl
        dsimp only
        obtain ⟨t2, e2⟩ := d.inv.put (d.grow _ _ hq) hG' d.rep d.good
        have hin2 : (h1.put q (.arr ps')).inTo q = h1.inTo q := by simp
        by_cases hin : (h1.put q (.arr ps')).inTo q = true
        · rw [if_pos hin]
          refine ⟨L1, _, t2, d.ext.trans e2, d.grow, fun x hx => .inl (d.more _ hx), ?_, ?_⟩
          · unfold Rep; rw [hG]; exact ⟨q, rfl, d.grow _ _ hq⟩
          · intro x hx; cases hx
            exact ⟨hin, .inl (.inr ⟨rfl, hin2 ▸ hin⟩)⟩
        · rw [if_neg hin]
          have hq1 : h1.inTo q = false := by rw [← hin2]; simpa using hin
          cases hf : (h1.put q (.arr ps')).fwd q with
          | some x =>
            dsimp only
            obtain ⟨f1, f2, b, f3, f4⟩ := t2.fwd _ _ hf
            have := t2.inj _ _ _ f3 (d.grow _ _ hq)
            subst this
            refine ⟨L1, _, t2, d.ext.trans e2, d.grow, fun x hx => .inl (d.more _ hx), ?_, ?_⟩
            · unfold Rep; rw [hG]; exact ⟨x, rfl, f4⟩
            · intro y hy; cases hy
              exact ⟨(t2.done _ f2).1, .inl f2⟩
          | none =>
            dsimp only
            cases hal : (h1.put q (.arr ps')).allocTo (8 * ps'.length) (.arr ps') with
            | none => exact .inl rfl
            | some z =>
              obtain ⟨n, h3⟩ := z
              dsimp only
              have hlen' : ps'.length < 2147483648 := by rw [← d.rep.length]; exact hlen
              have al := Heap.allocTo_spec t2.below (by omega) hal
              obtain ⟨t3, e3⟩ := t2.alloc_arr (d.grow _ _ hq) hG'
                (d.rep.mono (fun _ _ r => r.ext e2 (fun _ _ h => h)))
                (fun p hp => (d.good p hp).ext e2 (fun _ h => .inl h)) (by simpa using hq1) hf al
              refine ⟨_, _, t3, (d.ext.trans e2).trans e3, fun x y hxy => .inl (d.grow _ _ hxy),
                fun x hx => .inl (.inl (d.more _ hx)), ?_, ?_⟩
              · unfold Rep; rw [hG]; exact ⟨n, rfl, .inr ⟨rfl, rfl⟩⟩
              · intro y hy; cases hy
                exact ⟨al.inTo, .inl (.inr rfl)⟩
    all_goals
      rename_i hG
      obtain ⟨q, rfl, hq⟩ := r
      rw [traceOne.eq_def]
      first | simp only [hq.1] | simp only [hq]
      by_cases hin : h.inTo q = true
      · rw [if_pos hin]
        exact ⟨L, K, t, .refl h, fun _ _ h => h, fun _ h => h, r0, fun x hx => by
          cases hx; exact ⟨hin, .inr ⟨_, (by first | exact hq.1 | exact hq), rfl⟩⟩⟩
      · rw [if_neg hin]
        try rw [if_neg (by simpa using hq.2.1)]
        refine moveCell_spec t rfl ?_ ?_
        · first | (simp [Cell.extra]; done) | (have := hq.2.2; simp only [Cell.extra]; omega)
        · intro h' q' hq'
          unfold Rep; rw [hG]
          first | exact ⟨q', rfl, hq'⟩ | exact ⟨q', rfl, hq', hq.2⟩

/-- The state of a heap between collections. -/
structure Holds {A : Type} (G : Graph A) (h : Heap) (L : A → Ptr → Prop) : Prop where
  below : h.Below
  arr : ∀ a q, L a q → ∃ xs ps, G a = some (.arr xs) ∧ xs.length < 2147483648 ∧
    h.get q = some (.arr ps) ∧ All2 (Rep G h L) xs ps
  inj : ∀ a b q, L a q → L b q → a = b
  func : ∀ a q q', L a q → L a q' → q = q'
  fwd : ∀ q, h.fwd q = none

theorem Holds.tracing {A : Type} {G : Graph A} {h L} (w : Holds G h L) :
    Tracing G h L (fun _ => False) :=
  ⟨w.below, w.arr, w.inj, fun a q q' h1 h2 => .inl (w.func a q q' h1 h2),
    fun q q' hq => (by rw [w.fwd] at hq; cases hq), fun _ hq => hq.elim⟩

theorem flip_get {h : Heap} {q : Ptr} {c : Cell} (hin : h.inTo q = true) (hg : h.get q = some c) :
    h.flipSpaces.get q = some c := by
  unfold Heap.get at hg
  rw [if_pos hin] at hg
  have : h.flipSpaces.inTo q = false := by
    simp only [Heap.inTo, Heap.flipSpaces] at hin ⊢
    cases hq : q.space <;> cases hf : h.flip <;> simp_all
  unfold Heap.get
  rw [if_neg (by simp [this])]
  exact hg

theorem rep_flip {A : Type} {G : Graph A} {h L K} {a : A} {p} (t : Tracing G h L K)
    (r : Rep G h L a p) (g : Good h K p) :
    Rep G h.flipSpaces (fun a q => L a q ∧ K q) a p := by
  unfold Rep at r ⊢
  split <;> rename_i hG <;> rw [hG] at r
  · exact r
  · obtain ⟨q, rfl, hq⟩ := r; exact ⟨q, rfl, flip_get (g q rfl).1 hq⟩
  · obtain ⟨q, rfl, hq⟩ := r; exact ⟨q, rfl, flip_get (g q rfl).1 hq⟩
  · obtain ⟨q, rfl, hq, hn⟩ := r; exact ⟨q, rfl, flip_get (g q rfl).1 hq, hn⟩
  · obtain ⟨q, rfl, hq⟩ := r; exact ⟨q, rfl, flip_get (g q rfl).1 hq⟩
  · obtain ⟨q, rfl, hq⟩ := r; exact ⟨q, rfl, flip_get (g q rfl).1 hq⟩
  · obtain ⟨q, rfl, hq⟩ := r
    refine ⟨q, rfl, hq, ?_⟩
    rcases (g q rfl).2 with h1 | ⟨c, h1, h2⟩
    · exact h1
    · obtain ⟨_, _, _, _, h3, _⟩ := t.arr _ _ hq
      rw [h3] at h1; cases h1; simp [Cell.scalar] at h2
  · exact r

/-- A collection keeps the graph: afterwards the roots represent the same nodes, all in the
surviving space. -/
theorem gcRun_spec {A : Type} {G : Graph A} {depth h L} {as : List A} {ps : List (Option Ptr)}
    (w : Holds G h L) (r : All2 (Rep G h L) as ps) :
    match gcRun depth h ps with
    | .error f => f = .oom ∨ f = .diverge
    | .ok (ps', h') => ∃ L', Holds G h' L' ∧ All2 (Rep G h' L') as ps' := by
  unfold gcRun
  have h1 := traceList_spec (traceOne_spec (G := G) depth) as ps h L _ w.tracing r
  cases hx : traceList (traceOne depth) h ps with
  | error f => rw [hx] at h1; exact h1
  | ok y =>
    obtain ⟨ps', h'⟩ := y
    rw [hx] at h1
    obtain ⟨L', K', d⟩ := h1
    dsimp only
    refine ⟨fun a q => L' a q ∧ K' q, ⟨?_, ?_, ?_, ?_, fun _ => rfl⟩, ?_⟩
    · exact ⟨by simp [Heap.flipSpaces, Arena.clear, arenaCapacity], fun o c ho => by
        simp [Heap.flipSpaces, Arena.clear] at ho⟩
    · rintro a q ⟨hl, hk⟩
      obtain ⟨xs, ps, h2, h3, h4, h5⟩ := d.inv.arr a q hl
      obtain ⟨h6, qs, h7, h8⟩ := d.inv.done q hk
      rw [h4] at h7; cases h7
      exact ⟨xs, ps, h2, h3, flip_get h6 h4,
        (h5.right h8).mono (fun _ _ r => rep_flip d.inv r.1 r.2)⟩
    · rintro a b q ⟨h2, _⟩ ⟨h3, _⟩
      exact d.inv.inj a b q h2 h3
    · rintro a q q' ⟨h2, h3⟩ ⟨h4, h5⟩
      have t1 := (d.inv.done _ h3).1
      have t2 := (d.inv.done _ h5).1
      rcases d.inv.func a q q' h2 h4 with h | ⟨h6, _, _⟩ | ⟨h6, _, _⟩
      · exact h
      · rw [t1] at h6; cases h6
      · rw [t2] at h6; cases h6
    · exact (d.rep.right d.good).mono (fun _ _ r => rep_flip d.inv r.1 r.2)

end Ccml
