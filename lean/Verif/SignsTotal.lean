import Verif.SignsLemmas
import Verif.Words
/-! Everything the parser accepts without a `not` behind an operand has a tree of `Verif/Signs.lean`. -/
namespace Ccml.Gram
open Ccml

theorem exists_last {α : Type} {P : α → Prop} (l : List α) (h : ∃ a ∈ l, P a) :
    ∃ l1 a l2, l = l1 ++ a :: l2 ∧ P a ∧ ∀ b ∈ l2, ¬ P b := by
  induction l with
  | nil => obtain ⟨a, ha, -⟩ := h; cases ha
  | cons x l ih =>
    by_cases hl : ∃ a ∈ l, P a
    · obtain ⟨l1, a, l2, rfl, h1, h2⟩ := ih hl
      exact ⟨x :: l1, a, l2, rfl, h1, h2⟩
    · obtain ⟨a, ha, hp⟩ := h
      rcases List.mem_cons.1 ha with rfl | ha
      · exact ⟨[], a, l, rfl, hp, fun b hb hb' => hl ⟨b, hb, hb'⟩⟩
      · exact absurd ⟨a, ha, hp⟩ hl

theorem Climb.mono {p p' : Nat} {x e : PExpr} {l : List (Token × PExpr)} (h : Climb p x l e) (hp : p' ≤ p) :
    Climb p' x l e := by
  cases h with
  | one => exact .one
  | bin ho hq ha hb => exact .bin ho (by omega) ha hb

/-- All operators of a row have at least level `p`. -/
def Levels (p : Nat) (l : List (Token × PExpr)) : Prop := ∀ a ∈ l, ∃ q, level a.1.type = some q ∧ p ≤ q

theorem climb_total : ∀ (k p : Nat), 6 ≤ p + k → ∀ (n : Nat) (l : List (Token × PExpr)), l.length ≤ n →
    ∀ x, Levels p l → ∃ e, Climb p x l e := by
  intro k
  induction k with
  | zero =>
    intro p hp n l _ x hl
    cases l with
    | nil => exact ⟨x, .one⟩
    | cons a l =>
      obtain ⟨q, h1, h2⟩ := hl a (by simp)
      have := level_le h1
      omega
  | succ k ih =>
    intro p hp n
    induction n with
    | zero =>
      intro l hn x _
      cases l with
      | nil => exact ⟨x, .one⟩
      | cons a l => cases hn
    | succ n ihn =>
      intro l hn x hl
      by_cases hex : ∃ a ∈ l, level a.1.type = some p
      · obtain ⟨l1, ⟨op, y⟩, l2, rfl, h1, h2⟩ := exists_last l hex
        obtain ⟨a, ha⟩ := ihn l1 (by simp at hn; omega) x (fun b hb => hl b (by simp [hb]))
        obtain ⟨b, hb⟩ := ih (p + 1) (by omega) l2.length l2 (Nat.le_refl _) y (fun c hc => by
          obtain ⟨q, g1, g2⟩ := hl c (by simp [hc])
          refine ⟨q, g1, ?_⟩
          have : q ≠ p := fun h => h2 c hc (h ▸ g1)
          omega)
        exact ⟨_, .bin h1 (Nat.le_refl _) ha hb⟩
      · obtain ⟨e, he⟩ := ih (p + 1) (by omega) l.length l (Nat.le_refl _) x (fun c hc => by
          obtain ⟨q, g1, g2⟩ := hl c hc
          refine ⟨q, g1, ?_⟩
          have : q ≠ p := fun h => hex ⟨c, hc, h ▸ g1⟩
          omega)
        exact ⟨e, he.mono (by omega)⟩

theorem signed_total (us : List Token) (x : PExpr) (l : List (Token × PExpr)) (hl : Levels 1 l) :
    ∃ e, Signed us x l e := by
  have next : ∀ m : List (Token × PExpr), (∀ a ∈ m, a ∈ l) → (∀ a ∈ m, ¬ level a.1.type = some 1) → Levels 2 m := by
    intro m hm h a ha
    obtain ⟨q, g1, g2⟩ := hl a (hm a ha)
    refine ⟨q, g1, ?_⟩
    have : q ≠ 1 := fun e => h a ha (e ▸ g1)
    omega
  by_cases hex : ∃ a ∈ l, level a.1.type = some 1
  · obtain ⟨l1, ⟨op, y⟩, l2, rfl, h1, h2⟩ := exists_last l hex
    obtain ⟨a, ha⟩ := climb_total 5 1 (by omega) _ l1 (Nat.le_refl _) x (fun b hb => hl b (by simp [hb]))
    obtain ⟨c, hc⟩ := climb_total 4 2 (by omega) _ l2 (Nat.le_refl _) y (next l2 (fun a ha => by simp [ha]) h2)
    exact ⟨_, .chain h1 ha hc⟩
  · obtain ⟨c, hc⟩ := climb_total 4 2 (by omega) _ l (Nat.le_refl _) x
      (next l (fun a ha => ha) (fun a ha h => hex ⟨a, ha, h⟩))
    exact ⟨_, .alone hc⟩

theorem signLast_levels {p : Nat} (us : List Token) (l : List (Token × PExpr)) :
    ∀ x, Levels p l → Levels p (signLast us x l).2 := by
  induction l with
  | nil => intro x _ a ha; cases ha
  | cons b l ih =>
    obtain ⟨op, y⟩ := b
    intro x h a ha
    simp only [signLast] at ha
    rcases List.mem_cons.1 ha with rfl | ha
    · exact h (op, y) (by simp)
    · exact ih y (fun c hc => h c (by simp [hc])) a ha

theorem row_levels {f : Piece} {ts : List Token} (h : Writes f ts) :
    match f with | .row _ _ l => Levels 1 l | _ => True := by
  induction h with
  | last => intro a ha; cases ha
  | sign _ _ ih => exact ih
  | @next us x op y l ts vs _ ho _ _ ih =>
    intro a ha
    rcases List.mem_cons.1 ha with rfl | ha
    · obtain ⟨q, hq⟩ := Option.ne_none_iff_exists'.1 ho
      exact ⟨q, hq, (level_le hq).1⟩
    · exact ih a ha
  | _ => trivial

/-- Every row is an expression. -/
theorem whole_total {us : List Token} {x : PExpr} {l : List (Token × PExpr)} {ts : List Token}
    (h : Writes (.row us x l) ts) : ∃ e, Writes (.whole e) ts := by
  obtain ⟨e, he⟩ := signed_total (share us).1 (signLast (share us).2 x l).1 (signLast (share us).2 x l).2
    (signLast_levels _ _ _ (row_levels h))
  exact ⟨e, .whole h he⟩

/-! ### Phrases of the grammar of words -/

theorem PrefixNot.part {ts us : List Token} (h : PrefixNot us) (hi : ts <:+: us) : PrefixNot ts :=
  fun a b hab => h a b (hab.trans hi)

theorem opnd_last {f : Piece} {ts : List Token} (h : Writes f ts) :
    match f with | .opnd _ => ∃ us t, ts = us ++ [t] ∧ EndsOperand t.type | _ => True := by
  induction h with
  | literal h => cases h <;> rename_i h <;> exact ⟨[], _, rfl, by simp [EndsOperand, h]⟩
  | ident h => exact ⟨[], _, rfl, by simp [EndsOperand, h]⟩
  | member _ _ h => exact ⟨[_, _], _, rfl, by simp [EndsOperand, h]⟩
  | arr _ _ h => exact ⟨_ :: _, _, rfl, by simp [EndsOperand, h]⟩
  | paren _ _ h => exact ⟨_ :: _, _, rfl, by simp [EndsOperand, h]⟩
  | @deref l r e i ts us _ _ _ h => exact ⟨ts ++ l :: us, r, by simp, by simp [EndsOperand, h]⟩
  | @call l r e i ts us _ _ _ h => exact ⟨ts ++ l :: us, r, by simp, by simp [EndsOperand, h]⟩
  | _ => trivial

/-- Statements of the grammar above. -/
abbrev WritesS : SForm → List Token → Prop :=
  StmtOf (fun e => Writes (.whole e)) (fun as => Writes (.args as))

/-- A block with blank lines in front. -/
def HasBody (ts : List Token) : Prop :=
  ∃ ss before us, ts = before ++ us ∧ Eols before ∧ (ss = [] → before = []) ∧ WritesS (.block ss) us

theorem HasBody.body {ts : List Token} (h : HasBody ts) : ∃ ss, WritesS (.body ss) ts := by
  obtain ⟨ss, before, us, rfl, h1, h2, h3⟩ := h
  exact ⟨ss, .body h1 h2 h3⟩

/-- A phrase has a tree. -/
def HasTree : Lang.Part → List Token → Prop
  | .prim, ts => ∃ e, Writes (.opnd e) ts
  | .post, us => ∀ e ts, Writes (.opnd e) ts → ∃ e', Writes (.opnd e') (ts ++ us)
  | .expr, ts => ∃ us x l, Writes (.row us x l) ts
  | .exprs, ts => ∃ es, Writes (.exprs es) ts
  | .args, ts => ∃ es, Writes (.args es) ts
  | .stmt, ts => ∃ s, WritesS (.stmt s) ts
  | .block, ts => HasBody ts

theorem HasTree.whole {ts : List Token} (h : HasTree .expr ts) : ∃ e, Writes (.whole e) ts := by
  obtain ⟨us, x, l, h⟩ := h; exact whole_total h

/-- Proves that a part of the tokens is a part. -/
macro "part " a:term ", " b:term : term => `(⟨$a, $b, by simp⟩)

theorem level_operator {t : Tok} (h : Lang.Operator t) (hn : t ≠ .NOT) : level t ≠ none := by
  rcases h with h | h | h | h | h | h | h | h | h | h | h | h | h <;> subst h <;> first | decide | exact absurd rfl hn

theorem spells_tree {k : Lang.Part} {ts : List Token} (h : Lang.Spells k ts) : PrefixNot ts → HasTree k ts := by
  induction h with
  | literal h =>
    intro _
    rcases h with h | h | h | h
    · exact ⟨_, .literal (.int _ h)⟩
    · exact ⟨_, .literal (.float _ h)⟩
    · exact ⟨_, .literal (.str _ h)⟩
    · exact ⟨_, .literal (.none _ h)⟩
  | ident h => intro _; exact ⟨_, .ident h⟩
  | member h1 h2 h3 => intro _; exact ⟨_, .member h1 h2 h3⟩
  | @arr l r ts hl _ hr ih =>
    intro hp
    obtain ⟨es, h⟩ := ih (hp.part (part [l], [r]))
    exact ⟨_, .arr hl h hr⟩
  | @paren l r ts hl _ hr ih =>
    intro hp
    obtain ⟨e, h⟩ := HasTree.whole (ih (hp.part (part [l], [r])))
    exact ⟨_, .paren hl h hr⟩
  | bare => intro _ e ts h; exact ⟨e, by simpa using h⟩
  | @index l r ts us hl _ hr _ ih ihp =>
    intro hp e vs hv
    obtain ⟨i, h⟩ := HasTree.whole (ih (hp.part (part [l], r :: us)))
    obtain ⟨e', h'⟩ := ihp (hp.part (part (l :: (ts ++ [r])), [])) _ _ (.deref hv hl h hr)
    exact ⟨e', by simpa using h'⟩
  | @call l r ts us hl _ hr _ ih ihp =>
    intro hp e vs hv
    obtain ⟨i, h⟩ := ih (hp.part (part [l], r :: us))
    obtain ⟨e', h'⟩ := ihp (hp.part (part (l :: (ts ++ [r])), [])) _ _ (.call hv hl h hr)
    exact ⟨e', by simpa using h'⟩
  | @unary t ts ht _ ih =>
    intro hp
    obtain ⟨us, x, l, h⟩ := ih (hp.part (part [t], []))
    exact ⟨_, _, _, .sign ht h⟩
  | @operand ts us _ _ ih ihp =>
    intro hp
    obtain ⟨e, h⟩ := ih (hp.part (part [], us))
    obtain ⟨e', h'⟩ := ihp (hp.part (part ts, [])) _ _ h
    exact ⟨_, _, _, .last h'⟩
  | @binary ts us op vs _ _ ho _ ih ihp ihr =>
    intro hp
    obtain ⟨e, h⟩ := ih (hp.part (part [], us ++ op :: vs))
    obtain ⟨e', h'⟩ := ihp (hp.part (part ts, op :: vs)) _ _ h
    obtain ⟨us', x, l, hr⟩ := ihr (hp.part (part (ts ++ (us ++ [op])), []))
    have hn : op.type ≠ .NOT := by
      intro hn
      obtain ⟨ws, t, hw, ht⟩ := opnd_last h'
      refine hp t op ⟨ws, vs, ?_⟩ hn ht
      rw [← List.append_assoc, hw]; simp
    have := Writes.next h' (level_operator ho hn) hr
    rw [List.append_assoc] at this
    exact ⟨_, _, _, this⟩
  | one _ ih =>
    intro hp
    obtain ⟨e, h⟩ := HasTree.whole (ih hp)
    exact ⟨_, .one h⟩
  | @more c ts us _ hc _ ih ihs =>
    intro hp
    obtain ⟨e, h⟩ := HasTree.whole (ih (hp.part (part [], c :: us)))
    obtain ⟨es, h'⟩ := ihs (hp.part (part (ts ++ [c]), []))
    exact ⟨_, .more h hc h'⟩
  | noArgs => intro _; exact ⟨_, .noArgs⟩
  | someArgs _ ih => intro hp; obtain ⟨es, h⟩ := ih hp; exact ⟨_, .someArgs h⟩
  | var hv hn => intro _; exact ⟨_, .var hv hn⟩
  | @varInit v name a ts hv hn ha _ ih =>
    intro hp
    obtain ⟨e, h⟩ := HasTree.whole (ih (hp.part (part [v, name, a], [])))
    exact ⟨_, .varInit hv hn ha h⟩
  | @assign name a ts hn ha _ ih =>
    intro hp
    obtain ⟨e, h⟩ := HasTree.whole (ih (hp.part (part [name, a], [])))
    exact ⟨_, .assign hn ha h⟩
  | @compound name op a ts hn ho ha _ ih =>
    intro hp
    obtain ⟨e, h⟩ := HasTree.whole (ih (hp.part (part [name, op, a], [])))
    exact ⟨_, .compound hn ho ha h⟩
  | @assignMem name d m a ts hn hd hm ha _ ih =>
    intro hp
    obtain ⟨e, h⟩ := HasTree.whole (ih (hp.part (part [name, d, m, a], [])))
    exact ⟨_, .assignMem hn hd hm ha h⟩
  | @assignArr name l r a ts us hn hl _ hr ha _ ih ih' =>
    intro hp
    obtain ⟨i, hi⟩ := HasTree.whole (ih (hp.part (part [name, l], (r :: a :: us))))
    obtain ⟨e, h⟩ := HasTree.whole (ih' (hp.part (part (name :: l :: (ts ++ [r, a])), [])))
    exact ⟨_, .assignArr hn hl hi hr ha h⟩
  | @callS name l r ts hn hl _ hr ih =>
    intro hp
    obtain ⟨as, h⟩ := ih (hp.part (part [name, l], [r]))
    exact ⟨_, .call hn hl h hr⟩
  | ret ht => intro _; exact ⟨_, .ret ht⟩
  | @retVal t ts ht _ ih =>
    intro hp
    obtain ⟨e, h⟩ := HasTree.whole (ih (hp.part (part [t], [])))
    exact ⟨_, .retVal ht h⟩
  | @ifS t l r n e ts us ht hl _ hr hn _ he ih ihb =>
    intro hp
    obtain ⟨c, hc⟩ := HasTree.whole (ih (hp.part (part [t, l], (r :: n :: (us ++ [e])))))
    obtain ⟨b, hb⟩ := HasBody.body (ihb (hp.part (part (t :: l :: (ts ++ [r, n])), [e])))
    exact ⟨_, .ifS ht hl hc hr hn hb he⟩
  | @ifElse t l r n els m e ts us vs ht hl _ hr hn _ hels hm _ he ih ihb ihb' =>
    intro hp
    obtain ⟨c, hc⟩ := HasTree.whole (ih (hp.part (part [t, l], (r :: n :: (us ++ (els :: m :: (vs ++ [e])))))))
    obtain ⟨b, hb⟩ := HasBody.body (ihb (hp.part (part (t :: l :: (ts ++ [r, n])), (els :: m :: (vs ++ [e])))))
    obtain ⟨b', hb'⟩ := HasBody.body (ihb' (hp.part (part (t :: l :: (ts ++ (r :: n :: (us ++ [els, m])))), [e])))
    exact ⟨_, .ifElse ht hl hc hr hn hb hels hm hb' he⟩
  | @whileS t l r n e ts us ht hl _ hr hn _ he ih ihb =>
    intro hp
    obtain ⟨c, hc⟩ := HasTree.whole (ih (hp.part (part [t, l], (r :: n :: (us ++ [e])))))
    obtain ⟨b, hb⟩ := HasBody.body (ihb (hp.part (part (t :: l :: (ts ++ [r, n])), [e])))
    exact ⟨_, .whileS ht hl hc hr hn hb he⟩
  | @forS t l name a o r n e ts us vs ht hl hname ha _ ho _ hr hn _ he ih ih' ihb =>
    intro hp
    obtain ⟨x, hx⟩ := HasTree.whole (ih (hp.part (part [t, l, name, a], (o :: (us ++ (r :: n :: (vs ++ [e])))))))
    obtain ⟨y, hy⟩ := HasTree.whole (ih' (hp.part (part (t :: l :: name :: a :: (ts ++ [o])), (r :: n :: (vs ++ [e])))))
    obtain ⟨b, hb⟩ := HasBody.body (ihb (hp.part
      (part (t :: l :: name :: a :: (ts ++ (o :: (us ++ [r, n])))), [e])))
    exact ⟨_, .forS ht hl hname ha hx ho hy hr hn hb he⟩
  | nil => intro _; exact ⟨[], [], [], rfl, (by intro t h; cases h), fun _ => rfl, .nil⟩
  | @cons before ts n after us hb _ hn ha _ ih ihs =>
    intro hp
    obtain ⟨s, h⟩ := ih (hp.part (part before, (n :: (after ++ us))))
    obtain ⟨ss, before', us', rfl, h1, h2, h3⟩ := ihs (hp.part (part (before ++ (ts ++ (n :: after))), []))
    refine ⟨s :: ss, before, ts ++ (n :: ((after ++ before') ++ us')), by simp, hb, (fun h => by cases h),
      .cons h hn ?_ h3⟩
    intro t ht
    rcases List.mem_append.1 ht with ht | ht
    · exact ha t ht
    · exact h1 t ht

theorem names_tree {ns : List Token} (h : Lang.Names ns) : ∃ as, ReadsNames as ns := by
  induction h with
  | one h => exact ⟨_, .one h⟩
  | more h hc _ ih => obtain ⟨as, h'⟩ := ih; exact ⟨_, .more h hc h'⟩

theorem function_tree {ts : List Token} (h : Lang.Function ts) (hp : PrefixNot ts) :
    ∃ f, FuncOf (fun e => Writes (.whole e)) (fun as => Writes (.args as)) f ts := by
  cases h with
  | @noArgs name l r n e ts hname hl hr hn hb he =>
    obtain ⟨b, hb⟩ := HasBody.body (spells_tree hb (hp.part (part [name, l, r, n], [e])))
    exact ⟨_, .noArgs hname hl hr hn hb he⟩
  | @args name l r n e ns ts hname hl ha hr hn hb he =>
    obtain ⟨b, hb⟩ := HasBody.body (spells_tree hb (hp.part (part (name :: l :: (ns ++ [r, n])), [e])))
    obtain ⟨as, ha⟩ := names_tree ha
    exact ⟨_, .args hname hl ha hr hn hb he⟩

theorem file_tree {fs : Str → Option Str} {cur : Source} {ss ss' : List Source} {ts : List Token}
    (h : Lang.File fs cur ss ss' ts) : PrefixNot ts → ∃ p, WritesP fs cur ss p ss' ts := by
  induction h with
  | nil => intro _; exact ⟨_, .nil⟩
  | @eol t _ _ ts ht _ ih => intro hp; obtain ⟨p, h⟩ := ih (hp.part (part [t], [])); exact ⟨_, .eol ht h⟩
  | @decl v name _ _ ts hv hn _ ih =>
    intro hp
    obtain ⟨p, h⟩ := ih (hp.part (part [v, name], []))
    exact ⟨_, .decl hv hn h⟩
  | @init v name a _ _ ts us hv hn ha he _ ih =>
    intro hp
    obtain ⟨e, he⟩ := HasTree.whole (spells_tree he (hp.part (part [v, name, a], us)))
    obtain ⟨p, h⟩ := ih (hp.part (part (v :: name :: a :: ts), []))
    exact ⟨_, .init hv hn ha he h⟩
  | @func t _ _ ts us ht hf _ ih =>
    intro hp
    obtain ⟨f, hf⟩ := function_tree hf (hp.part (part [t], us))
    obtain ⟨p, h⟩ := ih (hp.part (part (t :: ts), []))
    exact ⟨_, .func ht hf h⟩
  | @imp t n _ _ _ ts ht hn hl _ ih =>
    intro hp
    obtain ⟨p, h⟩ := ih (hp.part (part [t, n], []))
    exact ⟨_, .imp ht hn hl h⟩

end Ccml.Gram
