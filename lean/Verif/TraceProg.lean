import Verif.TraceCall
import Verif.AsmProg
/-!
A generated program contains its functions where the evaluator expects them (proof infrastructure).
-/
set_option linter.unusedSimpArgs false
namespace Ccml

/-! ### Sizes -/

mutual

theorem asmS_size {g : GenCtx} {sys : List Syscall} : ∀ (st : Stmt Ref) (pc si : Nat) (asm : Asm),
    asmS g sys pc si st = .ok asm → (strsS st).length ≤ widthOf asm
  | .var t r none, pc, si, asm, h => by cases h; simp [strsS]
  | .var t r (some ex), pc, si, asm, h => by
    obtain ⟨a, h1, h⟩ := bind_ok.1 h
    cases h
    have := asmE_size ex _ a h1
    simp only [strsS, widthOf_append]; omega
  | .assign t r ex, pc, si, asm, h => by
    obtain ⟨a, h1, h⟩ := bind_ok.1 h
    obtain ⟨b, h2, h⟩ := bind_ok.1 h
    cases h
    have := asmE_size ex _ a h1
    simp only [strsS, widthOf_append]; omega
  | .assignArr t r i ex, pc, si, asm, h => by
    obtain ⟨a, h1, h⟩ := bind_ok.1 h
    obtain ⟨b, h2, h⟩ := bind_ok.1 h
    obtain ⟨d, h3, h⟩ := bind_ok.1 h
    cases h
    have := asmE_size ex _ a h1
    have := asmE_size i _ b h2
    simp only [strsS, widthOf_append, List.length_append]; omega
  | .assignMem t m r ex, pc, si, asm, h => by
    obtain ⟨a, h1, h⟩ := bind_ok.1 h
    obtain ⟨d, h3, h⟩ := bind_ok.1 h
    cases h
    have := asmE_size ex _ a h1
    simp only [strsS, widthOf_append, List.length_append, width_one1, List.length_singleton]; omega
  | .call t c as, pc, si, asm, h => by
    obtain ⟨a, h1, h⟩ := bind_ok.1 h
    obtain ⟨b, h2, h⟩ := bind_ok.1 h
    cases h
    have := asmEs_size as _ a h1
    have := asmInvoke_size t c as.length _ b (fun b hb => asmE_size c _ b hb) h2
    simp only [strsS, widthOf_append, List.length_append]; omega
  | .ifS t c thn false els, pc, si, asm, h => by
    obtain ⟨a, h1, h⟩ := bind_ok.1 h
    obtain ⟨b, h2, h⟩ := bind_ok.1 h
    cases h
    have := asmE_size c _ a h1
    have := asmB_size thn _ _ b h2
    simp only [strsS, widthOf_append, List.length_append, Bool.false_eq_true, if_false, List.length_nil]
    omega
  | .ifS t c thn true els, pc, si, asm, h => by
    obtain ⟨a, h1, h⟩ := bind_ok.1 h
    obtain ⟨b, h2, h⟩ := bind_ok.1 h
    obtain ⟨d, h3, h⟩ := bind_ok.1 h
    cases h
    have := asmE_size c _ a h1
    have := asmB_size thn _ _ b h2
    have := asmB_size els _ _ d h3
    simp only [strsS, widthOf_append, List.length_append, if_true]
    omega
  | .whileS t c body, pc, si, asm, h => by
    obtain ⟨b, h2, h⟩ := bind_ok.1 h
    obtain ⟨a, h1, h⟩ := bind_ok.1 h
    cases h
    have := asmE_size c _ a h1
    have := asmB_size body _ _ b h2
    simp only [strsS, widthOf_append, List.length_append]
    omega
  | .forS t nm r st sp body, pc, si, asm, h => by
    obtain ⟨a, h1, h⟩ := bind_ok.1 h
    obtain ⟨s0, h2, h⟩ := bind_ok.1 h
    obtain ⟨b, h3, h⟩ := bind_ok.1 h
    obtain ⟨gt, h4, h⟩ := bind_ok.1 h
    obtain ⟨s1, h5, h⟩ := bind_ok.1 h
    obtain ⟨z, h6, h⟩ := bind_ok.1 h
    cases h
    have := asmE_size st _ a h1
    have := asmE_size sp _ z h6
    have := asmB_size body _ _ b h3
    simp only [strsS, widthOf_append, List.length_append]
    omega
  | .ret t none, pc, si, asm, h => by cases h; simp [strsS]
  | .ret t (some ex), pc, si, asm, h => by
    obtain ⟨a, h1, h⟩ := bind_ok.1 h
    cases h
    have := asmE_size ex _ a h1
    simp only [strsS, widthOf_append]; omega

theorem asmB_size {g : GenCtx} {sys : List Syscall} : ∀ (ss : List (Stmt Ref)) (pc si : Nat) (asm : Asm),
    asmB g sys pc si ss = .ok asm → (strsB ss).length ≤ widthOf asm
  | [], pc, si, asm, h => by cases h; simp [strsB]
  | st :: ss, pc, si, asm, h => by
    obtain ⟨a, h1, h⟩ := bind_ok.1 h
    obtain ⟨b, h2, h⟩ := bind_ok.1 h
    cases h
    have := asmS_size st _ _ a h1
    have := asmB_size ss _ _ b h2
    simp only [strsB, widthOf_append, List.length_append]; omega

end

theorem asmB_ret_pos {g : GenCtx} {sys : List Syscall} : ∀ (ss : List (Stmt Ref)) (pc si : Nat) (asm : Asm),
    asmB g sys pc si ss = .ok asm → (ss.getLast?.map Stmt.isRet).getD false = true → 5 ≤ widthOf asm
  | [], _, _, _, _, h => by cases h
  | [st], pc, si, asm, h, hr => by
    have hr : st.isRet = true := hr
    obtain ⟨a, h1, h⟩ := bind_ok.1 h
    obtain ⟨b, h2, h⟩ := bind_ok.1 h
    cases h
    cases st with
    | ret t ex =>
      cases ex with
      | none => cases h1; simp only [widthOf_append, width_one1]; omega
      | some ex =>
        obtain ⟨a', h3, h1⟩ := bind_ok.1 h1
        cases h1
        simp only [widthOf_append, width_one1]; omega
    | _ => cases hr
  | st :: s2 :: ss, pc, si, asm, h, hr => by
    obtain ⟨a, h1, h⟩ := bind_ok.1 h
    obtain ⟨b, h2, h⟩ := bind_ok.1 h
    cases h
    have := asmB_ret_pos (s2 :: ss) _ _ b h2 (by simpa using hr)
    simp only [widthOf_append]; omega

theorem asmFunc_size {p : Prog Ref} {sys : List Syscall} {pc si : Nat} {f : FuncDecl Ref} {asm : Asm}
    (h : asmFunc p sys pc si f = .ok asm) : (strsB f.body).length ≤ widthOf asm ∧ 5 ≤ widthOf asm := by
  obtain ⟨b, h1, h⟩ := bind_ok.1 h
  cases h
  have h2 := asmB_size f.body _ _ b h1
  refine ⟨by simp only [widthOf_append]; omega, ?_⟩
  by_cases hr : (f.body.getLast?.map Stmt.isRet).getD false = true
  · have := asmB_ret_pos f.body _ _ b h1 hr
    simp only [widthOf_append]; omega
  · rw [asmEnd, if_neg hr]
    simp only [widthOf_append, width_one1]; omega

/-! ### Segments follow one another -/

/-- Each segment starts where the one before ends. -/
def Chain : Nat → Nat → List Seg → Prop
  | _, _, [] => True
  | pc, si, s :: ss => s.pc = pc ∧ s.si = si ∧ (s.strs.length ≤ widthOf s.asm ∧ 5 ≤ widthOf s.asm) ∧
      Chain (pc + widthOf s.asm) (si + s.strs.length) ss

theorem chain_append {s : Seg} : ∀ {l : List Seg} {pc si : Nat}, Chain pc si l →
    s.pc = pc + widthOf (segsAsm l) → s.si = si + (segsStrs l).length → s.strs.length ≤ widthOf s.asm →
    5 ≤ widthOf s.asm → Chain pc si (l ++ [s])
  | [], pc, si, _, h1, h2, h3, h4 => ⟨by simpa [segsAsm, widthOf] using h1, by simpa [segsStrs] using h2,
      ⟨h3, h4⟩, trivial⟩
  | x :: l, pc, si, ⟨a, b, c, d⟩, h1, h2, h3, h4 => by
    refine ⟨a, b, c, chain_append d ?_ ?_ h3 h4⟩
    · rw [h1]
      show _ = _
      rw [show segsAsm (x :: l) = x.asm ++ segsAsm l from rfl, widthOf_append]
      omega
    · rw [h2, show segsStrs (x :: l) = x.strs ++ segsStrs l from rfl, List.length_append]
      omega

theorem segsOf_chain {p : Prog Ref} {sys : List Syscall} : ∀ {xs : List (Item Ref)} {pc si segs},
    segsOf p sys pc si xs = .ok segs → Chain pc si segs
  | [], pc, si, segs, h => by simp only [segsOf] at h; cases h; trivial
  | .func f :: xs, pc, si, segs, h => by
    simp only [segsOf] at h
    obtain ⟨a, ha, h⟩ := bind_ok.1 h
    obtain ⟨r, hr, h⟩ := bind_ok.1 h
    cases h
    exact ⟨rfl, rfl, asmFunc_size ha, segsOf_chain hr⟩
  | .var .. :: xs, pc, si, segs, h => by
    simp only [segsOf] at h
    exact segsOf_chain h
  | .syscall .. :: xs, pc, si, segs, h => by
    simp only [segsOf] at h
    exact segsOf_chain h

theorem asmInit_size {p : Prog Ref} {sys : List Syscall} {pc si : Nat} {asm : Asm}
    (h : asmInit p sys pc si = .ok asm) :
    (strsB (initBody p)).length ≤ widthOf asm ∧ 5 ≤ widthOf asm := by
  obtain ⟨b, h1, h⟩ := bind_ok.1 h
  cases h
  have h2 := asmB_size _ _ _ b h1
  simp only [widthOf_append, width_one1]
  omega

theorem Chain.ge : ∀ {l : List Seg} {pc si : Nat}, Chain pc si l → ∀ s ∈ l, pc ≤ s.pc
  | [], _, _, _, s, hs => by cases hs
  | x :: l, pc, si, ⟨a, b, c, d⟩, s, hs => by
    rcases List.mem_cons.1 hs with rfl | hs
    · omega
    · have := d.ge s hs; omega

/-- No position belongs to two segments. -/
theorem Chain.unique : ∀ {l : List Seg} {pc si x : Nat}, Chain pc si l → ∀ s ∈ l, ∀ s' ∈ l,
    s.pc ≤ x → x < s.stop → s'.pc ≤ x → x < s'.stop → s = s'
  | [], _, _, _, _, s, hs, _, _, _, _, _, _ => by cases hs
  | y :: l, pc, si, x, ⟨a, b, c, d⟩, s, hs, s', hs', h1, h2, h3, h4 => by
    unfold Seg.stop at h2 h4
    rcases List.mem_cons.1 hs with k | k <;> rcases List.mem_cons.1 hs' with k' | k'
    · rw [k, k']
    · have := d.ge s' k'; rw [k] at h1 h2; omega
    · have := d.ge s k; rw [k'] at h3 h4; omega
    · exact d.unique s k s' k' h1 h2 h3 h4

theorem Chain.codeAt {e : Env Val Store} {fa : Str → I32} : ∀ {l : List Seg} {pc si : Nat} {pre : List Byte},
    Chain pc si l → e.prog.code = pre ++ bytesOf fa (segsAsm l) → pre.length = pc →
    ∀ s ∈ l, CodeAt e fa s.pc s.asm
  | [], _, _, _, _, _, _, s, hs => by cases hs
  | y :: l, pc, si, pre, ⟨a, b, c, d⟩, h, hp, s, hs => by
    rw [show segsAsm (y :: l) = y.asm ++ segsAsm l from rfl, bytesOf_append] at h
    rcases List.mem_cons.1 hs with rfl | hs
    · exact ⟨pre, _, h, by omega⟩
    · exact d.codeAt (pre := pre ++ bytesOf fa y.asm) (by rw [h, List.append_assoc])
        (by rw [List.length_append, bytesOf_length, hp]) s hs

theorem Chain.strAt {e : Env Val Store} : ∀ {l : List Seg} {pc si : Nat} {pre : List Str},
    Chain pc si l → e.prog.strings = pre ++ segsStrs l → pre.length = si →
    ∀ s ∈ l, StrAt e s.si s.strs
  | [], _, _, _, _, _, _, s, hs => by cases hs
  | y :: l, pc, si, pre, ⟨a, b, c, d⟩, h, hp, s, hs => by
    rw [show segsStrs (y :: l) = y.strs ++ segsStrs l from rfl] at h
    rcases List.mem_cons.1 hs with rfl | hs
    · exact ⟨pre, _, h, by omega⟩
    · exact d.strAt (pre := pre ++ y.strs) (by rw [h, List.append_assoc])
        (by rw [List.length_append, hp]) s hs

theorem Chain.strs_le : ∀ {l : List Seg} {pc si : Nat}, Chain pc si l →
    (segsStrs l).length ≤ widthOf (segsAsm l)
  | [], _, _, _ => by simp [segsStrs]
  | y :: l, pc, si, ⟨a, b, c, d⟩ => by
    have := d.strs_le
    rw [show segsStrs (y :: l) = y.strs ++ segsStrs l from rfl,
      show segsAsm (y :: l) = y.asm ++ segsAsm l from rfl, List.length_append, widthOf_append]
    omega

theorem Chain.pos : ∀ {l : List Seg} {pc si : Nat}, Chain pc si l → ∀ s ∈ l, 5 ≤ widthOf s.asm
  | [], _, _, _, s, hs => by cases hs
  | y :: l, pc, si, ⟨a, b, c, d⟩, s, hs => by
    rcases List.mem_cons.1 hs with rfl | hs
    · exact c.2
    · exact d.pos s hs

/-! ### The segments of the functions -/

theorem segsOf_mem {p : Prog Ref} {sys : List Syscall} {f : FuncDecl Ref} :
    ∀ {xs : List (Item Ref)} {pc si segs}, segsOf p sys pc si xs = .ok segs → .func f ∈ xs →
      ∃ s ∈ segs, s.name = f.name.str ∧ s.strs = strsB f.body ∧ asmFunc p sys s.pc s.si f = .ok s.asm
  | [], pc, si, segs, h, hm => by cases hm
  | .func f' :: xs, pc, si, segs, h, hm => by
    simp only [segsOf] at h
    obtain ⟨a, ha, h⟩ := bind_ok.1 h
    obtain ⟨r, hr, h⟩ := bind_ok.1 h
    cases h
    rcases List.mem_cons.1 hm with hm | hm
    · cases hm
      exact ⟨_, List.mem_cons_self, rfl, rfl, ha⟩
    · obtain ⟨s, h1, h2⟩ := segsOf_mem hr hm
      exact ⟨s, List.mem_cons_of_mem _ h1, h2⟩
  | .var .. :: xs, pc, si, segs, h, hm => by
    simp only [segsOf] at h
    rcases List.mem_cons.1 hm with hm | hm
    · cases hm
    · exact segsOf_mem h hm
  | .syscall .. :: xs, pc, si, segs, h, hm => by
    simp only [segsOf] at h
    rcases List.mem_cons.1 hm with hm | hm
    · cases hm
    · exact segsOf_mem h hm

theorem identsOf_length : ∀ {l : List (Token × I32)} {r}, identsOf l = .ok r → r.length = l.length
  | [], r, h => by cases h; rfl
  | (t, o) :: l, r, h => by
    obtain ⟨n, h1, h⟩ := bind_ok.1 h
    obtain ⟨is, h2, h⟩ := bind_ok.1 h
    cases h
    simp [identsOf_length h2]

theorem entriesOf_mem {f : FuncDecl Ref} : ∀ {xs : List (Item Ref)} {fs}, entriesOf xs = .ok fs →
    .func f ∈ xs → ∃ E ∈ fs, E.name = f.name.str ∧ E.args.length = f.args.length
  | [], fs, h, hm => by cases hm
  | .func f' :: xs, fs, h, hm => by
    simp only [entriesOf] at h
    obtain ⟨a, ha, h⟩ := bind_ok.1 h
    obtain ⟨r, hr, h⟩ := bind_ok.1 h
    cases h
    rcases List.mem_cons.1 hm with hm | hm
    · cases hm
      refine ⟨a, List.mem_cons_self, (funcEntry_name ha).1, ?_⟩
      obtain ⟨l1, h1, ha⟩ := bind_ok.1 ha
      obtain ⟨l2, h2, ha⟩ := bind_ok.1 ha
      cases ha
      have := identsOf_length h1
      simpa using this
    · obtain ⟨E, h1, h2⟩ := entriesOf_mem hr hm
      exact ⟨E, List.mem_cons_of_mem _ h1, h2⟩
  | .var .. :: xs, fs, h, hm => by
    simp only [entriesOf] at h
    rcases List.mem_cons.1 hm with hm | hm
    · cases hm
    · exact entriesOf_mem h hm
  | .syscall .. :: xs, fs, h, hm => by
    simp only [entriesOf] at h
    rcases List.mem_cons.1 hm with hm | hm
    · cases hm
    · exact entriesOf_mem h hm

theorem funcNames_index {D : Type} : ∀ {p : List (Item D)} {i j : Nat} {f f' : FuncDecl D}, (funcNames p).Nodup →
    p[i]? = some (.func f) → p[j]? = some (.func f') → f.name.str = f'.name.str → i = j := by
  have mem : ∀ {p : List (Item D)} {i : Nat} {f : FuncDecl D}, p[i]? = some (.func f) →
      f.name.str ∈ funcNames p := by
    intro p
    induction p with
    | nil => intro i f h; simp at h
    | cons x p ih =>
      intro i f h
      cases i with
      | zero =>
        simp only [List.getElem?_cons_zero, Option.some.injEq] at h
        subst h
        simp [funcNames]
      | succ i =>
        rw [List.getElem?_cons_succ] at h
        have := ih h
        cases x <;> simp [funcNames, this]
  intro p
  induction p with
  | nil => intro i j f f' _ h; simp at h
  | cons x p ih =>
    intro i j f f' hn h1 h2 he
    have hn' : (funcNames p).Nodup := by
      cases x with
      | func g => simp only [funcNames, List.nodup_cons] at hn; exact hn.2
      | _ => exact hn
    cases i with
    | zero =>
      cases j with
      | zero => rfl
      | succ j =>
        simp only [List.getElem?_cons_zero, Option.some.injEq] at h1
        subst h1
        simp only [funcNames, List.nodup_cons] at hn
        rw [List.getElem?_cons_succ] at h2
        exact absurd (he ▸ mem h2) hn.1
    | succ i =>
      cases j with
      | zero =>
        simp only [List.getElem?_cons_zero, Option.some.injEq] at h2
        subst h2
        simp only [funcNames, List.nodup_cons] at hn
        rw [List.getElem?_cons_succ] at h1
        exact absurd (he ▸ mem h1) hn.1
      | succ j =>
        rw [List.getElem?_cons_succ] at h1 h2
        rw [ih hn' h1 h2 he]

/-! ### A generated program is loaded -/

section
variable {p : Prog Ref} {prog : Program} {segs : List Seg} {es : List Function}

/-- The map from names to addresses. -/
def addrMap (segs : List Seg) : Str → I32 := mapGet (segs.map fun s => (s.name, i32 s.pc)).reverse

theorem Generated.chain (G : Generated p prog segs es) : Chain 0 0 segs := by
  obtain ⟨l, a, i, h1, h2, rfl, rfl⟩ := G.funcs
  exact chain_append (segsOf_chain h1) (by simp) (by simp) (asmInit_size h2).1 (asmInit_size h2).2

theorem Generated.codeLength (G : Generated p prog segs es) :
    4 < prog.code.length ∧ prog.code.length < 2147483648 := by
  obtain ⟨l, a, i, h1, h2, h3, h4⟩ := G.funcs
  have hw : prog.code.length = i.stop := by
    rw [G.code, bytesOf_length, h4, segsAsm_append, widthOf_append, h3]
    simp [segsAsm, Seg.stop]
  have h5 := G.small i (by rw [h4]; simp)
  have h6 : 5 ≤ widthOf i.asm := G.chain.pos i (by rw [h4]; simp)
  rw [hw]
  refine ⟨?_, h5⟩
  unfold Seg.stop
  omega

theorem Generated.esNames (G : Generated p prog segs es) : es.map Function.name = segs.map Seg.name := by
  obtain ⟨l, a, i, h1, h2, h3, h4⟩ := G.funcs
  obtain ⟨fs, h5, h6⟩ := G.table
  rw [h6, h4, List.map_append, List.map_append, entriesOf_names h5, segsOf_names h1, h3]
  rfl

theorem mapGet_reverse : ∀ {l : List Seg} {s : Seg}, (l.map Seg.name).Nodup → s ∈ l →
    addrMap l s.name = i32 s.pc := by
  intro l s hn hs
  unfold addrMap mapGet
  have hx : (l.map fun s => (s.name, i32 s.pc)).reverse.find? (fun e => e.1 == s.name) =
      some (s.name, i32 s.pc) := by
    rw [← List.map_reverse]
    have hs' : s ∈ l.reverse := List.mem_reverse.2 hs
    have hn' : (l.reverse.map Seg.name).Nodup := by
      rw [List.map_reverse]; exact List.pairwise_reverse.2 (hn.imp Ne.symm)
    generalize l.reverse = l at hs' hn'
    induction l with
    | nil => cases hs'
    | cons y l ih =>
      rw [List.map_cons, List.nodup_cons] at hn'
      rw [List.map_cons, List.find?_cons]
      rcases List.mem_cons.1 hs' with rfl | hs'
      · simp
      · have : (y.name == s.name) = false := by
          rw [beq_eq_false_iff_ne]
          intro heq
          exact hn'.1 (heq ▸ List.mem_map_of_mem hs')
        rw [this]
        exact ih hs' hn'.2
  rw [hx]

theorem place_eq : ∀ {l : List Seg} {s : Seg} {F : Function}, (l.map Seg.name).Nodup → s ∈ l →
    s.name = F.name → place l F = { F with codeStart := i32 s.pc, codeEnd := i32 s.stop } := by
  intro l s F hn hs he
  unfold place
  have : l.find? (fun s => s.name == F.name) = some s := by
    induction l with
    | nil => cases hs
    | cons y l ih =>
      rw [List.map_cons, List.nodup_cons] at hn
      rw [List.find?_cons]
      rcases List.mem_cons.1 hs with rfl | hs
      · simp [he]
      · have : (y.name == F.name) = false := by
          rw [beq_eq_false_iff_ne]
          intro heq
          exact hn.1 (heq ▸ he ▸ List.mem_map_of_mem hs)
        rw [this]
        exact ih hn.2 hs
  rw [this]

/-- Every entry of the function table belongs to a segment. -/
theorem Generated.entry (G : Generated p prog segs es) {F : Function} (hF : F ∈ prog.functions) :
    ∃ s ∈ segs, F.name = s.name ∧ F.codeStart = i32 s.pc ∧ F.codeEnd = i32 s.stop := by
  rw [G.functions] at hF
  obtain ⟨E, hE, rfl⟩ := List.mem_map.1 hF
  have : E.name ∈ segs.map Seg.name := by rw [← G.esNames]; exact List.mem_map_of_mem hE
  obtain ⟨s, hs, hn⟩ := List.mem_map.1 this
  refine ⟨s, hs, ?_⟩
  rw [place_eq G.names hs hn]
  exact ⟨hn.symm, rfl, rfl⟩

theorem name_unique {l : List Seg} (hn : (l.map Seg.name).Nodup) {s s' : Seg} (hs : s ∈ l) (hs' : s' ∈ l)
    (h : s.name = s'.name) : s = s' := by
  induction l with
  | nil => cases hs
  | cons y l ih =>
    rw [List.map_cons, List.nodup_cons] at hn
    rcases List.mem_cons.1 hs with k | k <;> rcases List.mem_cons.1 hs' with k' | k'
    · rw [k, k']
    · exact absurd (k ▸ h ▸ List.mem_map_of_mem k') hn.1
    · exact absurd (k' ▸ h ▸ List.mem_map_of_mem k) hn.1
    · exact ih hn.2 k k'

theorem fname_unique {l : List Function} (hn : (l.map Function.name).Nodup) {s s' : Function} (hs : s ∈ l)
    (hs' : s' ∈ l) (h : s.name = s'.name) : s = s' := by
  induction l with
  | nil => cases hs
  | cons y l ih =>
    rw [List.map_cons, List.nodup_cons] at hn
    rcases List.mem_cons.1 hs with k | k <;> rcases List.mem_cons.1 hs' with k' | k'
    · rw [k, k']
    · exact absurd (k ▸ h ▸ List.mem_map_of_mem k') hn.1
    · exact absurd (k' ▸ h ▸ List.mem_map_of_mem k) hn.1
    · exact ih hn.2 k k'

theorem find?_unique {α : Type} {q : α → Bool} {x : α} : ∀ {l : List α}, x ∈ l → q x = true →
    (∀ y ∈ l, q y = true → y = x) → l.find? q = some x
  | [], h, _, _ => by cases h
  | y :: l, h, hx, hu => by
    rw [List.find?_cons]
    cases hy : q y with
    | true => simp [hu y List.mem_cons_self hy]
    | false =>
      rcases List.mem_cons.1 h with rfl | h
      · rw [hx] at hy; cases hy
      · exact find?_unique h hx fun z hz => hu z (List.mem_cons_of_mem _ hz)

theorem Generated.fnames (G : Generated p prog segs es) :
    prog.functions.map Function.name = segs.map Seg.name := by
  rw [G.functions, ← G.esNames, List.map_map]
  apply List.map_congr_left
  intro f _
  simp only [Function.comp, place]
  split <;> rfl

/-- The function found for an address inside a segment. -/
theorem Generated.findByPc (G : Generated p prog segs es) {s : Seg} (hs : s ∈ segs) {F : Function}
    (hF : F ∈ prog.functions) (hn : F.name = s.name) {x : Nat} (h1 : s.pc ≤ x) (h2 : x < s.stop) :
    prog.findByPc (i32 x) = some F := by
  have hx : x < 2147483648 := by have := G.small s hs; omega
  have inside : ∀ s' ∈ segs, ∀ F' : Function, F'.codeStart = i32 s'.pc → F'.codeEnd = i32 s'.stop →
      (decide (F'.codeStart.toInt ≤ (i32 x).toInt ∧ (i32 x).toInt < F'.codeEnd.toInt) = true ↔
        s'.pc ≤ x ∧ x < s'.stop) := by
    intro s' hs' F' h3 h4
    have h5 := G.small s' hs'
    have h6 : s'.pc ≤ s'.stop := by unfold Seg.stop; omega
    rw [decide_eq_true_iff, h3, h4, toInt_i32 hx, toInt_i32 (by omega), toInt_i32 h5]
    omega
  have own : ∀ F' ∈ prog.functions, F'.name = s.name → F'.codeStart = i32 s.pc ∧ F'.codeEnd = i32 s.stop := by
    intro F' hF' hn'
    obtain ⟨s', k1, k2, k3, k4⟩ := G.entry hF'
    have := name_unique G.names k1 hs (by rw [← k2, hn'])
    subst this
    exact ⟨k3, k4⟩
  unfold Program.findByPc
  refine find?_unique hF ?_ ?_
  · obtain ⟨k1, k2⟩ := own F hF hn
    exact (inside s hs F k1 k2).2 ⟨h1, h2⟩
  · intro F' hF' hq
    obtain ⟨s', k1, k2, k3, k4⟩ := G.entry hF'
    have h3 := (inside s' k1 F' k3 k4).1 hq
    have := G.chain.unique s hs s' k1 h1 h2 h3.1 h3.2
    subst this
    refine fname_unique (by rw [G.fnames]; exact G.names) hF' hF (by rw [k2, hn])

/-- The function values are the addresses of the function table. -/
def Addresses (prog : Program) (cx : Sem.Ctx) : Prop :=
  ∀ i f, cx.prog[i]? = some (.func f) →
    ∃ F ∈ prog.functions, F.name = f.name.str ∧ F.codeStart = cx.funAddr i

/-- What the theorems assume of the machine, the program and the limits. -/
structure Setting (e : Env Val Store) (cx : Sem.Ctx) (prog : Program) (zi : Nat → Ref → Bool) : Prop where
  program : e.prog = { prog with syscalls := cx.table }
  names : cx.table.map Syscall.name = prog.syscalls.map Syscall.name
  mem : e.mem = Mem.abs
  fl : e.fl = cx.fl
  handlers : e.handlers = {}
  host : HostOk e cx.host
  addr : Addresses prog cx
  tableSmall : cx.table.length < 2147483648
  slots : cx.slot cx.prog.length < 2147483648
  locals : ∀ (i : Nat) f, cx.prog[i]? = some (.func f) →
    f.args.length + stackSize (funcLocals f.body) < 2147483648
  nodup : ∀ (i : Nat) f, cx.prog[i]? = some (.func f) → ((funcLocals f.body).map LocalVar.ref).Nodup
  own : ∀ (i : Nat) f, cx.prog[i]? = some (.func f) → OwnSlot f (zi i)

theorem sysIndex_names {a b : List Syscall} (h : a.map Syscall.name = b.map Syscall.name) (n : Str) :
    sysIndex a n = sysIndex b n := by
  unfold sysIndex
  have : ∀ l : List Syscall, l.findIdx? (fun s => s.name == n) =
      (l.map Syscall.name).findIdx? (fun s => s == n) := by
    intro l
    rw [List.findIdx?_map]
    rfl
  rw [this, this, h]

theorem Generated.loaded (G : Generated p prog segs es) {e : Env Val Store} {cx : Sem.Ctx}
    {zi : Nat → Ref → Bool} (hp : cx.prog = p) (hn : (funcNames p).Nodup) (S : Setting e cx prog zi) :
    Loaded e cx (addrMap segs) prog.syscalls zi := by
  have hcode : e.prog.code = prog.code := by rw [S.program]
  have hstr : e.prog.strings = prog.strings := by rw [S.program]
  have hfun : ∀ x, e.prog.findByPc x = prog.findByPc x := by intro x; rw [S.program]; rfl
  have hmach : Mach e cx := ⟨S.mem, S.fl, S.handlers, by rw [S.program], S.host,
    by rw [hcode]; exact G.codeLength.1, by rw [hcode]; exact G.codeLength.2⟩
  have seg : ∀ i f, cx.prog[i]? = some (.func f) → ∃ s ∈ segs, s.name = f.name.str ∧
      s.strs = strsB f.body ∧ asmFunc p prog.syscalls s.pc s.si f = .ok s.asm ∧
      cx.funAddr i = i32 s.pc := by
    intro i f hi
    obtain ⟨l, a, ini, h1, h2, h3, h4⟩ := G.funcs
    rw [hp] at hi
    obtain ⟨s, k1, k2, k3, k4⟩ := segsOf_mem h1 (List.mem_of_getElem? hi)
    have hs : s ∈ segs := by rw [h4]; exact List.mem_append_left _ k1
    refine ⟨s, hs, k2, k3, k4, ?_⟩
    obtain ⟨F, j1, j2, j3⟩ := S.addr i f (by rw [hp]; exact hi)
    obtain ⟨s', j4, j5, j6, -⟩ := G.entry j1
    have := name_unique G.names hs j4 (by rw [k2, ← j2, j5])
    subst this
    rw [← j3, j6]
  have addrSmall : ∀ s ∈ segs, s.pc < 2147483648 := by
    intro s hs
    have := G.small s hs
    unfold Seg.stop at this
    omega
  refine ⟨⟨hmach, fun n => (sysIndex_names S.names n).symm, S.tableSmall, S.slots, ?_, ?_⟩, ?_, S.own⟩
  · rw [hstr, G.strings]
    have h1 := G.chain.strs_le
    have h2 := G.codeLength.2
    rw [G.code, bytesOf_length] at h2
    omega
  · intro i f hi
    obtain ⟨s, hs, k1, k2, k3, k4⟩ := seg i f hi
    have hsp := addrSmall s hs
    refine ⟨by rw [← k1, mapGet_reverse G.names hs, k4], by rw [k4, toInt_i32 hsp]; omega, ?_, ?_⟩
    · have hlt := (List.getElem?_eq_some_iff.1 hi).1
      refine find?_unique (List.mem_range.2 hlt) (by simp [hi]) ?_
      intro j hj hq
      split at hq
      · rename_i f' hj'
        rw [beq_iff_eq] at hq
        obtain ⟨s', hs', k1', k2', k3', k4'⟩ := seg j f' hj'
        have hsp' := addrSmall s' hs'
        have hpc : s'.pc = s.pc := by
          have := congrArg BitVec.toInt (k4'.symm.trans (hq.trans k4))
          rw [toInt_i32 hsp, toInt_i32 hsp'] at this
          omega
        have w := G.chain.pos s hs
        have w' := G.chain.pos s' hs'
        have := G.chain.unique s hs s' hs' (x := s.pc) (Nat.le_refl _) (by unfold Seg.stop; omega)
          (by omega) (by unfold Seg.stop; omega)
        subst this
        rw [hp] at hi hj'
        exact funcNames_index hn hj' hi (k1'.symm.trans k1)
      · cases hq
    · obtain ⟨fs, h5, h6⟩ := G.table
      obtain ⟨E, hE, hE1, hE2⟩ := entriesOf_mem h5 (List.mem_of_getElem? (hp ▸ hi))
      have hF : place segs E ∈ prog.functions := by
        rw [G.functions, h6]
        exact List.mem_map_of_mem (List.mem_append_left _ hE)
      have hpl := place_eq G.names hs (F := E) (by rw [k1, hE1])
      refine ⟨place segs E, ?_, ?_⟩
      · rw [hfun, k4]
        refine G.findByPc hs hF (by rw [hpl]; exact hE1.trans k1.symm) (Nat.le_refl _) ?_
        have := G.chain.pos s hs
        unfold Seg.stop; omega
      · rw [hpl]; exact hE2
  · intro i f hi
    obtain ⟨s, hs, k1, k2, k3, k4⟩ := seg i f hi
    have hsp := addrSmall s hs
    refine ⟨⟨s.si, s.asm, ?_, ?_, ?_⟩, S.nodup i f hi, S.locals i f hi⟩
    · rw [k4, toInt_i32 hsp, Int.toNat_natCast, hp]; exact k3
    · rw [k4, toInt_i32 hsp, Int.toNat_natCast]
      exact G.chain.codeAt (pre := []) (by rw [hcode, G.code]; rfl) rfl s hs
    · rw [← k2]
      exact G.chain.strAt (pre := []) (by rw [hstr, G.strings]; rfl) rfl s hs

/-- `@init` is found under its name. -/
theorem Generated.init (G : Generated p prog segs es) {e : Env Val Store} {cx : Sem.Ctx}
    {zi : Nat → Ref → Bool} (hp : cx.prog = p) (S : Setting e cx prog zi) :
    ∃ F ∈ prog.functions, F.name = initName ∧ 0 ≤ F.codeStart.toInt ∧
      PlacedInit e cx (addrMap segs) prog.syscalls F.codeStart.toInt.toNat := by
  have hcode : e.prog.code = prog.code := by rw [S.program]
  have hstr : e.prog.strings = prog.strings := by rw [S.program]
  obtain ⟨l, a, i, h1, h2, h3, h4⟩ := G.funcs
  have hs : i ∈ segs := by rw [h4]; simp
  have hsp : i.pc < 2147483648 := by
    have := G.small i hs
    unfold Seg.stop at this
    omega
  obtain ⟨fs, h5, h6⟩ := G.table
  have hF : place segs ⟨initName, 0, 0, [], []⟩ ∈ prog.functions := by
    rw [G.functions, h6]
    exact List.mem_map_of_mem (List.mem_append_right _ (List.mem_singleton.2 rfl))
  have hpl := place_eq G.names hs (F := ⟨initName, 0, 0, [], []⟩) (by rw [h3])
  refine ⟨_, hF, by rw [hpl], by rw [hpl]; simp only; rw [toInt_i32 hsp]; omega, ?_⟩
  rw [hpl]
  simp only
  rw [toInt_i32 hsp, Int.toNat_natCast]
  refine ⟨i.si, i.asm, ?_, G.chain.codeAt (pre := []) (by rw [hcode, G.code]; rfl) rfl i hs, ?_⟩
  · rw [hp, h3]; exact h2
  · have := G.chain.strAt (e := e) (pre := []) (by rw [hstr, G.strings]; rfl) rfl i hs
    rw [h3] at this ⊢
    rw [hp]
    exact this

end

end Ccml
