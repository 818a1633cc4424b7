import Verif.SrcConst
import Verif.Whole
/-!
Conditions on the source under which the limits of the 32-bit counters are kept (`Fits`) and the
optimiser changes nothing (`Unshared`), and the match between a source program and its annotated tree.
-/
set_option linter.unusedSimpArgs false
namespace Ccml.Src
open Sem (State Res CallF Vars Slot)
open Props (Names nameE nameEs nameO nameS nameB nameItem nameItems globalNames argNames isVarOf dropNone
  withConsts standIn resolve isOp InitStep ProgStep ElseApart runSema_steps zeroCond zeroIfsS zeroIfsB zeroIfsP
  Unshared)

/-! ### Sizes -/

mutual
/-- The number of variables declared in a statement. -/
def varsS {D : Type} : Stmt D → Nat
  | .var .. => 1
  | .ifS _ _ thn _ els => varsB thn + varsB els
  | .whileS _ _ body => varsB body
  | .forS _ _ _ _ _ body => varsB body
  | _ => 0
/-- The number of variables declared in a block. -/
def varsB {D : Type} : List (Stmt D) → Nat
  | [] => 0
  | s :: ss => varsS s + varsB ss
end

/-- No more than 2³¹ - 1 declarations, and no more arguments and local variables in a function. -/
def Small (p : Prog Unit) : Prop :=
  p.length < 2147483648 ∧ ∀ f, Item.func f ∈ p → f.args.length + varsB f.body < 2147483648

mutual
theorem declsS_length : ∀ s : Stmt Ref, (declsS s).length = varsS s
  | .var .. => rfl
  | .assign .. => rfl
  | .assignArr .. => rfl
  | .assignMem .. => rfl
  | .call .. => rfl
  | .ret .. => rfl
  | .ifS _ _ thn _ els => by simp only [declsS, varsS, List.length_append, declsB_length thn, declsB_length els]
  | .whileS _ _ body => by simp only [declsS, varsS, declsB_length body]
  | .forS _ _ _ _ _ body => by simp only [declsS, varsS, declsB_length body]
theorem declsB_length : ∀ ss : List (Stmt Ref), (declsB ss).length = varsB ss
  | [] => rfl
  | s :: ss => by simp only [declsB, varsB, List.length_append, declsS_length s, declsB_length ss]
end

mutual
theorem offS_small : ∀ (s : Stmt Ref) (cur : Nat), (offS cur s).2 ≤ cur + varsS s ∧
    ∀ l ∈ (offS cur s).1, l.off < cur + varsS s
  | .var .., cur => by simp [offS, varsS]
  | .assign .., cur => by simp [offS, varsS]
  | .assignArr .., cur => by simp [offS, varsS]
  | .assignMem .., cur => by simp [offS, varsS]
  | .call .., cur => by simp [offS, varsS]
  | .ret .., cur => by simp [offS, varsS]
  | .ifS _ _ thn _ els, cur => by
    simp only [offS, varsS, List.mem_append]
    refine ⟨by omega, fun l hl => ?_⟩
    rcases hl with hl | hl
    · have := (offB_small thn cur).2 l hl; omega
    · have := (offB_small els cur).2 l hl; omega
  | .whileS _ _ body, cur => by
    simp only [offS, varsS]
    exact ⟨by omega, (offB_small body cur).2⟩
  | .forS _ _ _ _ _ body, cur => by
    simp only [offS, varsS]
    exact ⟨by omega, (offB_small body cur).2⟩
theorem offB_small : ∀ (ss : List (Stmt Ref)) (cur : Nat), (offB cur ss).2 ≤ cur + varsB ss ∧
    ∀ l ∈ (offB cur ss).1, l.off < cur + varsB ss
  | [], cur => by simp [offB, varsB]
  | s :: ss, cur => by
    have h1 := offS_small s cur
    have h2 := offB_small ss (offS cur s).2
    simp only [offB, varsB, List.mem_append]
    refine ⟨by omega, fun l hl => ?_⟩
    rcases hl with hl | hl
    · have := h1.2 l hl; omega
    · have := h2.2 l hl; omega
end

theorem stackSize_le {n : Nat} : ∀ (ls : List LocalVar) (m : Nat), m ≤ n → (∀ l ∈ ls, l.off < n) →
    ls.foldl (fun n l => max n (l.off + 1)) m ≤ n
  | [], m, h, _ => h
  | l :: ls, m, h, hl => by
    rw [List.foldl_cons]
    refine stackSize_le ls _ ?_ fun x hx => hl x (List.mem_cons_of_mem _ hx)
    have := hl l (List.mem_cons_self ..)
    omega

theorem funcLocals_small (body : List (Stmt Ref)) : stackSize (funcLocals body) ≤ varsB body := by
  refine stackSize_le _ 0 (Nat.zero_le _) fun l hl => ?_
  have := (offB_small body 0).2 l hl
  omega

mutual
theorem nameS_vars (var : Ref → Bool) : ∀ (s : Stmt Unit) {ns : Names} {k : Nat} {s' : Stmt Ref} {ns' : Names} {k' : Nat},
    nameS var ns k s = some (s', ns', k') → varsS s' = varsS s
  | .var t _ init, ns, k, s', ns', k', h => by
    rw [nameS, Option.map_eq_some_iff] at h
    obtain ⟨e, _, h⟩ := h
    cases h
    rfl
  | .assign t _ e, ns, k, s', ns', k', h => by
    rw [nameS, Option.bind_eq_some_iff] at h
    obtain ⟨e, _, h⟩ := h
    rw [Option.map_eq_some_iff] at h
    obtain ⟨r, _, h⟩ := h
    cases h
    rfl
  | .assignArr t _ i e, ns, k, s', ns', k', h => by
    rw [nameS, Option.bind_eq_some_iff] at h
    obtain ⟨i, _, h⟩ := h
    rw [Option.bind_eq_some_iff] at h
    obtain ⟨e, _, h⟩ := h
    rw [Option.map_eq_some_iff] at h
    obtain ⟨r, _, h⟩ := h
    cases h
    rfl
  | .assignMem t m _ e, ns, k, s', ns', k', h => by
    rw [nameS, Option.bind_eq_some_iff] at h
    obtain ⟨e, _, h⟩ := h
    rw [Option.map_eq_some_iff] at h
    obtain ⟨r, _, h⟩ := h
    cases h
    rfl
  | .call t c as, ns, k, s', ns', k', h => by
    rw [nameS, Option.bind_eq_some_iff] at h
    obtain ⟨e, _, h⟩ := h
    rw [Option.map_eq_some_iff] at h
    obtain ⟨r, _, h⟩ := h
    cases h
    rfl
  | .ifS t c thn he els, ns, k, s', ns', k', h => by
    rw [nameS, Option.bind_eq_some_iff] at h
    obtain ⟨c, _, h⟩ := h
    rw [Option.bind_eq_some_iff] at h
    obtain ⟨⟨b1, k1⟩, h1, h⟩ := h
    rw [Option.map_eq_some_iff] at h
    obtain ⟨⟨b2, k2⟩, h2, h⟩ := h
    cases h
    simp only [varsS, nameB_vars var thn h1, nameB_vars var els h2]
  | .whileS t c body, ns, k, s', ns', k', h => by
    rw [nameS, Option.bind_eq_some_iff] at h
    obtain ⟨c, _, h⟩ := h
    rw [Option.map_eq_some_iff] at h
    obtain ⟨⟨b2, k2⟩, h2, h⟩ := h
    cases h
    simp only [varsS, nameB_vars var body h2]
  | .forS t n _ a b body, ns, k, s', ns', k', h => by
    rw [nameS, Option.bind_eq_some_iff] at h
    obtain ⟨r, _, h⟩ := h
    rw [Option.bind_eq_some_iff] at h
    obtain ⟨a, _, h⟩ := h
    rw [Option.bind_eq_some_iff] at h
    obtain ⟨b, _, h⟩ := h
    rw [Option.map_eq_some_iff] at h
    obtain ⟨⟨b2, k2⟩, h2, h⟩ := h
    cases h
    simp only [varsS, nameB_vars var body h2]
  | .ret t e, ns, k, s', ns', k', h => by
    rw [nameS, Option.map_eq_some_iff] at h
    obtain ⟨e, _, h⟩ := h
    cases h
    rfl
theorem nameB_vars (var : Ref → Bool) : ∀ (ss : List (Stmt Unit)) {ns : Names} {k : Nat} {ss' : List (Stmt Ref)} {k' : Nat},
    nameB var ns k ss = some (ss', k') → varsB ss' = varsB ss
  | [], ns, k, ss', k', h => by rw [nameB] at h; cases h; rfl
  | s :: ss, ns, k, ss', k', h => by
    rw [nameB, Option.bind_eq_some_iff] at h
    obtain ⟨⟨s1, ns1, k1⟩, h1, h⟩ := h
    rw [Option.map_eq_some_iff] at h
    obtain ⟨⟨b2, k2⟩, h2, h⟩ := h
    cases h
    simp only [varsB, nameS_vars var s h1, nameB_vars var ss h2]
end

theorem addSyscall_few (n : Str) (p : Program) : (addSyscall n p).2.syscalls.length ≤ p.syscalls.length + 1 := by
  unfold addSyscall
  cases sysIndex p.syscalls n <;> simp

theorem pregenItems_few : ∀ (xs : List (Item Ref)) (p p' : Program), pregenItems xs p = .ok p' →
    p'.syscalls.length ≤ p.syscalls.length + xs.length
  | [], p, p', h => by simp only [pregenItems] at h; cases h; simp
  | .func f :: xs, p, p', h => by
    simp only [pregenItems] at h
    obtain ⟨e, he, h⟩ := bind_ok.1 h
    have := pregenItems_few xs _ p' h
    simp only [List.length_cons] at this ⊢
    omega
  | .var .. :: xs, p, p', h => by
    simp only [pregenItems] at h
    have := pregenItems_few xs _ p' h
    simp only [List.length_cons] at this ⊢
    omega
  | .syscall m k :: xs, p, p', h => by
    simp only [pregenItems] at h
    have := pregenItems_few xs _ p' h
    have := addSyscall_few m p
    simp only [List.length_cons] at *
    omega

/-- The table of system calls has no more entries than there are declarations. -/
theorem codegen_few {p : Prog Ref} {prog : Program} (hn : (funcNames p ++ [initName]).Nodup)
    (h : codegen p = .ok prog) : prog.syscalls.length ≤ p.length := by
  unfold codegen at h
  obtain ⟨p0, h0, h⟩ := bind_ok.1 h
  unfold pregen at h0
  obtain ⟨p1, h1, h0⟩ := bind_ok.1 h0
  have hfew := pregenItems_few p _ p1 h1
  obtain ⟨-, hsys, fs, hfs, hp1⟩ := pregenItems_ok p _ p1 h1
  cases h0
  unfold genProgram at h
  obtain ⟨b1, hb1, h⟩ := bind_ok.1 h
  obtain ⟨b2, hb2, h⟩ := bind_ok.1 h
  obtain ⟨code, hcode, h⟩ := bind_ok.1 h
  have hfun : p1.functions = fs := by rw [hp1]; rfl
  have hnames : ((p1.functions ++ [(⟨initName, 0, 0, [], []⟩ : Function)]).map Function.name).Nodup := by
    rw [List.map_append, hfun, entriesOf_names hfs]; exact hn
  obtain ⟨segs, hseg, hb, hgl⟩ := genItems_builds (sys := p1.syscalls) hsys p 0 _ b1 rfl hnames
    (List.nodup_append.1 hn).1 hb1
  obtain ⟨a, ha, hg, he⟩ := genInit_emits (hb.grows.syscalls) hsys (by rw [hb.names]; exact hnames) hb2
  have hsy : b2.prog.syscalls = p1.syscalls := (hb.grows.trans hg).syscalls
  cases h
  show b2.prog.syscalls.length ≤ _
  rw [hsy]
  simpa [Program.empty] using hfew

/-- A function of the checked tree comes from a function of the source. -/
theorem sema_func {L : Layout} {p : Prog Unit} {q : Prog Ref} (h : runSema L p = .ok q) {q1 : Prog Ref}
    (h1 : annotate L p = .ok q1) (hr : resolve p = some q1) {i : Nat} {f : FuncDecl Ref}
    (hf : q[i]? = some (.func f)) :
    ∃ g b k p', p[i]? = some (.func g) ∧ f.args = g.args ∧ f.name = g.name ∧
      nameB (isVarOf p) (argNames g.args ++ globalNames p) 0 g.body = some (b, k) ∧ constB p' b = .ok f.body ∧
      ∃ q2, ProgStep q1 q2 ∧ (∃ js, constPass js p' = .ok q) ∧ consts q2 = .ok q := by
  obtain ⟨q1', q2, h1', h2, h3, _, _⟩ := runSema_steps h
  rw [h1] at h1'
  cases h1'
  have hs := Props.globalVars_step h2
  obtain ⟨p', g, k1, k2, k3, k4, js, k5⟩ := Props.consts_func h3 hf
  have hl : i < p.length := by
    rw [(resolve_get hr).1, hs.1]
    exact (List.getElem?_eq_some_iff.1 k1).1
  obtain ⟨y, m1, m2⟩ := (resolve_get hr).2 i _ (List.getElem?_eq_getElem hl)
  have hst := hs.2 i _ _ m1 k1
  generalize hx : p[i] = x at m2
  cases x with
  | func g0 =>
    rw [nameItem, Option.map_eq_some_iff] at m2
    obtain ⟨⟨b, k⟩, m2, rfl⟩ := m2
    cases hst
    refine ⟨g0, b, k, p', by rw [List.getElem?_eq_getElem hl, hx], ?_, ?_, m2, k2, q2, hs, ⟨js, k5⟩, h3⟩
    · rw [k3]
    · rw [k3]
  | var t c o =>
    rw [nameItem, Option.map_eq_some_iff] at m2
    obtain ⟨_, _, rfl⟩ := m2
    cases hst
  | syscall n a =>
    cases m2
    cases hst

/-- Small programs keep the limits. -/
theorem Small.fits {L : Layout} {opt : Bool} {p : Prog Unit} {q : Prog Ref} {prog : Program} (hs : Small p)
    (he : ElseApart p) (hc : Compiles L opt p q prog) (hi : ∀ x ∈ p, x.declName ≠ initName) : Fits q prog := by
  have hn := hc.names.1
  have hfn := hc.func hi
  obtain ⟨q0, h1, h2, h3⟩ := hc
  have hl : q.length = p.length := by
    have := congrArg List.length hn
    simpa using this
  refine ⟨?_, ?_, ?_⟩
  · have := codegen_few hfn h3
    have := hs.1
    omega
  · have : q.countP Item.isSlot ≤ q.length := List.countP_le_length
    have := hs.1
    omega
  · intro i f hf
    obtain ⟨g, hg, _, ha, hd⟩ := (runOptimize_less h2).func (List.mem_of_getElem? hf)
    obtain ⟨j, hj⟩ := List.mem_iff_getElem?.1 hg
    obtain ⟨q1, k1, k2⟩ := Props.C18_partial h1 he
    obtain ⟨g0, b, k, p', m1, m2, _, m3, m4, _⟩ := sema_func h1 k1 k2 hj
    have e1 := declsB_length f.body
    have e2 := declsB_length g.body
    have e3 := hd.length_le
    have e4 := declsB_length b
    rw [← constB_decls b m4, e2] at e4
    have e5 := nameB_vars _ _ m3
    have e6 := funcLocals_small f.body
    have e7 := hs.2 g0 (List.mem_of_getElem? m1)
    rw [ha, m2]
    omega

/-! ### Conditions -/

/-- Is this the name of a constant? -/
def constName (p : Prog Unit) (n : Str) : Bool :=
  match p.find? fun x => x.declName == n with
  | some (.var _ true _) => true
  | _ => false

/-- A condition that is not just the name of a constant.  (Literals that are shared do not come from the
parser.) -/
def plainCond (p : Prog Unit) : Expr Unit → Bool
  | .ident t _ => !constName p t.str
  | .int _ _ c => c.isNone
  | _ => true

mutual
/-- The conditions of the `if` statements in a statement. -/
def condsS : Stmt Unit → List (Expr Unit)
  | .ifS _ c thn _ els => c :: (condsB thn ++ condsB els)
  | .whileS _ _ body => condsB body
  | .forS _ _ _ _ _ body => condsB body
  | _ => []
/-- The conditions of the `if` statements in a block. -/
def condsB : List (Stmt Unit) → List (Expr Unit)
  | [] => []
  | s :: ss => condsS s ++ condsB ss
end

/-- No `if` of the program tests just a constant. -/
def PlainIfs (p : Prog Unit) : Prop := ∀ f, Item.func f ∈ p → ∀ e ∈ condsB f.body, plainCond p e = true

section
variable {p : Prog Unit} {p' : Prog Ref} (hk : ∀ (i : Nat) t o, p'[i]? = some (.var t true o) →
  ∃ t o, p[i]? = some (.var t true o))

/-- What is in scope refers to locals and to what has the name. -/
def ScopeOk (p : Prog Unit) (ns : Names) : Prop :=
  ∀ n i, ns.find n = some (.item i) → p.findIdx? (fun x => x.declName == n) = some i

theorem constName_of {n : Str} {i : Nat} {t : Token} {o : Option (Expr Unit)}
    (hf : p.findIdx? (fun x => x.declName == n) = some i) (hi : p[i]? = some (.var t true o)) : constName p n = true := by
  unfold constName
  have : p.find? (fun x => x.declName == n) = some (.var t true o) := by
    obtain ⟨h1, h2, h3⟩ := List.findIdx?_eq_some_iff_getElem.1 hf
    rw [List.find?_eq_some_iff_getElem]
    obtain ⟨h4, h5⟩ := List.getElem?_eq_some_iff.1 hi
    refine ⟨by rw [← h5]; exact h2, i, h4, h5, fun j hj => ?_⟩
    have := h3 j hj
    simpa using this
  rw [this]

include hk

theorem cond_plain {ns : Names} (hns : ScopeOk p ns) {var : Ref → Bool} {e : Expr Unit} {e' e'' : Expr Ref}
    (h : plainCond p e = true) (h1 : nameE ns.find var e = some e') (h2 : constE p' e' = .ok e'') :
    zeroCond e'' = [] := by
  cases e with
  | ident t _ =>
    rw [nameE, Option.map_eq_some_iff] at h1
    obtain ⟨r, h1, rfl⟩ := h1
    rw [constE] at h2
    cases r with
    | item i =>
      unfold constIdent at h2
      dsimp only at h2
      split at h2
      · rename_i t' e hi
        obtain ⟨t0, o0, h3⟩ := hk i t' _ hi
        rw [plainCond, constName_of (hns _ _ h1) h3] at h
        cases h
      · cases h2; rfl
    | _ => cases h2; rfl
  | int v t c =>
    rw [nameE] at h1
    cases h1
    rw [constE] at h2
    cases h2
    cases c with
    | none => rfl
    | some c => cases h
  | float | str | none => rw [nameE] at h1; cases h1; rw [constE] at h2; cases h2; rfl
  | arr t es =>
    rw [nameE, Option.map_eq_some_iff] at h1
    obtain ⟨r, h1, rfl⟩ := h1
    rw [constE] at h2
    repeat (split at h2 <;> try cases h2)
    all_goals rfl
  | member t m _ =>
    rw [nameE, Option.map_eq_some_iff] at h1
    obtain ⟨r, h1, rfl⟩ := h1
    rw [constE] at h2
    repeat (split at h2 <;> try cases h2)
    all_goals first | rfl | (cases h2; rfl)
  | un op a =>
    rw [nameE, Option.map_eq_some_iff] at h1
    obtain ⟨r, h1, rfl⟩ := h1
    rw [constE] at h2
    repeat (split at h2 <;> try cases h2)
    all_goals rfl
  | deref | call | bin =>
    rw [nameE, Option.bind_eq_some_iff] at h1
    obtain ⟨r, h1, h3⟩ := h1
    rw [Option.map_eq_some_iff] at h3
    obtain ⟨r', h3, rfl⟩ := h3
    rw [constE] at h2
    repeat (split at h2 <;> try cases h2)
    all_goals rfl

theorem ScopeOk.local {ns : Names} (hns : ScopeOk p ns) (n : Str) (k : Nat) : ScopeOk p ((n, .loc k) :: ns) := by
  intro m i h
  unfold Props.Names.find at h
  rw [List.find?_cons] at h
  split at h
  · cases h
  · exact hns m i h

mutual
theorem ifs_plainS {var : Ref → Bool} : ∀ (s : Stmt Unit) {ns : Names} {k : Nat} {s' : Stmt Ref} {ns' : Names} {k' : Nat}
    {s'' : Stmt Ref}, ScopeOk p ns → (∀ e ∈ condsS s, plainCond p e = true) →
    nameS var ns k s = some (s', ns', k') → constS p' s' = .ok s'' → zeroIfsS s'' = [] ∧ ScopeOk p ns'
  | .var t _ init, ns, k, s', ns', k', s'', hns, hp, h, h2 => by
    rw [nameS, Option.map_eq_some_iff] at h
    obtain ⟨e, _, h⟩ := h
    cases h
    rw [constS] at h2
    repeat (split at h2 <;> try cases h2)
    all_goals exact ⟨rfl, ScopeOk.local hk hns _ _⟩
  | .assign t _ e, ns, k, s', ns', k', s'', hns, hp, h, h2 => by
    rw [nameS, Option.bind_eq_some_iff] at h
    obtain ⟨e, _, h⟩ := h
    rw [Option.map_eq_some_iff] at h
    obtain ⟨r, _, h⟩ := h
    cases h
    rw [constS] at h2
    split at h2
    · unfold errTok at h2
      split at h2 <;> cases h2
    · split at h2
      · cases h2
      · cases h2
        exact ⟨rfl, hns⟩
  | .assignArr t _ i e, ns, k, s', ns', k', s'', hns, hp, h, h2 => by
    rw [nameS, Option.bind_eq_some_iff] at h
    obtain ⟨i, _, h⟩ := h
    rw [Option.bind_eq_some_iff] at h
    obtain ⟨e, _, h⟩ := h
    rw [Option.map_eq_some_iff] at h
    obtain ⟨r, _, h⟩ := h
    cases h
    rw [constS] at h2
    repeat (split at h2 <;> try cases h2)
    all_goals first | exact ⟨rfl, hns⟩ | (cases h2; exact ⟨rfl, hns⟩)
  | .assignMem t m _ e, ns, k, s', ns', k', s'', hns, hp, h, h2 => by
    rw [nameS, Option.bind_eq_some_iff] at h
    obtain ⟨e, _, h⟩ := h
    rw [Option.map_eq_some_iff] at h
    obtain ⟨r, _, h⟩ := h
    cases h
    rw [constS] at h2
    repeat (split at h2 <;> try cases h2)
    all_goals first | exact ⟨rfl, hns⟩ | (cases h2; exact ⟨rfl, hns⟩)
  | .call t c as, ns, k, s', ns', k', s'', hns, hp, h, h2 => by
    rw [nameS, Option.bind_eq_some_iff] at h
    obtain ⟨e, _, h⟩ := h
    rw [Option.map_eq_some_iff] at h
    obtain ⟨r, _, h⟩ := h
    cases h
    rw [constS] at h2
    repeat (split at h2 <;> try cases h2)
    all_goals first | exact ⟨rfl, hns⟩ | (cases h2; exact ⟨rfl, hns⟩)
  | .ifS t c thn he els, ns, k, s', ns', k', s'', hns, hp, h, h2 => by
    rw [nameS, Option.bind_eq_some_iff] at h
    obtain ⟨c', h0, h⟩ := h
    rw [Option.bind_eq_some_iff] at h
    obtain ⟨⟨b1, k1⟩, h1, h⟩ := h
    rw [Option.map_eq_some_iff] at h
    obtain ⟨⟨b2, k2⟩, h3, h⟩ := h
    cases h
    rw [constS] at h2
    simp only [condsS, List.mem_cons, List.mem_append] at hp
    split at h2
    · cases h2
    · rename_i g1
      split at h2
      · cases h2
      · rename_i g2
        split at h2
        · cases h2
        · rename_i g3
          cases h2
          refine ⟨?_, hns⟩
          simp only [zeroIfsS, cond_plain hk hns (hp c (.inl rfl)) h0 g1,
            ifs_plainB thn hns (fun e he => hp e (.inr (.inl he))) h1 g2,
            ifs_plainB els hns (fun e he => hp e (.inr (.inr he))) h3 g3, List.append_nil]
  | .whileS t c body, ns, k, s', ns', k', s'', hns, hp, h, h2 => by
    rw [nameS, Option.bind_eq_some_iff] at h
    obtain ⟨c, _, h⟩ := h
    rw [Option.map_eq_some_iff] at h
    obtain ⟨⟨b2, k2⟩, h3, h⟩ := h
    cases h
    rw [constS] at h2
    split at h2
    · cases h2
    · split at h2
      · cases h2
      · rename_i g2
        cases h2
        exact ⟨ifs_plainB body hns hp h3 g2, hns⟩
  | .forS t n _ a b body, ns, k, s', ns', k', s'', hns, hp, h, h2 => by
    rw [nameS, Option.bind_eq_some_iff] at h
    obtain ⟨r, _, h⟩ := h
    rw [Option.bind_eq_some_iff] at h
    obtain ⟨a, _, h⟩ := h
    rw [Option.bind_eq_some_iff] at h
    obtain ⟨b, _, h⟩ := h
    rw [Option.map_eq_some_iff] at h
    obtain ⟨⟨b2, k2⟩, h3, h⟩ := h
    cases h
    rw [constS] at h2
    split at h2
    · cases h2
    · split at h2
      · cases h2
      · split at h2
        · cases h2
        · rename_i g2
          cases h2
          exact ⟨ifs_plainB body hns hp h3 g2, hns⟩
  | .ret t e, ns, k, s', ns', k', s'', hns, hp, h, h2 => by
    rw [nameS, Option.map_eq_some_iff] at h
    obtain ⟨e, _, h⟩ := h
    cases h
    rw [constS] at h2
    repeat (split at h2 <;> try cases h2)
    all_goals first | exact ⟨rfl, hns⟩ | (cases h2; exact ⟨rfl, hns⟩)
theorem ifs_plainB {var : Ref → Bool} : ∀ (ss : List (Stmt Unit)) {ns : Names} {k : Nat} {ss' : List (Stmt Ref)} {k' : Nat}
    {ss'' : List (Stmt Ref)}, ScopeOk p ns → (∀ e ∈ condsB ss, plainCond p e = true) →
    nameB var ns k ss = some (ss', k') → constB p' ss' = .ok ss'' → zeroIfsB ss'' = []
  | [], ns, k, ss', k', ss'', _, _, h, h2 => by
    rw [nameB] at h; cases h; rw [constB] at h2; cases h2; rfl
  | s :: ss, ns, k, ss', k', ss'', hns, hp, h, h2 => by
    rw [nameB, Option.bind_eq_some_iff] at h
    obtain ⟨⟨s1, ns1, k1⟩, h1, h⟩ := h
    rw [Option.map_eq_some_iff] at h
    obtain ⟨⟨b2, k2⟩, h3, h⟩ := h
    cases h
    simp only [condsB, List.mem_append] at hp
    rw [constB] at h2
    split at h2
    · cases h2
    · rename_i g1
      split at h2
      · cases h2
      · rename_i g2
        cases h2
        obtain ⟨m1, m2⟩ := ifs_plainS s hns (fun e he => hp e (.inl he)) h1 g1
        simp only [zeroIfsB, m1, ifs_plainB ss m2 (fun e he => hp e (.inr he)) h3 g2, List.append_nil]
end
end

theorem scope_args (p : Prog Unit) (args : List Token) : ScopeOk p (argNames args ++ globalNames p) := by
  intro n i h
  unfold Props.Names.find at h
  rw [List.find?_append] at h
  cases hx : (argNames args).find? fun d => d.1 == n with
  | some d =>
    rw [hx] at h
    have hm := List.mem_of_find?_eq_some hx
    unfold Props.argNames at hm
    rw [List.mem_reverse, List.mem_mapIdx] at hm
    obtain ⟨j, _, rfl⟩ := hm
    cases h
  | none =>
    rw [hx] at h
    have h' : (globalNames p).find n = some (.item i) := h
    have := find_globalFrom p n 0
    simp only [Nat.zero_add] at this
    rw [show Props.Names.find (p.mapIdx fun i x => (x.declName, Ref.item i)) n = some (.item i) from h'] at this
    cases hf : p.findIdx? (fun x => x.declName == n) with
    | none => rw [hf] at this; cases this
    | some j => rw [hf] at this; cases this; rfl

theorem zeroIfsP_nil : ∀ {q : Prog Ref}, (∀ f, Item.func f ∈ q → zeroIfsB f.body = []) → zeroIfsP q = []
  | [], _ => rfl
  | .func f :: xs, h => by
    rw [zeroIfsP, h f (List.mem_cons_self ..), zeroIfsP_nil fun g hg => h g (List.mem_cons_of_mem _ hg)]
    rfl
  | .var .. :: xs, h => by
    rw [zeroIfsP]
    · exact zeroIfsP_nil fun g hg => h g (List.mem_cons_of_mem _ hg)
    · simp
  | .syscall .. :: xs, h => by
    rw [zeroIfsP]
    · exact zeroIfsP_nil fun g hg => h g (List.mem_cons_of_mem _ hg)
    · simp

/-- Without such conditions no literal is shared in a way the optimiser spoils. -/
theorem PlainIfs.unshared {L : Layout} {p : Prog Unit} {q : Prog Ref} (hp : PlainIfs p) (h : runSema L p = .ok q)
    (he : ElseApart p) : Unshared q := by
  obtain ⟨q1, h1, hr⟩ := Props.C18_partial h he
  have : zeroIfsP q = [] := by
    refine zeroIfsP_nil fun f hf => ?_
    obtain ⟨i, hi⟩ := List.mem_iff_getElem?.1 hf
    obtain ⟨g, b, k, p', m1, _, _, m4, m5, q2, m6, ⟨js, m7⟩, m8⟩ := sema_func h h1 hr hi
    refine ifs_plainB ?_ g.body (scope_args p g.args) (hp g (List.mem_of_getElem? m1)) m4 m5
    intro j t o hj
    obtain ⟨t2, o2, h2⟩ := (Props.constPass_isConst m8 j).1 ((Props.constPass_isConst m7 j).2 ⟨t, o, hj⟩)
    have hl : j < p.length := by
      rw [(resolve_get hr).1, m6.1]
      exact (List.getElem?_eq_some_iff.1 h2).1
    obtain ⟨y, n1, n2⟩ := (resolve_get hr).2 j _ (List.getElem?_eq_getElem hl)
    have hst := m6.2 j _ _ n1 h2
    rw [List.getElem?_eq_getElem hl]
    generalize p[j] = x at n2
    cases x with
    | func g =>
      rw [nameItem, Option.map_eq_some_iff] at n2
      obtain ⟨_, _, rfl⟩ := n2
      cases hst
    | syscall n a => cases n2; cases hst
    | var t c o =>
      rw [nameItem, Option.map_eq_some_iff] at n2
      obtain ⟨_, _, rfl⟩ := n2
      cases hst <;> exact ⟨_, _, rfl⟩
  intro c hc
  rw [this] at hc
  cases hc

/-! ### Source and annotated tree -/

/-- The evaluator on another tree in the same surroundings. -/
def Ctx.on (cx : Ctx) (q : Prog Ref) : Sem.Ctx := ⟨q, cx.fl, cx.funAddr, cx.table, cx.host⟩

theorem ctx_match {L : Layout} {cx : Ctx} {q : Prog Ref} (h : runSema L cx.prog = .ok q) (he : ElseApart cx.prog) :
    ∃ q1, annotate L cx.prog = .ok q1 ∧ CtxMatch cx (cx.on (withConsts q1 q)) := by
  obtain ⟨q1, h1, hr⟩ := Props.C18_partial h he
  obtain ⟨q1', q2, h1', h2, h3, _, _⟩ := runSema_steps h
  rw [h1] at h1'
  cases h1'
  have hs := Props.globalVars_step h2
  have hk := globalVars_stuck h2
  refine ⟨q1, h1, rfl, rfl, rfl, rfl, fun i => ?_⟩
  have hl1 : cx.prog.length = q1.length := (resolve_get hr).1
  have hl2 : q1.length = q.length := by rw [hs.1]; exact (Props.constPass_length h3).symm
  show ItemMatch cx i cx.prog[i]? (withConsts q1 q)[i]?
  rw [withConsts, List.getElem?_zipWith]
  by_cases hi : i < cx.prog.length
  · have hp := List.getElem?_eq_getElem hi
    obtain ⟨y, n1, n2⟩ := (resolve_get hr).2 i _ hp
    have hz : q[i]? = some q[i] := List.getElem?_eq_getElem (by omega)
    rw [n1, hz, hp]
    dsimp only
    generalize cx.prog[i] = x at n2 hp
    cases x with
    | func f =>
      rw [nameItem, Option.map_eq_some_iff] at n2
      obtain ⟨⟨b, k⟩, n2, rfl⟩ := n2
      exact .func rfl n2
    | syscall n a => cases n2; exact .syscall n a
    | var t c o =>
      rw [nameItem, Option.map_eq_some_iff] at n2
      obtain ⟨o', n2, rfl⟩ := n2
      cases c with
      | false => exact .var n2
      | true =>
        obtain ⟨p', x, g1, g2, g3, js, g4⟩ := Props.consts_at h3 hz
        have hst := hs.2 i _ _ n1 g1
        have hq : ∃ o, q[i] = .var t true o := by
          cases hst with
          | same =>
            obtain ⟨o, _, g6, _⟩ := Props.constItem_const g2
            exact ⟨o, g6⟩
          | var _ _ _ =>
            obtain ⟨o, _, g6, _⟩ := Props.constItem_const g2
            exact ⟨o, g6⟩
        obtain ⟨o2, hq⟩ := hq
        show ItemMatch cx i _ (some q[i])
        rw [hq]
        refine .const fun v hv => ?_
        obtain ⟨t', e, k1, k2⟩ := constVal_literal hr hs hk h3 _ _ hv
        rw [hz, hq] at k1
        cases k1
        exact ⟨e, rfl, k2⟩
  · rw [List.getElem?_eq_none (by omega), List.getElem?_eq_none (by omega : q1.length ≤ i)]
    exact .missing

/-- Evaluation of the source agrees with that of the tree code is generated from. -/
theorem source_follows {L : Layout} {opt : Bool} {cx : Ctx} {q0 q : Prog Ref} (h : runSema L cx.prog = .ok q0)
    (he : ElseApart cx.prog) (ho : runOptimize opt q0 = .ok q) (hp : opt = true → PlainIfs cx.prog)
    (zi : Nat → Ref → Bool) (n : Nat) :
    CallsFollow (callFn cx n) (Sem.callFn (cx.on q) zi n) ∧
      ∀ w, Follows Eq (startUp cx n w) (Sem.startUp (cx.on q) zi n w) := by
  obtain ⟨q1, h1, hM⟩ := ctx_match h he
  have e1 : Sem.callFn (cx.on q) zi n = Sem.callFn (cx.on (withConsts q1 q0)) zi n ∧
      ∀ w, Sem.startUp (cx.on q) zi n w = Sem.startUp (cx.on (withConsts q1 q0)) zi n w := by
    have k1 := Props.C20_calls h h1 (cx.on q) zi n
    have k2 := Props.C20_start h h1 (cx.on q) zi n
    have k3 : Sem.callFn (cx.on q) zi n = Sem.callFn (cx.on q0) zi n ∧
        ∀ w, Sem.startUp (cx.on q) zi n w = Sem.startUp (cx.on q0) zi n w := by
      cases opt with
      | true => exact Props.C23_optimise_partial (cx := cx.on q) ho ((hp rfl).unshared h he) zi n
      | false =>
        unfold runOptimize at ho
        cases ho
        exact ⟨rfl, fun _ => rfl⟩
    exact ⟨k3.1.trans k1, fun w => (k3.2 w).trans (k2 w)⟩
  rw [e1.1]
  refine ⟨callFn_follows hM zi n, fun w => ?_⟩
  rw [e1.2]
  exact startUp_follows hM zi n w

end Ccml.Src
