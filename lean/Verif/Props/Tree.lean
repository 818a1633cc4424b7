import Verif.TreeFacts
import Verif.Props.Compile
/-!
Properties of the syntax tree in memory: C69.
-/
namespace Ccml.Props
open Ccml Ccml.Tree

/-! ### Deleting the nodes that are not used

`Whole mem n` (TreeFacts.lean): the tree at `n` is finite and every pointer in it leads to a node.
`t.Used n`: the node `n` is in the tree. -/

/-- All pointers in the tree lead to nodes, and all nodes in memory are registered. -/
structure Intact (t : Ast) : Prop where
  whole : ∀ c, some c ∈ t.children → Whole t.mem c
  owned : ∀ n, (t.mem n).isSome → n ∈ t.allocs

/-- C69: `gc` keeps the nodes of the tree, except array literals and assignments to members, and deletes
all others.  The intended statement has no exception; see `C69_dangling`. -/
theorem C69_gc_partial (t : Ast) (h : Intact t) : ∃ m, ∀ k, m ≤ k → ∃ t', gc k t = .ok t' ∧
    t'.children = t.children ∧ ∀ n x, t.mem n = some x →
      (t.Used n → (∀ es, x ≠ .arrayInit es) → (∀ e, x ≠ .assignMem e) → t'.mem n = some x ∧ n ∈ t'.allocs) ∧
      (¬ t.Used n ∨ (∃ es, x = .arrayInit es) ∨ (∃ e, x = .assignMem e) → t'.mem n = none ∧ n ∉ t'.allocs) := by
  obtain ⟨m, hm⟩ := gc_ok h.whole
  refine ⟨m, fun k hk => ?_⟩
  obtain ⟨found, h1, h2⟩ := hm k hk
  refine ⟨_, h1, rfl, fun n x hx => ?_⟩
  have ha := h.owned n (by rw [hx]; rfl)
  dsimp only
  constructor
  · intro hu hes he
    have hk : x.kept = true := by
      cases x <;> first | rfl | exact absurd rfl (hes _) | exact absurd rfl (he _)
    have hf : n ∈ found := (h2 n).2 ⟨hu, x, hx, hk⟩
    rw [if_neg (fun h => h.2 hf)]
    exact ⟨hx, List.mem_filter.2 ⟨ha, by simpa using hf⟩⟩
  · intro hd
    have hf : n ∉ found := by
      intro hf
      obtain ⟨hu, y, hy, hk⟩ := (h2 n).1 hf
      rw [hx] at hy
      cases hy
      rcases hd with hd | ⟨es, rfl⟩ | ⟨e, rfl⟩
      · exact hd hu
      · cases hk
      · cases hk
    rw [if_pos ⟨ha, hf⟩]
    exact ⟨rfl, fun h => hf (by simpa using (List.mem_filter.1 h).2)⟩

/-- C69: if the tree holds neither an array literal nor an assignment to a member, what is written behind
`gc` is what was written before. -/
theorem C69_dump_partial (fl : FloatOps) (t : Ast) (h : Intact t)
    (hp : ∀ n x, t.Used n → t.mem n = some x → (∀ es, x ≠ .arrayInit es) ∧ ∀ e, x ≠ .assignMem e) :
    ∃ m, ∀ k, m ≤ k → ∃ t' s, gc k t = .ok t' ∧ Tree.dump fl k t = .ok s ∧ Tree.dump fl k t' = .ok s := by
  obtain ⟨m, hm⟩ := C69_gc_partial t h
  obtain ⟨m', hm'⟩ := bound t.children fun c hc => dumpNode_ok (fl := fl) (h.whole c hc)
  refine ⟨m + m', fun k hk => ?_⟩
  obtain ⟨t', h1, h2, h3⟩ := hm k (by omega)
  obtain ⟨s, h4, -⟩ := each_ok (f := dumpNode fl t.mem k 1) fun c hc => hm' k (by omega) c hc 1
  refine ⟨t', _, h1, by simp only [Tree.dump, h4]; rfl, ?_⟩
  have : each (dumpNode fl t'.mem k 1) t'.children = .ok s := by
    rw [h2, ← h4]
    refine each_congr fun c hc => dumpNode_same k 1 c fun b hb => ?_
    have hw : ∀ a, Whole t.mem a → ∀ b, Below t.mem a b → ∃ x, t.mem b = some x := by
      intro a ha b hb
      induction hb with
      | here => cases ha with | node hx _ => exact ⟨_, hx⟩
      | step h1 h2 _ ih =>
        cases ha with
        | node hx hk => rw [hx] at h1; cases h1; exact ih (hk _ h2)
    obtain ⟨x, hx⟩ := hw c (h.whole c hc) b hb
    have hu : t.Used b := ⟨c, hc, hb⟩
    rw [hx]
    exact ((h3 b x hx).1 hu (hp b x hu hx).1 (hp b x hu hx).2).1
  simp only [Tree.dump, this]

/-- C69: the intended statement does not hold: with an array literal or an assignment to a member in the tree,
writing the tree behind `gc` follows a pointer to a deleted node. -/
theorem C69_dangling (fl : FloatOps) (t : Ast) (h : Intact t) (n : Nat) (x : Tree.Node) (hu : t.Used n)
    (hx : t.mem n = some x) (hd : (∃ es, x = .arrayInit es) ∨ ∃ e, x = .assignMem e) :
    ∃ m, ∀ k, m ≤ k → ∃ t', gc k t = .ok t' ∧ Tree.dump fl k t' = .error .ub := by
  obtain ⟨m, hm⟩ := gc_ok h.whole
  have hk : x.kept = false := by rcases hd with ⟨es, rfl⟩ | ⟨e, rfl⟩ <;> rfl
  -- the memory afterwards does not depend on `k`
  let mem' : Nat → Option Tree.Node := fun b => match t.mem b with
    | none => none
    | some x => open Classical in if t.Used b ∧ x.kept = true then some x else none
  have hmem : ∀ k, m ≤ k → ∃ t', gc k t = .ok t' ∧ t'.children = t.children ∧ t'.mem = mem' := by
    intro k hk
    obtain ⟨found, h1, h2⟩ := hm k hk
    refine ⟨_, h1, rfl, funext fun b => ?_⟩
    dsimp only
    cases hb : t.mem b with
    | none =>
      have e : mem' b = none := by simp only [mem', hb]
      rw [e, ite_self]
    | some y =>
      have ha := h.owned b (by rw [hb]; rfl)
      by_cases hc : t.Used b ∧ y.kept = true
      · have e : mem' b = some y := by simp only [mem', hb, if_pos hc]
        rw [e, if_neg (fun h => h.2 ((h2 b).2 ⟨hc.1, y, hb, hc.2⟩))]
      · have e : mem' b = none := by simp only [mem', hb, if_neg hc]
        rw [e, if_pos ⟨ha, fun hf => by
          obtain ⟨h3, y', h4, h5⟩ := (h2 b).1 hf
          rw [hb] at h4
          cases h4
          exact hc ⟨h3, h5⟩⟩]
  have hcase : ∀ b, mem' b = t.mem b ∨ mem' b = none := by
    intro b
    cases hb : t.mem b with
    | none => exact .inr (by simp only [mem', hb])
    | some y =>
      by_cases hc : t.Used b ∧ y.kept = true
      · exact .inl (by simp only [mem', hb, if_pos hc])
      · exact .inr (by simp only [mem', hb, if_neg hc])
  have hn : mem' n = none := by
    have : ¬ (t.Used n ∧ x.kept = true) := by rw [hk]; simp
    simp only [mem', hx, if_neg this]
  have key : ∃ m, ∀ k, m ≤ k → ∀ c, some c ∈ t.children →
      ((∃ b, Below t.mem c b ∧ mem' b = none) → dumpNode fl mem' k 1 c = .error .ub) ∧
      ((¬∃ b, Below t.mem c b ∧ mem' b = none) → ∃ s, dumpNode fl mem' k 1 c = .ok s) := by
    refine bound (P := fun k c => ((∃ b, Below t.mem c b ∧ mem' b = none) → dumpNode fl mem' k 1 c = .error .ub) ∧
      ((¬∃ b, Below t.mem c b ∧ mem' b = none) → ∃ s, dumpNode fl mem' k 1 c = .ok s)) t.children fun c hc => ?_
    by_cases hg : ∃ b, Below t.mem c b ∧ mem' b = none
    · obtain ⟨m, hm⟩ := dumpNode_ub (fl := fl) (h.whole c hc) (fun b _ => hcase b) hg
      exact ⟨m, fun k hk => ⟨fun _ => hm k hk 1, fun h => absurd hg h⟩⟩
    · obtain ⟨m, hm⟩ := dumpNode_ok (fl := fl) (h.whole c hc)
      refine ⟨m, fun k hk => ⟨fun h => absurd h hg, fun _ => ?_⟩⟩
      rw [dumpNode_same k 1 c fun b hb => by
        rcases hcase b with e | e
        · exact e
        · exact absurd ⟨b, hb, e⟩ hg]
      exact hm k hk 1
  obtain ⟨m', hm'⟩ := key
  refine ⟨m + m', fun k hk => ?_⟩
  obtain ⟨t', h1, h2, h3⟩ := hmem k (by omega)
  refine ⟨t', h1, ?_⟩
  have hm' := hm' k (by omega)
  obtain ⟨c, hc, hb⟩ := hu
  have : each (dumpNode fl mem' k 1) t.children = .error .ub := by
    refine each_ub (fun c hc => ?_) ⟨c, hc, (hm' c hc).1 ⟨n, hb, hn⟩⟩
    by_cases hg : ∃ b, Below t.mem c b ∧ mem' b = none
    · exact .inr ((hm' c hc).1 hg)
    · exact .inl ((hm' c hc).2 hg)
  simp only [Tree.dump, h2, h3, this]

/-! ### What is written

The lines that show a program: each node on a line of its own, indented by its depth, the nodes below it
on the following lines. -/

/-- A line at depth `d`. -/
def treeLine (d : Nat) (s : Str) : Str := (List.replicate d (str ".  ")).flatten ++ s ++ str "\n"

/-- How the operators are shown.  `~=` is not in the list (it is not an operator of the language). -/
def shownOp : Tok → Str
  | .ADD => str "+" | .SUB => str "-" | .MUL => str "*" | .DIV => str "/" | .MOD => str "%"
  | .LT => str "<" | .LEQ => str "<=" | .GT => str ">" | .GEQ => str ">=" | .EQ => str "=="
  | .AND => str "and" | .OR => str "or"
  | _ => str "?"

mutual
/-- An expression at depth `d`. -/
def showE {D : Type} (fl : FloatOps) (d : Nat) : Expr D → Str
  | .ident n _ => treeLine d (str "ast_exp_ident_t {name: " ++ cstr n.str ++ str "}")
  | .int v _ _ => treeLine d (str "ast_exp_lit_var_t {value: " ++ decimal v ++ str "}")
  | .float v _ => treeLine d (str "ast_exp_lit_var_t {value: " ++ fl.fmt v ++ str "}")
  | .str v _ => treeLine d (Ccml.str "ast_exp_lit_str_t {value: " ++ cstr v ++ Ccml.str "}")
  | .none _ => treeLine d (str "ast_exp_none_t")
  | .member n _ _ => treeLine d (str "ast_exp_member_t {name: " ++ cstr n.str ++ str "}")
  | .arr _ es => treeLine d (str "ast_exp_array_init_t") ++ showEs fl (d + 1) es
  | .deref _ l i => treeLine d (str "ast_exp_deref_t") ++ showE fl (d + 1) l ++ showE fl (d + 1) i
  | .call _ c as => treeLine d (str "ast_exp_call_t") ++ showEs fl (d + 1) as ++ showE fl (d + 1) c
  | .bin op l r => treeLine d (str "ast_exp_bin_op_t {op: " ++ shownOp op.type ++ str "}") ++
      showE fl (d + 1) l ++ showE fl (d + 1) r
  | .un _ c => treeLine d (str "ast_exp_unary_op_t") ++ showE fl (d + 1) c

/-- Expressions one after the other. -/
def showEs {D : Type} (fl : FloatOps) (d : Nat) : List (Expr D) → Str
  | [] => []
  | e :: es => showE fl d e ++ showEs fl d es
end

/-- An expression that may be left out. -/
def showOpt {D : Type} (fl : FloatOps) (d : Nat) : Option (Expr D) → Str
  | none => []
  | some e => showE fl d e

mutual
/-- A statement at depth `d`. -/
def showS {D : Type} (fl : FloatOps) (d : Nat) : Stmt D → Str
  | .var n _ e => treeLine d (str "ast_decl_var_t {name: " ++ cstr n.str ++ str "}") ++ showOpt fl (d + 1) e
  | .assign n _ e => treeLine d (str "ast_stmt_assign_var_t {name: " ++ cstr n.str ++ str "}") ++
      showE fl (d + 1) e
  | .assignArr _ _ i e => treeLine d (str "ast_stmt_assign_array_t") ++ showE fl (d + 1) i ++
      showE fl (d + 1) e
  | .assignMem _ _ _ e => treeLine d (str "ast_stmt_assign_member_t") ++ showE fl (d + 1) e
  | .call t c as => treeLine d (str "ast_stmt_call_t") ++ showE fl (d + 1) (.call t c as)
  | .ifS _ c thn hasElse els => treeLine d (str "ast_stmt_if_t") ++ showE fl (d + 1) c ++
      (treeLine (d + 1) (str "ast_block_t") ++ showSs fl (d + 2) thn) ++
      if hasElse then treeLine (d + 1) (str "ast_block_t") ++ showSs fl (d + 2) els else []
  | .whileS _ c b => treeLine d (str "ast_stmt_while_t") ++ showE fl (d + 1) c ++
      (treeLine (d + 1) (str "ast_block_t") ++ showSs fl (d + 2) b)
  | .forS _ n _ a z b => treeLine d (str "ast_stmt_for_t {name=" ++ cstr n.str ++ str "}") ++
      showE fl (d + 1) a ++ showE fl (d + 1) z ++
      (treeLine (d + 1) (str "ast_block_t") ++ showSs fl (d + 2) b)
  | .ret _ e => treeLine d (str "ast_stmt_return_t") ++ showOpt fl (d + 1) e

/-- Statements one after the other. -/
def showSs {D : Type} (fl : FloatOps) (d : Nat) : List (Stmt D) → Str
  | [] => []
  | s :: ss => showS fl d s ++ showSs fl d ss
end

/-- A function with arguments of the given names. -/
def showF {D : Type} (fl : FloatOps) (name : Str) (args : List Str) (body : List (Stmt D)) : Str :=
  treeLine 1 (str "ast_decl_func_t {name: " ++ cstr name ++ str "}") ++
    (args.map fun a => treeLine 2 (str "ast_decl_var_t {name: " ++ cstr a ++ str "}")).flatten ++
    (treeLine 2 (str "ast_block_t") ++ showSs fl 3 body)

/-- What the file declares. -/
def showI {D : Type} (fl : FloatOps) : Item D → Str
  | .var n _ e => treeLine 1 (str "ast_decl_var_t {name: " ++ cstr n.str ++ str "}") ++ showOpt fl 2 e
  | .func f => showF fl f.name.str (f.args.map (·.str)) f.body
  | .syscall name _ => treeLine 1 (str "ast_decl_func_t {name: " ++ cstr name ++ str "}")

/-- The whole program, `@init` at its end. -/
def showP (fl : FloatOps) (q : Prog Ref) : Str :=
  str "ast_program_t\n" ++ (q.map (showI fl)).flatten ++ showF fl (str "@init") [] (initBody q)

/-! The tree in memory.  Nodes may be shared (the literals of constants are, and so are the initial values of
global variables). -/

mutual
/-- The node `n` is the expression. -/
def IsE {D : Type} (mem : Nat → Option Tree.Node) : Expr D → Nat → Prop
  | .ident t _, n => mem n = some (.ident t.str)
  | .int v _ _, n => mem n = some (.litVar v)
  | .float v _, n => mem n = some (.litFloat v)
  | .str v _, n => mem n = some (.litStr v)
  | .none _, n => mem n = some .litNone
  | .member t _ _, n => mem n = some (.member t.str)
  | .arr _ es, n => ∃ ps, mem n = some (.arrayInit ps) ∧ IsEs mem es ps
  | .deref _ l i, n => ∃ a b, mem n = some (.deref (some a) (some b)) ∧ IsE mem l a ∧ IsE mem i b
  | .call _ c as, n => ∃ a ps, mem n = some (.call (some a) ps) ∧ IsE mem c a ∧ IsEs mem as ps
  | .bin op l r, n => ∃ a b, mem n = some (.bin op.type (some a) (some b)) ∧ IsE mem l a ∧ IsE mem r b
  | .un _ c, n => ∃ a, mem n = some (.un (some a)) ∧ IsE mem c a

/-- The pointers lead to the expressions. -/
def IsEs {D : Type} (mem : Nat → Option Tree.Node) : List (Expr D) → List Tree.Ptr → Prop
  | [], ps => ps = []
  | e :: es, ps => ∃ n qs, ps = some n :: qs ∧ IsE mem e n ∧ IsEs mem es qs
end

/-- The pointer is null where no expression is given. -/
def IsOpt {D : Type} (mem : Nat → Option Tree.Node) : Option (Expr D) → Tree.Ptr → Prop
  | none, p => p = none
  | some e, p => ∃ n, p = some n ∧ IsE mem e n

mutual
/-- The node `n` is the statement. -/
def IsS {D : Type} (mem : Nat → Option Tree.Node) : Stmt D → Nat → Prop
  | .var t _ e, n => ∃ p, mem n = some (.var t.str p) ∧ IsOpt mem e p
  | .assign t _ e, n => ∃ a, mem n = some (.assignVar t.str (some a)) ∧ IsE mem e a
  | .assignArr _ _ i e, n => ∃ a b, mem n = some (.assignArr (some a) (some b)) ∧ IsE mem i a ∧ IsE mem e b
  | .assignMem _ _ _ e, n => ∃ a, mem n = some (.assignMem (some a)) ∧ IsE mem e a
  | .call t c as, n => ∃ a, mem n = some (.stmtCall (some a)) ∧ IsE mem (.call t c as) a
  | .ifS _ c thn hasElse els, n => ∃ a b p, mem n = some (.ifS (some a) (some b) p) ∧ IsE mem c a ∧
      (∃ ps, mem b = some (.block ps) ∧ IsSs mem thn ps) ∧
      (hasElse = false → p = none) ∧
      (hasElse = true → ∃ b', p = some b' ∧ ∃ ps, mem b' = some (.block ps) ∧ IsSs mem els ps)
  | .whileS _ c body, n => ∃ a b, mem n = some (.whileS (some a) (some b)) ∧ IsE mem c a ∧
      ∃ ps, mem b = some (.block ps) ∧ IsSs mem body ps
  | .forS _ t _ x z body, n => ∃ a a' b, mem n = some (.forS t.str (some a) (some a') (some b)) ∧
      IsE mem x a ∧ IsE mem z a' ∧ ∃ ps, mem b = some (.block ps) ∧ IsSs mem body ps
  | .ret _ e, n => ∃ p, mem n = some (.ret p) ∧ IsOpt mem e p

/-- The pointers lead to the statements. -/
def IsSs {D : Type} (mem : Nat → Option Tree.Node) : List (Stmt D) → List Tree.Ptr → Prop
  | [], ps => ps = []
  | s :: ss, ps => ∃ n qs, ps = some n :: qs ∧ IsS mem s n ∧ IsSs mem ss qs
end

/-- The pointers lead to the declarations of arguments. -/
def IsArgs (mem : Nat → Option Tree.Node) : List Str → List Tree.Ptr → Prop
  | [], ps => ps = []
  | a :: as, ps => ∃ n qs, ps = some n :: qs ∧ mem n = some (.var a none) ∧ IsArgs mem as qs

/-- The node `n` is a function. -/
def IsF {D : Type} (mem : Nat → Option Tree.Node) (name : Str) (args : List Str) (body : List (Stmt D))
    (n : Nat) : Prop :=
  ∃ ps b qs, mem n = some (.func name ps (some b)) ∧ IsArgs mem args ps ∧
    mem b = some (.block qs) ∧ IsSs mem body qs

/-- The node `n` is what the file declares; a built-in function has null pointers for its arguments and its
body. -/
def IsI {D : Type} (mem : Nat → Option Tree.Node) : Item D → Nat → Prop
  | .var t _ e, n => ∃ p, mem n = some (.var t.str p) ∧ IsOpt mem e p
  | .func f, n => IsF mem f.name.str (f.args.map (·.str)) f.body n
  | .syscall name args, n => mem n = some (.func name (List.replicate (args.getD 0) none) none)

/-- The pointers lead to what the file declares. -/
def IsIs {D : Type} (mem : Nat → Option Tree.Node) : List (Item D) → List Tree.Ptr → Prop
  | [], ps => ps = []
  | i :: is, ps => ∃ n qs, ps = some n :: qs ∧ IsI mem i n ∧ IsIs mem is qs

/-- The tree is that of the program, with `@init` behind all others. -/
def IsP (t : Ast) (q : Prog Ref) : Prop :=
  ∃ ps n, t.children = ps ++ [some n] ∧ IsIs t.mem q ps ∧ IsF t.mem (str "@init") [] (initBody q) n

mutual
/-- There is no array literal in the expression. -/
def safeE {D : Type} : Expr D → Bool
  | .ident .. | .int .. | .float .. | .str .. | .none _ | .member .. => true
  | .arr .. => false
  | .deref _ l i => safeE l && safeE i
  | .call _ c as => safeE c && safeEs as
  | .bin _ l r => safeE l && safeE r
  | .un _ c => safeE c
def safeEs {D : Type} : List (Expr D) → Bool
  | [] => true
  | e :: es => safeE e && safeEs es
end

def safeOpt {D : Type} : Option (Expr D) → Bool
  | none => true
  | some e => safeE e

mutual
/-- There is neither an array literal nor an assignment to a member in the statement. -/
def safeS {D : Type} : Stmt D → Bool
  | .var _ _ e => safeOpt e
  | .assign _ _ e => safeE e
  | .assignArr _ _ i e => safeE i && safeE e
  | .assignMem .. => false
  | .call _ c as => safeE c && safeEs as
  | .ifS _ c thn hasElse els => safeE c && safeSs thn && (!hasElse || safeSs els)
  | .whileS _ c b => safeE c && safeSs b
  | .forS _ _ _ a z b => safeE a && safeE z && safeSs b
  | .ret _ e => safeOpt e
def safeSs {D : Type} : List (Stmt D) → Bool
  | [] => true
  | s :: ss => safeS s && safeSs ss
end

/-- There is neither an array literal nor an assignment to a member in what the file declares. -/
def safeI {D : Type} : Item D → Bool
  | .var _ _ e => safeOpt e
  | .func f => safeSs f.body
  | .syscall .. => true

/-! #### Nodes and texts -/

/-- All nodes of the tree at `n` are of types the collector knows. -/
def Known (mem : Nat → Option Tree.Node) (n : Nat) : Prop :=
  ∀ b, Below mem n b → ∀ x, mem b = some x → x.kept = true

/-- The tree at `n` is whole, is written as `s d` at depth `d`, and holds only types of nodes the collector
knows if and only if `p`. -/
structure Stands (fl : FloatOps) (mem : Nat → Option Tree.Node) (n : Nat) (s : Nat → Str) (p : Bool) : Prop where
  whole : Whole mem n
  shows : ∃ m, ∀ k, m ≤ k → ∀ d, dumpNode fl mem k d n = .ok (s d)
  known : Known mem n ↔ p = true

/-- The same for pointers. -/
structure StandsL (fl : FloatOps) (mem : Nat → Option Tree.Node) (ps : List Tree.Ptr) (s : Nat → Str) (p : Bool) :
    Prop where
  whole : ∀ c, some c ∈ ps → Whole mem c
  shows : ∃ m, ∀ k, m ≤ k → ∀ d, each (dumpNode fl mem k d) ps = .ok (s d)
  known : (∀ c, some c ∈ ps → Known mem c) ↔ p = true

section
variable {fl : FloatOps} {mem : Nat → Option Tree.Node} {s s' : Nat → Str} {p p' : Bool}

theorem known_iff {n : Nat} {x : Tree.Node} (hx : mem n = some x) :
    Known mem n ↔ x.kept = true ∧ ∀ c, some c ∈ x.kids → Known mem c := by
  constructor
  · exact fun h => ⟨h n .here x hx, fun c hc b hb => h b (.step hx hc hb)⟩
  · rintro ⟨h1, h2⟩ b hb y hy
    cases hb with
    | here => rw [hx] at hy; cases hy; exact h1
    | step h3 h4 h5 => rw [hx] at h3; cases h3; exact h2 _ h4 b h5 y hy

theorem standsL_nil : StandsL fl mem [] (fun _ => []) true :=
  ⟨fun _ h => (by cases h), ⟨0, fun _ _ _ => rfl⟩, ⟨fun _ => rfl, fun _ _ h => by cases h⟩⟩

theorem standsL_none {ps : List Tree.Ptr} (h : StandsL fl mem ps s p) : StandsL fl mem (none :: ps) s p :=
  ⟨fun c hc => h.whole c (by simpa using hc), h.shows, by
    rw [← h.known]
    exact ⟨fun h c hc => h c (by simp [hc]), fun h c hc => h c (by simpa using hc)⟩⟩

theorem standsL_cons {n : Nat} {ps : List Tree.Ptr} (h : Stands fl mem n s p) (h' : StandsL fl mem ps s' p') :
    StandsL fl mem (some n :: ps) (fun d => s d ++ s' d) (p && p') := by
  refine ⟨fun c hc => ?_, ?_, ?_⟩
  · rcases List.mem_cons.1 hc with e | hc
    · cases e; exact h.whole
    · exact h'.whole c hc
  · obtain ⟨m, hm⟩ := h.shows
    obtain ⟨m', hm'⟩ := h'.shows
    exact ⟨m + m', fun k hk d => by
      simp only [each, hm k (by omega) d, hm' k (by omega) d]⟩
  · rw [Bool.and_eq_true, ← h.known, ← h'.known]
    constructor
    · exact fun h => ⟨h n (by simp), fun c hc => h c (by simp [hc])⟩
    · rintro ⟨h1, h2⟩ c hc
      rcases List.mem_cons.1 hc with e | hc
      · cases e; exact h1
      · exact h2 c hc

theorem standsL_append : ∀ {ps qs : List Tree.Ptr} {s : Nat → Str} {p : Bool}, StandsL fl mem ps s p →
    StandsL fl mem qs s' p' → StandsL fl mem (ps ++ qs) (fun d => s d ++ s' d) (p && p') := by
  intro ps qs s p h h'
  refine ⟨fun c hc => ?_, ?_, ?_⟩
  · rcases List.mem_append.1 hc with hc | hc
    · exact h.whole c hc
    · exact h'.whole c hc
  · obtain ⟨m, hm⟩ := h.shows
    obtain ⟨m', hm'⟩ := h'.shows
    refine ⟨m + m', fun k hk d => ?_⟩
    have h1 := hm k (by omega) d
    have h2 := hm' k (by omega) d
    revert h1
    generalize s d = t
    clear h hm
    induction ps generalizing t with
    | nil => intro h1; cases h1; simpa using h2
    | cons a ps ih =>
      cases a with
      | none => exact ih t
      | some n =>
        simp only [each, List.cons_append]
        cases hn : dumpNode fl mem k d n with
        | error e => intro h; cases h
        | ok a =>
          dsimp only
          cases hr : each (dumpNode fl mem k d) ps with
          | error e => intro h; cases h
          | ok b =>
            intro h
            cases h
            rw [ih b hr, List.append_assoc]
  · rw [Bool.and_eq_true, ← h.known, ← h'.known]
    constructor
    · exact fun h => ⟨fun c hc => h c (by simp [hc]), fun c hc => h c (by simp [hc])⟩
    · rintro ⟨h1, h2⟩ c hc
      rcases List.mem_append.1 hc with hc | hc
      · exact h1 c hc
      · exact h2 c hc

theorem stands_node {n : Nat} {x : Tree.Node} (hx : mem n = some x) (h : StandsL fl mem x.kids s p) :
    Stands fl mem n (fun d => treeLine d (x.head fl) ++ s (d + 1)) (x.kept && p) := by
  refine ⟨.node hx h.whole, ?_, ?_⟩
  · obtain ⟨m, hm⟩ := h.shows
    refine ⟨m + 1, fun k hk d => ?_⟩
    obtain ⟨k, rfl⟩ : ∃ j, k = j + 1 := ⟨k - 1, by omega⟩
    simp only [dumpNode, hx, hm k (by omega) (d + 1)]
    rfl
  · rw [known_iff hx, Bool.and_eq_true, h.known]

theorem Stands.one {n : Nat} (h : Stands fl mem n s p) : StandsL fl mem [some n] s p := by
  have := standsL_cons h (standsL_nil (fl := fl) (mem := mem))
  simpa using this

theorem Stands.as {n : Nat} (h : Stands fl mem n s p) (e : s = s') (e' : p = p') : Stands fl mem n s' p' :=
  e ▸ e' ▸ h

theorem standsL_two {a b : Nat} {s₂ : Nat → Str} {p₂ : Bool} (h : Stands fl mem a s p) (h' : Stands fl mem b s₂ p₂) :
    StandsL fl mem [some a, some b] (fun d => s d ++ s₂ d) (p && p₂) := standsL_cons h h'.one

mutual
theorem stands_E {D : Type} : ∀ (e : Expr D) (n : Nat), IsE mem e n →
    Stands fl mem n (fun d => showE fl d e) (safeE e)
  | .ident _ _, n, h => by
    simp only [IsE] at h
    refine (stands_node h standsL_nil).as (funext fun d => ?_) ?_ <;> simp [showE, safeE, Tree.Node.head, Tree.Node.kept]
  | .int .., n, h => by
    simp only [IsE] at h
    refine (stands_node h standsL_nil).as (funext fun d => ?_) ?_ <;> simp [showE, safeE, Tree.Node.head, Tree.Node.kept]
  | .float .., n, h => by
    simp only [IsE] at h
    refine (stands_node h standsL_nil).as (funext fun d => ?_) ?_ <;> simp [showE, safeE, Tree.Node.head, Tree.Node.kept]
  | .str .., n, h => by
    simp only [IsE] at h
    refine (stands_node h standsL_nil).as (funext fun d => ?_) ?_ <;> simp [showE, safeE, Tree.Node.head, Tree.Node.kept]
  | .none _, n, h => by
    simp only [IsE] at h
    refine (stands_node h standsL_nil).as (funext fun d => ?_) ?_ <;> simp [showE, safeE, Tree.Node.head, Tree.Node.kept]
  | .member .., n, h => by
    simp only [IsE] at h
    refine (stands_node h standsL_nil).as (funext fun d => ?_) ?_ <;> simp [showE, safeE, Tree.Node.head, Tree.Node.kept]
  | .arr _ es, n, h => by
    simp only [IsE] at h
    obtain ⟨ps, h, h1⟩ := h
    refine (stands_node h (stands_Es es ps h1)).as (funext fun d => ?_) ?_ <;>
      simp [showE, safeE, Tree.Node.head, Tree.Node.kept]
  | .deref _ l i, n, h => by
    simp only [IsE] at h
    obtain ⟨a, b, h, h1, h2⟩ := h
    refine (stands_node h (standsL_two (stands_E l a h1) (stands_E i b h2))).as (funext fun d => ?_) ?_ <;>
      simp [showE, safeE, Tree.Node.head, Tree.Node.kept]
  | .call _ c as, n, h => by
    simp only [IsE] at h
    obtain ⟨a, ps, h, h1, h2⟩ := h
    refine (stands_node h (standsL_append (stands_Es as ps h2) (stands_E c a h1).one)).as
      (funext fun d => ?_) ?_ <;> simp [showE, safeE, Tree.Node.head, Tree.Node.kept, Bool.and_comm]
  | .bin op l r, n, h => by
    simp only [IsE] at h
    obtain ⟨a, b, h, h1, h2⟩ := h
    refine (stands_node h (standsL_two (stands_E l a h1) (stands_E r b h2))).as (funext fun d => ?_) ?_
    · simp only [showE, Tree.Node.head, List.append_assoc]
      rfl
    · simp [safeE, Tree.Node.kept]
  | .un _ c, n, h => by
    simp only [IsE] at h
    obtain ⟨a, h, h1⟩ := h
    refine (stands_node h (stands_E c a h1).one).as (funext fun d => ?_) ?_ <;>
      simp [showE, safeE, Tree.Node.head, Tree.Node.kept]

theorem stands_Es {D : Type} : ∀ (es : List (Expr D)) (ps : List Tree.Ptr), IsEs mem es ps →
    StandsL fl mem ps (fun d => showEs fl d es) (safeEs es)
  | [], ps, h => by
    simp only [IsEs] at h
    subst h
    simpa only [showEs, safeEs] using standsL_nil
  | e :: es, ps, h => by
    simp only [IsEs] at h
    obtain ⟨n, qs, rfl, h1, h2⟩ := h
    simpa only [showEs, safeEs] using standsL_cons (stands_E e n h1) (stands_Es es qs h2)
end

theorem stands_opt {D : Type} : ∀ (e : Option (Expr D)) (q : Tree.Ptr), IsOpt mem e q →
    StandsL fl mem [q] (fun d => showOpt fl d e) (safeOpt e)
  | none, q, h => by
    simp only [IsOpt] at h
    subst h
    exact standsL_none standsL_nil
  | some e, q, h => by
    simp only [IsOpt] at h
    obtain ⟨n, rfl, h⟩ := h
    exact (stands_E e n h).one

theorem stands_block {b : Nat} {ps : List Tree.Ptr} (h : mem b = some (.block ps)) (h' : StandsL fl mem ps s p) :
    Stands fl mem b (fun d => treeLine d (str "ast_block_t") ++ s (d + 1)) p :=
  (stands_node h h').as rfl (by simp [Tree.Node.kept])

mutual
theorem stands_S {D : Type} : ∀ (x : Stmt D) (n : Nat), IsS mem x n →
    Stands fl mem n (fun d => showS fl d x) (safeS x)
  | .var _ _ e, n, h => by
    simp only [IsS] at h
    obtain ⟨q, h, h1⟩ := h
    refine (stands_node h (stands_opt e q h1)).as (funext fun d => ?_) ?_ <;>
      simp [showS, safeS, Tree.Node.head, Tree.Node.kept]
  | .assign _ _ e, n, h => by
    simp only [IsS] at h
    obtain ⟨a, h, h1⟩ := h
    refine (stands_node h (stands_E e a h1).one).as (funext fun d => ?_) ?_ <;>
      simp [showS, safeS, Tree.Node.head, Tree.Node.kept]
  | .assignArr _ _ i e, n, h => by
    simp only [IsS] at h
    obtain ⟨a, b, h, h1, h2⟩ := h
    refine (stands_node h (standsL_two (stands_E i a h1) (stands_E e b h2))).as (funext fun d => ?_) ?_ <;>
      simp [showS, safeS, Tree.Node.head, Tree.Node.kept]
  | .assignMem _ _ _ e, n, h => by
    simp only [IsS] at h
    obtain ⟨a, h, h1⟩ := h
    refine (stands_node h (stands_E e a h1).one).as (funext fun d => ?_) ?_ <;>
      simp [showS, safeS, Tree.Node.head, Tree.Node.kept]
  | .call t c as, n, h => by
    simp only [IsS] at h
    obtain ⟨a, h, h1⟩ := h
    refine (stands_node h (stands_E (.call t c as) a h1).one).as (funext fun d => ?_) ?_ <;>
      simp [showS, safeS, safeE, Tree.Node.head, Tree.Node.kept]
  | .ifS _ c thn hasElse els, n, h => by
    simp only [IsS] at h
    obtain ⟨a, b, q, h, h1, ⟨ps, h2, h3⟩, h4, h5⟩ := h
    have e1 := stands_E (fl := fl) c a h1
    have e2 := stands_block h2 (stands_Ss thn ps h3)
    cases hasElse with
    | false =>
      cases h4 rfl
      refine (stands_node h (standsL_cons e1 (standsL_cons e2 (standsL_none standsL_nil)))).as
        (funext fun d => ?_) ?_ <;> simp [showS, safeS, Tree.Node.head, Tree.Node.kept]
    | true =>
      obtain ⟨b', rfl, qs, h6, h7⟩ := h5 rfl
      have e3 := stands_block h6 (stands_Ss els qs h7)
      refine (stands_node h (standsL_cons e1 (standsL_two e2 e3))).as
        (funext fun d => ?_) ?_ <;> simp [showS, safeS, Tree.Node.head, Tree.Node.kept, Bool.and_assoc]
  | .whileS _ c body, n, h => by
    simp only [IsS] at h
    obtain ⟨a, b, h, h1, ps, h2, h3⟩ := h
    refine (stands_node h (standsL_two (stands_E c a h1) (stands_block h2 (stands_Ss body ps h3)))).as
      (funext fun d => ?_) ?_ <;> simp [showS, safeS, Tree.Node.head, Tree.Node.kept]
  | .forS _ _ _ x z body, n, h => by
    simp only [IsS] at h
    obtain ⟨a, a', b, h, h1, h2, ps, h3, h4⟩ := h
    refine (stands_node h (standsL_cons (stands_E x a h1) (standsL_two (stands_E z a' h2)
      (stands_block h3 (stands_Ss body ps h4))))).as
      (funext fun d => ?_) ?_ <;> simp [showS, safeS, Tree.Node.head, Tree.Node.kept, Bool.and_assoc]
  | .ret _ e, n, h => by
    simp only [IsS] at h
    obtain ⟨q, h, h1⟩ := h
    refine (stands_node h (stands_opt e q h1)).as (funext fun d => ?_) ?_ <;>
      simp [showS, safeS, Tree.Node.head, Tree.Node.kept]

theorem stands_Ss {D : Type} : ∀ (xs : List (Stmt D)) (ps : List Tree.Ptr), IsSs mem xs ps →
    StandsL fl mem ps (fun d => showSs fl d xs) (safeSs xs)
  | [], ps, h => by
    simp only [IsSs] at h
    subst h
    simpa only [showSs, safeSs] using standsL_nil
  | e :: es, ps, h => by
    simp only [IsSs] at h
    obtain ⟨n, qs, rfl, h1, h2⟩ := h
    simpa only [showSs, safeSs] using standsL_cons (stands_S e n h1) (stands_Ss es qs h2)
end

theorem stands_args : ∀ (as : List Str) (ps : List Tree.Ptr), IsArgs mem as ps →
    StandsL fl mem ps (fun d => (as.map fun a =>
      treeLine d (str "ast_decl_var_t {name: " ++ cstr a ++ str "}")).flatten) true
  | [], ps, h => by
    simp only [IsArgs] at h
    subst h
    exact standsL_nil
  | a :: as, ps, h => by
    simp only [IsArgs] at h
    obtain ⟨n, qs, rfl, h1, h2⟩ := h
    have e1 : Stands fl mem n (fun d => treeLine d (str "ast_decl_var_t {name: " ++ cstr a ++ str "}")) true :=
      (stands_node h1 (standsL_none standsL_nil)).as (funext fun d => by simp [Tree.Node.head]) rfl
    simpa using standsL_cons e1 (stands_args as qs h2)

theorem stands_F {D : Type} {name : Str} {args : List Str} {body : List (Stmt D)} {n : Nat}
    (h : IsF mem name args body n) : Stands fl mem n (fun d =>
      treeLine d (str "ast_decl_func_t {name: " ++ cstr name ++ str "}") ++
      ((args.map fun a => treeLine (d + 1) (str "ast_decl_var_t {name: " ++ cstr a ++ str "}")).flatten ++
      (treeLine (d + 1) (str "ast_block_t") ++ showSs fl (d + 2) body))) (safeSs body) := by
  obtain ⟨ps, b, qs, h, h1, h2, h3⟩ := h
  refine (stands_node h (standsL_append (stands_args args ps h1) (stands_block h2 (stands_Ss body qs h3)).one)).as
    (funext fun d => ?_) ?_ <;> simp [Tree.Node.head, Tree.Node.kept]

theorem standsL_nulls : ∀ n, StandsL fl mem (List.replicate n none) (fun _ => []) true
  | 0 => standsL_nil
  | n + 1 => standsL_none (standsL_nulls n)

/-- A text at a given depth only. -/
def At1 (fl : FloatOps) (mem : Nat → Option Tree.Node) (n : Nat) (t : Str) (p : Bool) : Prop :=
  ∃ s, Stands fl mem n s p ∧ s 1 = t

theorem stands_I {D : Type} : ∀ (x : Item D) (n : Nat), IsI mem x n → At1 fl mem n (showI fl x) (safeI x)
  | .var _ _ e, n, ⟨q, h, h1⟩ => by
    refine ⟨_, (stands_node h (stands_opt e q h1)).as rfl ?_, ?_⟩
    · simp [safeI, Tree.Node.kept]
    · simp [showI, Tree.Node.head]
  | .func f, n, h => by
    refine ⟨_, stands_F h, ?_⟩
    simp [showI, showF]
  | .syscall name as, n, h => by
    simp only [IsI] at h
    refine ⟨_, (stands_node h (standsL_append (standsL_nulls _) (standsL_none standsL_nil))).as rfl ?_, ?_⟩
    · simp [safeI, Tree.Node.kept]
    · simp [showI, Tree.Node.head]

theorem stands_Is {D : Type} : ∀ (xs : List (Item D)) (ps : List Tree.Ptr), IsIs mem xs ps →
    ∃ s, StandsL fl mem ps s (xs.all safeI) ∧ s 1 = (xs.map (showI fl)).flatten
  | [], ps, h => by
    simp only [IsIs] at h
    subst h
    exact ⟨_, standsL_nil, rfl⟩
  | x :: xs, ps, h => by
    simp only [IsIs] at h
    obtain ⟨n, qs, rfl, h1, h2⟩ := h
    obtain ⟨s, h3, h4⟩ := stands_I (fl := fl) x n h1
    obtain ⟨s', h5, h6⟩ := stands_Is xs qs h2
    exact ⟨_, standsL_cons h3 h5, by simp [h4, h6]⟩

end

theorem safe_init : ∀ (q : Prog Ref) (i : Nat), q.all safeI = true → safeSs (initFrom i q) = true
  | [], _, _ => rfl
  | .var _ true _ :: q, i, h => by
    simp only [List.all_cons, Bool.and_eq_true] at h
    simpa only [initFrom] using safe_init q (i + 1) h.2
  | .var _ false none :: q, i, h => by
    simp only [List.all_cons, Bool.and_eq_true] at h
    simpa only [initFrom] using safe_init q (i + 1) h.2
  | .var _ false (some e) :: q, i, h => by
    simp only [List.all_cons, Bool.and_eq_true] at h
    simp only [initFrom, safeSs, safeS, Bool.and_eq_true]
    exact ⟨h.1, safe_init q (i + 1) h.2⟩
  | .func _ :: q, i, h => by
    simp only [List.all_cons, Bool.and_eq_true] at h
    simpa only [initFrom] using safe_init q (i + 1) h.2
  | .syscall .. :: q, i, h => by
    simp only [List.all_cons, Bool.and_eq_true] at h
    simpa only [initFrom] using safe_init q (i + 1) h.2

theorem stands_P {fl : FloatOps} {t : Ast} {q : Prog Ref} (h : IsP t q) :
    ∃ s, StandsL fl t.mem t.children s (q.all safeI) ∧ str "ast_program_t\n" ++ s 1 = showP fl q := by
  obtain ⟨ps, n, h1, h2, h3⟩ := h
  obtain ⟨s, h4, h5⟩ := stands_Is (fl := fl) q ps h2
  have h6 := standsL_append h4 (stands_F (fl := fl) h3).one
  have e : (q.all safeI && safeSs (initBody q)) = q.all safeI := by
    cases hq : q.all safeI with
    | false => rfl
    | true => simpa [initBody] using safe_init q 0 hq
  rw [e, ← h1] at h6
  exact ⟨_, h6, by simp [showP, showF, h5]⟩

/-- C69: the tree of a program is written as the program it is the tree of. -/
theorem C69_dump_shows (fl : FloatOps) (t : Ast) (q : Prog Ref) (h : IsP t q) :
    ∃ m, ∀ k, m ≤ k → Tree.dump fl k t = .ok (showP fl q) := by
  obtain ⟨s, h1, h2⟩ := stands_P (fl := fl) h
  obtain ⟨m, hm⟩ := h1.shows
  exact ⟨m, fun k hk => by simp only [Tree.dump, hm k hk 1, h2]⟩

/-- C69: what the compiler writes when it is asked for the tree, which is behind `gc`: the program, if it has
neither array literals nor assignments to members, and otherwise a deleted node is read. -/
theorem C69_shown_partial (fl : FloatOps) (t : Ast) (q : Prog Ref) (h : IsP t q)
    (ho : ∀ n, (t.mem n).isSome → n ∈ t.allocs) : ∃ m, ∀ k, m ≤ k → ∃ t', gc k t = .ok t' ∧
      Tree.dump fl k t' = if q.all safeI then .ok (showP fl q) else .error .ub := by
  obtain ⟨s, h1, h2⟩ := stands_P (fl := fl) h
  have hi : Intact t := ⟨h1.whole, ho⟩
  split
  · rename_i hq
    have hk := h1.known.2 hq
    obtain ⟨m, hm⟩ := C69_dump_partial fl t hi fun n x ⟨c, hc, hb⟩ hx => by
      have := hk c hc n hb x hx
      exact ⟨fun es e => (by subst e; cases this), fun es e => (by subst e; cases this)⟩
    obtain ⟨m', hm'⟩ := C69_dump_shows fl t q h
    refine ⟨m + m', fun k hk => ?_⟩
    obtain ⟨t', x, h3, h4, h5⟩ := hm k (by omega)
    rw [hm' k (by omega)] at h4
    cases h4
    exact ⟨t', h3, h5⟩
  · rename_i hq
    have hk := mt h1.known.1 hq
    obtain ⟨c, hc⟩ := Classical.not_forall.1 hk
    obtain ⟨hc, hn⟩ := Classical.not_imp.1 hc
    obtain ⟨b, hb⟩ := Classical.not_forall.1 hn
    obtain ⟨hb, hx⟩ := Classical.not_imp.1 hb
    obtain ⟨x, hx⟩ := Classical.not_forall.1 hx
    obtain ⟨hx, hkept⟩ := Classical.not_imp.1 hx
    refine C69_dangling fl t hi b x ⟨c, hc, hb⟩ hx ?_
    cases x <;> first | exact absurd rfl hkept | exact .inl ⟨_, rfl⟩ | exact .inr ⟨_, rfl⟩

/-! #### Every program has such a tree -/

section
variable {mem mem' : Nat → Option Tree.Node}

mutual
theorem IsE.mono {D : Type} (hm : ∀ n x, mem n = some x → mem' n = some x) : ∀ (e : Expr D) (n : Nat),
    IsE mem e n → IsE mem' e n
  | .ident .., n, h | .int .., n, h | .float .., n, h | .str .., n, h | .none _, n, h | .member .., n, h => by
    simp only [IsE] at h ⊢
    exact hm _ _ h
  | .arr _ es, n, h => by
    simp only [IsE] at h ⊢
    obtain ⟨ps, h1, h2⟩ := h
    exact ⟨ps, hm _ _ h1, IsEs.mono hm es ps h2⟩
  | .deref _ l i, n, h | .bin _ l i, n, h => by
    simp only [IsE] at h ⊢
    obtain ⟨a, b, h1, h2, h3⟩ := h
    exact ⟨a, b, hm _ _ h1, IsE.mono hm l a h2, IsE.mono hm i b h3⟩
  | .call _ c as, n, h => by
    simp only [IsE] at h ⊢
    obtain ⟨a, ps, h1, h2, h3⟩ := h
    exact ⟨a, ps, hm _ _ h1, IsE.mono hm c a h2, IsEs.mono hm as ps h3⟩
  | .un _ c, n, h => by
    simp only [IsE] at h ⊢
    obtain ⟨a, h1, h2⟩ := h
    exact ⟨a, hm _ _ h1, IsE.mono hm c a h2⟩

theorem IsEs.mono {D : Type} (hm : ∀ n x, mem n = some x → mem' n = some x) : ∀ (es : List (Expr D)) (ps : List Tree.Ptr),
    IsEs mem es ps → IsEs mem' es ps
  | [], ps, h => by simpa only [IsEs] using h
  | e :: es, ps, h => by
    simp only [IsEs] at h ⊢
    obtain ⟨n, qs, h1, h2, h3⟩ := h
    exact ⟨n, qs, h1, IsE.mono hm e n h2, IsEs.mono hm es qs h3⟩
end

theorem IsOpt.mono {D : Type} (hm : ∀ n x, mem n = some x → mem' n = some x) : ∀ (e : Option (Expr D)) (p : Tree.Ptr),
    IsOpt mem e p → IsOpt mem' e p
  | none, _, h => h
  | some e, _, ⟨n, h, h'⟩ => ⟨n, h, h'.mono hm e n⟩

mutual
theorem IsS.mono {D : Type} (hm : ∀ n x, mem n = some x → mem' n = some x) : ∀ (x : Stmt D) (n : Nat),
    IsS mem x n → IsS mem' x n
  | .var _ _ e, n, h | .ret _ e, n, h => by
    simp only [IsS] at h ⊢
    obtain ⟨p, h1, h2⟩ := h
    exact ⟨p, hm _ _ h1, h2.mono hm e p⟩
  | .assign _ _ e, n, h | .assignMem _ _ _ e, n, h => by
    simp only [IsS] at h ⊢
    obtain ⟨p, h1, h2⟩ := h
    exact ⟨p, hm _ _ h1, h2.mono hm e p⟩
  | .assignArr _ _ i e, n, h => by
    simp only [IsS] at h ⊢
    obtain ⟨a, b, h1, h2, h3⟩ := h
    exact ⟨a, b, hm _ _ h1, h2.mono hm i a, h3.mono hm e b⟩
  | .call t c as, n, h => by
    simp only [IsS] at h ⊢
    obtain ⟨a, h1, h2⟩ := h
    exact ⟨a, hm _ _ h1, h2.mono hm _ a⟩
  | .ifS _ c thn hasElse els, n, h => by
    simp only [IsS] at h ⊢
    obtain ⟨a, b, q, h1, h2, ⟨ps, h3, h4⟩, h5, h6⟩ := h
    refine ⟨a, b, q, hm _ _ h1, h2.mono hm c a, ⟨ps, hm _ _ h3, IsSs.mono hm thn ps h4⟩, h5, fun h => ?_⟩
    obtain ⟨b', h7, qs, h8, h9⟩ := h6 h
    exact ⟨b', h7, qs, hm _ _ h8, IsSs.mono hm els qs h9⟩
  | .whileS _ c body, n, h => by
    simp only [IsS] at h ⊢
    obtain ⟨a, b, h1, h2, ps, h3, h4⟩ := h
    exact ⟨a, b, hm _ _ h1, h2.mono hm c a, ps, hm _ _ h3, IsSs.mono hm body ps h4⟩
  | .forS _ _ _ x z body, n, h => by
    simp only [IsS] at h ⊢
    obtain ⟨a, a', b, h1, h2, h2', ps, h3, h4⟩ := h
    exact ⟨a, a', b, hm _ _ h1, h2.mono hm x a, h2'.mono hm z a', ps, hm _ _ h3, IsSs.mono hm body ps h4⟩

theorem IsSs.mono {D : Type} (hm : ∀ n x, mem n = some x → mem' n = some x) : ∀ (xs : List (Stmt D)) (ps : List Tree.Ptr),
    IsSs mem xs ps → IsSs mem' xs ps
  | [], ps, h => by simpa only [IsSs] using h
  | x :: xs, ps, h => by
    simp only [IsSs] at h ⊢
    obtain ⟨n, qs, h1, h2, h3⟩ := h
    exact ⟨n, qs, h1, IsS.mono hm x n h2, IsSs.mono hm xs qs h3⟩
end

theorem IsArgs.mono (hm : ∀ n x, mem n = some x → mem' n = some x) : ∀ (as : List Str) (ps : List Tree.Ptr),
    IsArgs mem as ps → IsArgs mem' as ps
  | [], _, h => h
  | _ :: as, _, ⟨n, qs, h1, h2, h3⟩ => ⟨n, qs, h1, hm _ _ h2, IsArgs.mono hm as qs h3⟩

theorem IsF.mono {D : Type} (hm : ∀ n x, mem n = some x → mem' n = some x) {name : Str} {args : List Str}
    {body : List (Stmt D)} {n : Nat} : IsF mem name args body n → IsF mem' name args body n
  | ⟨ps, b, qs, h1, h2, h3, h4⟩ => ⟨ps, b, qs, hm _ _ h1, h2.mono hm _ _, hm _ _ h3, h4.mono hm _ _⟩

theorem IsI.mono {D : Type} (hm : ∀ n x, mem n = some x → mem' n = some x) : ∀ (x : Item D) (n : Nat),
    IsI mem x n → IsI mem' x n
  | .var .., _, ⟨p, h1, h2⟩ => ⟨p, hm _ _ h1, h2.mono hm _ _⟩
  | .func _, _, h => IsF.mono hm h
  | .syscall .., _, h => hm _ _ h

theorem IsIs.mono {D : Type} (hm : ∀ n x, mem n = some x → mem' n = some x) : ∀ (xs : List (Item D)) (ps : List Tree.Ptr),
    IsIs mem xs ps → IsIs mem' xs ps
  | [], _, h => h
  | x :: xs, _, ⟨n, qs, h1, h2, h3⟩ => ⟨n, qs, h1, h2.mono hm x n, IsIs.mono hm xs qs h3⟩
end

/-- The nodes in the list, by their position. -/
def memOf (l : List Tree.Node) : Nat → Option Tree.Node := fun n => l[n]?

/-- More nodes can be put behind those there are. -/
structure Grow {α : Type} (P : (Nat → Option Tree.Node) → α → Prop) : Prop where
  run : ∀ l, ∃ l' a, P (memOf (l ++ l')) a

theorem memOf_mono (l l' : List Tree.Node) (n : Nat) (x : Tree.Node) (h : memOf l n = some x) :
    memOf (l ++ l') n = some x := by
  have : n < l.length := (List.getElem?_eq_some_iff.1 h).1
  unfold memOf
  rw [List.getElem?_append_left this]
  exact h

theorem memOf_last (l : List Tree.Node) (x : Tree.Node) : memOf (l ++ [x]) l.length = some x := by
  simp [memOf]

section
variable {α β : Type} {P : (Nat → Option Tree.Node) → α → Prop} {Q : (Nat → Option Tree.Node) → β → Prop}

/-- Two things one after the other. -/
theorem Grow.and (hP : Grow P) (hQ : Grow Q)
    (mono : ∀ mem mem' a, (∀ n x, mem n = some x → mem' n = some x) → P mem a → P mem' a) :
    Grow fun mem (ab : α × β) => P mem ab.1 ∧ Q mem ab.2 := by
  refine ⟨fun l => ?_⟩
  obtain ⟨l1, a, h1⟩ := hP.run l
  obtain ⟨l2, b, h2⟩ := hQ.run (l ++ l1)
  refine ⟨l1 ++ l2, (a, b), ?_, ?_⟩
  · rw [← List.append_assoc]
    exact mono _ _ a (memOf_mono _ _) h1
  · rw [← List.append_assoc]
    exact h2

/-- A node on top. -/
theorem Grow.node (hP : Grow P) (mono : ∀ mem mem' a, (∀ n x, mem n = some x → mem' n = some x) → P mem a → P mem' a)
    (f : α → Tree.Node) : Grow fun mem n => ∃ a, mem n = some (f a) ∧ P mem a := by
  refine ⟨fun l => ?_⟩
  obtain ⟨l1, a, h1⟩ := hP.run l
  refine ⟨l1 ++ [f a], (l ++ l1).length, a, ?_, ?_⟩
  · rw [← List.append_assoc]
    exact memOf_last _ _
  · rw [← List.append_assoc]
    exact mono _ _ a (memOf_mono _ _) h1

theorem Grow.imp (hP : Grow P) (f : α → β) (h : ∀ mem a, P mem a → Q mem (f a)) : Grow Q := by
  refine ⟨fun l => ?_⟩
  obtain ⟨l1, a, h1⟩ := hP.run l
  exact ⟨l1, f a, h _ _ h1⟩

theorem Grow.nothing (a : α) (h : ∀ mem, P mem a) : Grow P := ⟨fun _ => ⟨[], a, h _⟩⟩

theorem Grow.leaf (x : Tree.Node) : Grow fun mem n => mem n = some x :=
  ⟨fun l => ⟨[x], l.length, memOf_last _ _⟩⟩
end

mutual
theorem grow_E {D : Type} : ∀ e : Expr D, Grow fun mem n => IsE mem e n
  | .ident .. | .int .. | .float .. | .str .. | .none _ | .member .. => by
    simp only [IsE]
    exact Grow.leaf _
  | .arr _ es => by
    simp only [IsE]
    exact (grow_Es es).node (fun _ _ a hm h => h.mono hm _ a) (fun ps => .arrayInit ps)
  | .deref _ l i => by
    simp only [IsE]
    refine (((grow_E l).and (grow_E i) fun _ _ a hm h => h.mono hm _ a).node
      (fun _ _ a hm h => ⟨h.1.mono hm _ _, h.2.mono hm _ _⟩) (fun a => .deref (some a.1) (some a.2))).imp id ?_
    rintro _ _ ⟨⟨a, b⟩, h1, h2, h3⟩
    exact ⟨a, b, h1, h2, h3⟩
  | .bin op l i => by
    simp only [IsE]
    refine (((grow_E l).and (grow_E i) fun _ _ a hm h => h.mono hm _ a).node
      (fun _ _ a hm h => ⟨h.1.mono hm _ _, h.2.mono hm _ _⟩) (fun a => .bin op.type (some a.1) (some a.2))).imp id ?_
    rintro _ _ ⟨⟨a, b⟩, h1, h2, h3⟩
    exact ⟨a, b, h1, h2, h3⟩
  | .call _ c as => by
    simp only [IsE]
    refine (((grow_E c).and (grow_Es as) fun _ _ a hm h => h.mono hm _ a).node
      (fun _ _ a hm h => ⟨h.1.mono hm _ _, h.2.mono hm _ _⟩) (fun a => .call (some a.1) a.2)).imp id ?_
    rintro _ _ ⟨⟨a, b⟩, h1, h2, h3⟩
    exact ⟨a, b, h1, h2, h3⟩
  | .un _ c => by
    simp only [IsE]
    exact (grow_E c).node (fun _ _ a hm h => h.mono hm _ a) (fun a => .un (some a))

theorem grow_Es {D : Type} : ∀ es : List (Expr D), Grow fun mem ps => IsEs mem es ps
  | [] => Grow.nothing [] fun _ => by simp only [IsEs]
  | e :: es => by
    simp only [IsEs]
    refine ((grow_E e).and (grow_Es es) fun _ _ a hm h => h.mono hm _ a).imp (fun a => some a.1 :: a.2) ?_
    rintro _ ⟨a, b⟩ ⟨h1, h2⟩
    exact ⟨a, b, rfl, h1, h2⟩
end

theorem grow_opt {D : Type} : ∀ e : Option (Expr D), Grow fun mem p => IsOpt mem e p
  | none => Grow.nothing none fun _ => rfl
  | some e => (grow_E e).imp some fun _ a h => ⟨a, rfl, h⟩

theorem block_mono {D : Type} {mem mem' : Nat → Option Tree.Node} {b : List (Stmt D)} {a : Nat}
    (hm : ∀ n x, mem n = some x → mem' n = some x) :
    (∃ ps, mem a = some (.block ps) ∧ IsSs mem b ps) → ∃ ps, mem' a = some (.block ps) ∧ IsSs mem' b ps
  | ⟨ps, h1, h2⟩ => ⟨ps, hm _ _ h1, h2.mono hm _ _⟩

mutual
theorem grow_S {D : Type} : ∀ x : Stmt D, Grow fun mem n => IsS mem x n
  | .var t _ e => by
    simp only [IsS]
    exact (grow_opt e).node (fun _ _ a hm h => h.mono hm _ a) (fun p => .var t.str p)
  | .ret _ e => by
    simp only [IsS]
    exact (grow_opt e).node (fun _ _ a hm h => h.mono hm _ a) (fun p => .ret p)
  | .assign t _ e => by
    simp only [IsS]
    exact (grow_E e).node (fun _ _ a hm h => h.mono hm _ a) (fun a => .assignVar t.str (some a))
  | .assignMem _ _ _ e => by
    simp only [IsS]
    exact (grow_E e).node (fun _ _ a hm h => h.mono hm _ a) (fun a => .assignMem (some a))
  | .assignArr _ _ i e => by
    simp only [IsS]
    refine (((grow_E i).and (grow_E e) fun _ _ a hm h => h.mono hm _ a).node
      (fun _ _ a hm h => ⟨h.1.mono hm _ _, h.2.mono hm _ _⟩) (fun a => .assignArr (some a.1) (some a.2))).imp id ?_
    rintro _ _ ⟨⟨a, b⟩, h1, h2, h3⟩
    exact ⟨a, b, h1, h2, h3⟩
  | .call t c as => by
    simp only [IsS]
    exact (grow_E (.call t c as)).node (fun _ _ a hm h => h.mono hm _ a) (fun a => .stmtCall (some a))
  | .ifS _ c thn false els => by
    simp only [IsS]
    refine (((grow_E c).and (grow_B thn) fun _ _ a hm h => h.mono hm _ a).node
      (fun _ _ a hm h => ⟨h.1.mono hm _ _, block_mono hm h.2⟩) (fun a => .ifS (some a.1) (some a.2) none)).imp id ?_
    rintro _ _ ⟨⟨a, b⟩, h1, h2, h3⟩
    exact ⟨a, b, none, h1, h2, h3, fun _ => rfl, fun h => by cases h⟩
  | .ifS _ c thn true els => by
    simp only [IsS]
    refine (((grow_E c).and ((grow_B thn).and (grow_B els) fun _ _ a hm h => block_mono hm h)
      fun _ _ a hm h => h.mono hm _ a).node
      (fun _ _ a hm h => ⟨h.1.mono hm _ _, block_mono hm h.2.1, block_mono hm h.2.2⟩)
      (fun a => .ifS (some a.1) (some a.2.1) (some a.2.2))).imp id ?_
    rintro _ _ ⟨⟨a, b, b'⟩, h1, h2, h3, h4⟩
    exact ⟨a, b, some b', h1, h2, h3, fun h => (by cases h), fun _ => ⟨b', rfl, h4⟩⟩
  | .whileS _ c body => by
    simp only [IsS]
    refine (((grow_E c).and (grow_B body) fun _ _ a hm h => h.mono hm _ a).node
      (fun _ _ a hm h => ⟨h.1.mono hm _ _, block_mono hm h.2⟩) (fun a => .whileS (some a.1) (some a.2))).imp id ?_
    rintro _ _ ⟨⟨a, b⟩, h1, h2, h3⟩
    exact ⟨a, b, h1, h2, h3⟩
  | .forS _ t _ x z body => by
    simp only [IsS]
    refine (((grow_E x).and ((grow_E z).and (grow_B body) fun _ _ a hm h => h.mono hm _ a)
      fun _ _ a hm h => h.mono hm _ a).node
      (fun _ _ a hm h => ⟨h.1.mono hm _ _, h.2.1.mono hm _ _, block_mono hm h.2.2⟩)
      (fun a => .forS t.str (some a.1) (some a.2.1) (some a.2.2))).imp id ?_
    rintro _ _ ⟨⟨a, a', b⟩, h1, h2, h3, h4⟩
    exact ⟨a, a', b, h1, h2, h3, h4⟩

theorem grow_B {D : Type} (xs : List (Stmt D)) : Grow fun mem n => ∃ ps, mem n = some (.block ps) ∧ IsSs mem xs ps :=
  (grow_Ss xs).node (fun _ _ a hm h => h.mono hm _ a) (fun ps => .block ps)

theorem grow_Ss {D : Type} : ∀ xs : List (Stmt D), Grow fun mem ps => IsSs mem xs ps
  | [] => Grow.nothing [] fun _ => by simp only [IsSs]
  | x :: xs => by
    simp only [IsSs]
    refine ((grow_S x).and (grow_Ss xs) fun _ _ a hm h => h.mono hm _ a).imp (fun a => some a.1 :: a.2) ?_
    rintro _ ⟨a, b⟩ ⟨h1, h2⟩
    exact ⟨a, b, rfl, h1, h2⟩
end

theorem grow_args : ∀ as : List Str, Grow fun mem ps => IsArgs mem as ps
  | [] => Grow.nothing [] fun _ => rfl
  | a :: as => by
    refine ((Grow.leaf (.var a none)).and (grow_args as) fun _ _ a hm h => hm _ _ h).imp
      (fun a => some a.1 :: a.2) ?_
    rintro _ ⟨a, b⟩ ⟨h1, h2⟩
    exact ⟨a, b, rfl, h1, h2⟩

theorem grow_F {D : Type} (name : Str) (args : List Str) (body : List (Stmt D)) :
    Grow fun mem n => IsF mem name args body n := by
  refine (((grow_args args).and (grow_B body) fun _ _ a hm h => h.mono hm _ a).node
    (fun _ _ a hm h => ⟨h.1.mono hm _ _, block_mono hm h.2⟩) (fun a => .func name a.1 (some a.2))).imp id ?_
  rintro _ _ ⟨⟨ps, b⟩, h1, h2, qs, h3, h4⟩
  exact ⟨ps, b, qs, h1, h2, h3, h4⟩

theorem grow_I {D : Type} : ∀ x : Item D, Grow fun mem n => IsI mem x n
  | .var t _ e => (grow_opt e).node (fun _ _ a hm h => h.mono hm _ a) (fun p => .var t.str p)
  | .func f => grow_F ..
  | .syscall .. => Grow.leaf _

theorem grow_Is {D : Type} : ∀ xs : List (Item D), Grow fun mem ps => IsIs mem xs ps
  | [] => Grow.nothing [] fun _ => rfl
  | x :: xs => by
    refine ((grow_I x).and (grow_Is xs) fun _ _ a hm h => h.mono hm _ a).imp (fun a => some a.1 :: a.2) ?_
    rintro _ ⟨a, b⟩ ⟨h1, h2⟩
    exact ⟨a, b, rfl, h1, h2⟩

/-- Every program has a tree in memory: the hypotheses of the theorems above can be met for all of them. -/
theorem tree_exists (q : Prog Ref) : ∃ t, IsP t q ∧ ∀ n, (t.mem n).isSome → n ∈ t.allocs := by
  obtain ⟨l, ⟨ps, n⟩, h1, h2⟩ := ((grow_Is q).and (grow_F (str "@init") [] (initBody q))
    fun _ _ a hm h => h.mono hm _ a).run []
  refine ⟨⟨ps ++ [some n], memOf ([] ++ l), List.range l.length⟩, ⟨ps, n, rfl, h1, h2⟩, fun n hn => ?_⟩
  simpa [memOf] using hn

/-! #### Samples -/

/-- A name in a sample. -/
def nameTok (s : String) : Token := ⟨.IDENT, str s, ⟨0, 1⟩, 0⟩

/-- `var g = 7`, a built-in function of two arguments, and a function
`f(a)` with `if (a < 7) return -a end` and the statement `g = [g]`, or `g = g`, inside. -/
def treeProg (arr : Bool) : Prog Ref :=
  [.syscall (str "max") (some 2),
   .var (nameTok "g") false (some (.int 7 none none)),
   .func ⟨nameTok "f", [nameTok "a"],
     [.ifS (nameTok "if") (.bin ⟨.LT, [], ⟨0, 1⟩, 0⟩ (.ident (nameTok "a") (.arg 0)) (.int 7 none none))
        [.ret (nameTok "return") (some (.un (nameTok "-") (.ident (nameTok "a") (.arg 0))))] false [],
      .assign (nameTok "g") (.item 1)
        (if arr then .arr (nameTok "[") [.ident (nameTok "g") (.item 1)] else .ident (nameTok "g") (.item 1))],
     nameTok "end"⟩]

/-- Its nodes.  The number is used three times, node 17 not at all. -/
def treeNodes (arr : Bool) : List Tree.Node :=
  [.func (str "max") [none, none] none, .var (str "g") (some 2), .litVar 7,
   .func (str "f") [some 4] (some 5), .var (str "a") none, .block [some 6, some 12],
   .ifS (some 7) (some 9) none, .bin .LT (some 8) (some 2), .ident (str "a"),
   .block [some 10], .ret (some 11), .un (some 8),
   .assignVar (str "g") (some (if arr then 13 else 14)), .arrayInit [some 14], .ident (str "g"),
   .func (str "@init") [] (some 16), .block [some 18], .litNone, .assignVar (str "g") (some 2)]

/-- The tree. -/
def treeAst (arr : Bool) : Ast :=
  ⟨[some 0, some 1, some 3, some 15], fun n => (treeNodes arr)[n]?, List.range 19⟩

theorem treeAst_owned (arr : Bool) (n : Nat) (h : ((treeAst arr).mem n).isSome) : n ∈ (treeAst arr).allocs := by
  have : n < 19 := by simpa [treeAst, treeNodes] using h
  simpa [treeAst] using this

theorem treeAst_is (arr : Bool) : IsP (treeAst arr) (treeProg arr) := by
  refine ⟨[some 0, some 1, some 3], 15, rfl, ?_, ?_⟩ <;> cases arr <;>
  simp only [treeProg, IsIs, IsI, IsF, IsArgs, IsSs, IsS, IsE, IsEs, IsOpt, initBody, initFrom, List.map_cons,
    List.map_nil, if_true, Bool.false_eq_true, if_false] <;>
  repeat' first | exact rfl | apply Exists.intro | apply And.intro | (intro h; cases h)

theorem treeAst_intact (arr : Bool) : Intact (treeAst arr) := by
  obtain ⟨s, h, -⟩ := stands_P (fl := toyFl) (treeAst_is arr)
  exact ⟨h.whole, treeAst_owned arr⟩

theorem treeAst_unused : ¬ (treeAst true).Used 17 := by
  have key : ∀ {a b : Nat}, Below (treeAst true).mem a b → a ≠ 17 → b ≠ 17 := by
    intro a b h
    induction h with
    | here => exact id
    | step h1 h2 _ ih =>
      intro _
      refine ih fun e => ?_
      subst e
      have : ∀ x ∈ treeNodes true, some 17 ∉ x.kids := by decide
      exact this _ (List.mem_of_getElem? h1) h2
  rintro ⟨c, hc, h⟩
  refine key h (fun e => ?_) rfl
  subst e
  simp [treeAst] at hc

/-- The node that is not used and the array literal are deleted, the shared number is kept. -/
example : ∃ m, ∀ k, m ≤ k → ∃ t', gc k (treeAst true) = .ok t' ∧
    t'.mem 2 = some (.litVar 7) ∧ t'.mem 13 = none ∧ t'.mem 17 = none := by
  obtain ⟨m, hm⟩ := C69_gc_partial _ (treeAst_intact true)
  refine ⟨m, fun k hk => ?_⟩
  obtain ⟨t', h1, -, h2⟩ := hm k hk
  exact ⟨t', h1, ((h2 2 (.litVar 7) rfl).1 ⟨1, by simp [treeAst], .step rfl (by simp [Tree.Node.kids]) .here⟩
    (fun _ h => by cases h) (fun _ h => by cases h)).1, ((h2 13 _ rfl).2 (.inr (.inl ⟨_, rfl⟩))).1,
    ((h2 17 _ rfl).2 (.inl treeAst_unused)).1⟩

example : ∃ m, ∀ k, m ≤ k → Tree.dump toyFl k (treeAst true) = .ok (showP toyFl (treeProg true)) :=
  C69_dump_shows toyFl _ _ (treeAst_is true)

/-- Without the array literal the tree is written behind `gc`; with it a deleted node is read. -/
example : (∃ m, ∀ k, m ≤ k → ∃ t', gc k (treeAst false) = .ok t' ∧
      Tree.dump toyFl k t' = .ok (showP toyFl (treeProg false))) ∧
    ∃ m, ∀ k, m ≤ k → ∃ t', gc k (treeAst true) = .ok t' ∧ Tree.dump toyFl k t' = .error .ub :=
  ⟨C69_shown_partial toyFl _ _ (treeAst_is false) (treeAst_owned false),
   C69_shown_partial toyFl _ _ (treeAst_is true) (treeAst_owned true)⟩

end Ccml.Props
