import Verif.Whole
import Verif.Samples
/-!
A small compiled program, used by the examples beside the theorems about the compiler:

    var g = 5
    function fib(n)
      if (n < 2)
        return n
      end
      return fib(n - 1) + fib(n - 2)
    end
    function main(k)
      var i
      var s = 0
      for (i = 0 to k)
        s = s + fib(i) * g
      end
      g = s
      return s
    end
    function spin(k)
      while (k)
      end
    end
-/
namespace Ccml.Props

/-- A token on line 1. -/
def tk (t : Tok) (s : String) : Token := ⟨t, str s, ⟨0, 1⟩, 0⟩
/-- A name. -/
def nm (s : String) : Token := tk .IDENT s
/-- A name in an expression. -/
def ix (s : String) : Expr Unit := .ident (nm s) ()
/-- A number in an expression. -/
def lit (v : I32) : Expr Unit := .int v (some (tk .INT "1")) none

/-- `fib` -/
def fibDecl : FuncDecl Unit where
  name := nm "fib"
  args := [nm "n"]
  body := [
    .ifS (tk .IF "if") (.bin (tk .LT "<") (ix "n") (lit 2)) [.ret (tk .RETURN "return") (some (ix "n"))] false [],
    .ret (tk .RETURN "return") (some (.bin (tk .ADD "+")
      (.call (nm "fib") (ix "fib") [.bin (tk .SUB "-") (ix "n") (lit 1)])
      (.call (nm "fib") (ix "fib") [.bin (tk .SUB "-") (ix "n") (lit 2)])))]
  stop := tk .END "end"

/-- `main` -/
def mainDecl : FuncDecl Unit where
  name := nm "main"
  args := [nm "k"]
  body := [
    .var (nm "i") () none,
    .var (nm "s") () (some (lit 0)),
    .forS (tk .FOR "for") (nm "i") () (lit 0) (ix "k") [
      .assign (nm "s") () (.bin (tk .ADD "+") (ix "s")
        (.bin (tk .MUL "*") (.call (nm "fib") (ix "fib") [ix "i"]) (ix "g")))],
    .assign (nm "g") () (ix "s"),
    .ret (tk .RETURN "return") (some (ix "s"))]
  stop := tk .END "end"

/-- `spin` -/
def spinDecl : FuncDecl Unit where
  name := nm "spin"
  args := [nm "k"]
  body := [.whileS (tk .WHILE "while") (ix "k") []]
  stop := tk .END "end"

/-- The program behind the built-in `abs`. -/
def sampleTree : Prog Unit :=
  [.syscall (str "abs") (some 1), .var (nm "g") false (some (lit 5)), .func fibDecl, .func mainDecl,
    .func spinDecl]

/-- Some addresses for the nodes. -/
def sampleLayout : Layout where
  item := fun i => i
  var := fun _ r => match r with | .item i => i | .arg i => 2 * i | .loc k => 2 * k + 1

/-- Whether something succeeds. -/
def isOk {ε α : Type} (x : Except ε α) : Bool := match x with | .ok _ => true | .error _ => false
/-- The result of something that succeeds. -/
def outOf {ε α : Type} (d : α) (x : Except ε α) : α := match x with | .ok a => a | .error _ => d

theorem outOf_ok {ε α : Type} {d : α} {x : Except ε α} (h : isOk x = true) : x = .ok (outOf d x) := by
  cases x <;> simp_all [isOk, outOf]

/-- After the semantic passes. -/
def sampleSema : Prog Ref := outOf [] (runSema sampleLayout sampleTree)
/-- After the optimiser. -/
def sampleQ : Prog Ref := outOf [] (runOptimize true sampleSema)
/-- The code. -/
def sampleProg : Program := outOf Program.empty (codegen sampleQ)

theorem sample_compiles : Compiles sampleLayout true sampleTree sampleQ sampleProg :=
  ⟨sampleSema, outOf_ok (by decide +kernel), outOf_ok (by decide +kernel), outOf_ok (by decide +kernel)⟩

theorem sample_names : ∀ x ∈ sampleTree, x.declName ≠ initName := by decide +kernel

/-- A function in the optimised tree. -/
def sampleFn (i : Nat) : FuncDecl Ref :=
  match sampleQ[i]? with
  | some (Item.func f) => f
  | _ => ⟨nm "", [], [], nm ""⟩

theorem sample_fn {i : Nat}
    (h : (match sampleQ[i]? with | some (Item.func _) => true | _ => false) = true) :
    sampleQ[i]? = some (.func (sampleFn i)) := by
  unfold sampleFn
  split at h
  · assumption
  · cases h

/-- A function in the function table. -/
def sampleEntry (i : Nat) : Function :=
  (sampleProg.findByName (sampleFn i).name.str).getD ⟨[], 0, 0, [], []⟩

theorem sample_entry {i : Nat} (h : (sampleProg.findByName (sampleFn i).name.str).isSome = true) :
    sampleProg.findByName (sampleFn i).name.str = some (sampleEntry i) := by
  unfold sampleEntry
  cases h' : sampleProg.findByName (sampleFn i).name.str with
  | none => rw [h'] at h; cases h
  | some F => rfl

theorem sample_fits : Fits sampleQ sampleProg := by
  refine ⟨by decide +kernel, by decide +kernel, ?_⟩
  intro i f h
  have hall : ∀ x ∈ sampleQ, (match x with
      | .func f => decide (f.args.length + stackSize (funcLocals f.body) < 2147483648)
      | _ => true) = true := by decide +kernel
  have := hall _ (List.mem_of_getElem? h)
  simpa using this

/-- The machine that runs it. -/
def sampleEnv : Env Val Store := Env.std (driverResolve sampleProg) toyFl Mem.abs
/-- The evaluator for it. -/
def sampleCtx : Sem.Ctx := stdCtx sampleQ sampleProg toyFl

theorem sample_running : Running sampleEnv sampleCtx sampleProg := std_running toyFl sample_fits

/-- A machine in which the program has been started. -/
def sampleVm : VmState Val Store := ⟨[], [.int 5], [], Io.fresh⟩

/-! ### Further programs -/

/-- The tree that is translated. -/
def treeOf (p : Prog Unit) : Prog Ref := outOf [] (runOptimize true (outOf [] (runSema sampleLayout p)))
/-- The code. -/
def codeOf (p : Prog Unit) : Program := outOf Program.empty (codegen (treeOf p))
/-- The machine that runs it. -/
def envOf (p : Prog Unit) : Env Val Store := Env.std (driverResolve (codeOf p)) toyFl Mem.abs
/-- The evaluator for it. -/
def ctxOf (p : Prog Unit) : Sem.Ctx := stdCtx (treeOf p) (codeOf p) toyFl

/-- Whether a program compiles and fits. -/
def compilesB (p : Prog Unit) : Bool :=
  isOk (runSema sampleLayout p) && isOk (runOptimize true (outOf [] (runSema sampleLayout p))) &&
  isOk (codegen (treeOf p)) && p.all (fun x => x.declName != initName) &&
  decide ((codeOf p).syscalls.length < 2147483648) &&
  decide ((treeOf p).countP Item.isSlot < 2147483648) &&
  (treeOf p).all fun x => match x with
    | .func f => decide (f.args.length + stackSize (funcLocals f.body) < 2147483648)
    | _ => true

theorem compiled {p : Prog Unit} (h : compilesB p = true) :
    Compiles sampleLayout true p (treeOf p) (codeOf p) ∧ (∀ x ∈ p, x.declName ≠ initName) ∧
      Running (envOf p) (ctxOf p) (codeOf p) := by
  unfold compilesB at h
  simp only [Bool.and_eq_true, decide_eq_true_eq] at h
  obtain ⟨⟨⟨⟨⟨⟨h1, h2⟩, h3⟩, h4⟩, h5⟩, h6⟩, h7⟩ := h
  refine ⟨⟨_, outOf_ok h1, outOf_ok h2, outOf_ok h3⟩, ?_, std_running toyFl ⟨h5, h6, ?_⟩⟩
  · intro x hx
    simpa using List.all_eq_true.1 h4 x hx
  · intro i f hf
    simpa using List.all_eq_true.1 h7 _ (List.mem_of_getElem? hf)

attribute [irreducible] sampleSema sampleQ sampleProg sampleFn sampleEntry treeOf codeOf compilesB

end Ccml.Props
