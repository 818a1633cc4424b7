import Verif.SafeRun
import Verif.Props.Scopes
/-!
Heights by position, the host functions a program declares, and a decision procedure for the
restriction on programs (proof infrastructure).
-/
set_option linter.unusedSimpArgs false
namespace Ccml
open Sem (State Res)

/-! ### Heights of pieces of code -/

section
variable {q : Prog Ref} {sys : List Syscall}

theorem get_height {g : GenCtx} {r : Ref} {t : Option Token} {a : Asm} (h : asmGet g r t = .ok a) (k : Nat) :
    heightAt k a = k + 1 :=
  (asmGet_bal (q := g.prog) (sys := []) (loc := 0) (sp := 0) (T := fun _ _ => False) rfl h (Nat.zero_le k)).2

theorem set_height {g : GenCtx} {r : Ref} {t : Option Token} {a : Asm} (h : asmSet g r t = .ok a) (k : Nat) :
    heightAt (k + 1) a = k :=
  (asmSet_bal (q := g.prog) (sys := []) (loc := 0) (sp := 0) (T := fun _ _ => False) rfl h (Nat.zero_le k)).2

theorem asmE_height {g : GenCtx} (hg : g.prog = q) {ex : Expr Ref} {si : Nat} {a : Asm}
    (h : asmE g sys si ex = .ok a) (hp : plainE q ex) (hw : widthOf a < 2147483648) (k : Nat) :
    heightAt k a = k + 1 :=
  (asmE_bal (loc := 0) (sp := 0) (T := fun _ _ => False) hg ex si a k h hp hw (Nat.zero_le k)).2

theorem asmEs_height {g : GenCtx} (hg : g.prog = q) {es : List (Expr Ref)} {si : Nat} {a : Asm}
    (h : asmEs g sys si es = .ok a) (hp : plainEs q es) (hw : widthOf a < 2147483648) (k : Nat) :
    heightAt k a = k + es.length :=
  (asmEs_bal (loc := 0) (sp := 0) (T := fun _ _ => False) hg es si a k h hp hw (Nat.zero_le k)).2

theorem asmInvoke_height {g : GenCtx} (hg : g.prog = q) {t : Token} {c : Expr Ref} {n si : Nat} {a : Asm}
    (h : asmInvoke g sys t c n (asmE g sys si c) = .ok a) (hp : direct q c ∨ plainE q c)
    (hw : widthOf a < 2147483648) (hn : n < 2147483648) (k : Nat) : heightAt (k + n) a = k + 1 :=
  (asmInvoke_bal (loc := 0) (sp := 0) (T := fun _ _ => False) hg (Nat.zero_le k) hn
    (fun hd b hb hbw => asmE_bal hg c si b (k + n) hb (hp.resolve_left hd) (by omega) (by omega)) h).2

theorem one_height (i : Ins) (t : Option Token) (k : Nat) : heightAt k (one i t) = (AIns.ins i).after k := rfl

mutual

/-- The code of a statement leaves the height as it was. -/
theorem asmS_height {g : GenCtx} (hg : g.prog = q) :
    ∀ (st : Stmt Ref) (pc si : Nat) (a : Asm) (k : Nat), asmS g sys pc si st = .ok a → plainS q st →
      widthOf a < 2147483648 → heightAt k a = k
  | .var t r none, pc, si, a, k, h, hp, hw => by cases h; rfl
  | .var t r (some ex), pc, si, a, k, h, hp, hw => by
    obtain ⟨b, h1, h⟩ := bind_ok.1 h
    cases h
    rw [widthOf_append] at hw
    rw [heightAt_append, asmE_height hg h1 hp (by omega)]
    rfl
  | .assign t r ex, pc, si, a, k, h, hp, hw => by
    obtain ⟨b, h1, h⟩ := bind_ok.1 h
    obtain ⟨d, h2, h⟩ := bind_ok.1 h
    cases h
    rw [widthOf_append] at hw
    rw [heightAt_append, asmE_height hg h1 hp (by omega), set_height h2]
  | .assignArr t r i ex, pc, si, a, k, h, hp, hw => by
    obtain ⟨b, h1, h⟩ := bind_ok.1 h
    obtain ⟨d, h2, h⟩ := bind_ok.1 h
    obtain ⟨z, h3, h⟩ := bind_ok.1 h
    cases h
    simp only [widthOf_append] at hw
    simp only [heightAt_append]
    rw [asmE_height hg h1 hp.2 (by omega), asmE_height hg h2 hp.1 (by omega), get_height h3]
    rfl
  | .assignMem t m r ex, pc, si, a, k, h, hp, hw => by
    obtain ⟨b, h1, h⟩ := bind_ok.1 h
    obtain ⟨d, h2, h⟩ := bind_ok.1 h
    cases h
    simp only [widthOf_append] at hw
    simp only [heightAt_append]
    rw [asmE_height hg h1 hp (by omega), get_height h2]
    rfl
  | .call t c as, pc, si, a, k, h, hp, hw => by
    obtain ⟨b, h1, h⟩ := bind_ok.1 h
    obtain ⟨d, h2, h⟩ := bind_ok.1 h
    cases h
    simp only [widthOf_append] at hw
    have hl := asmEs_size as si b h1
    simp only [heightAt_append]
    rw [asmEs_height hg h1 hp.2 (by omega), asmInvoke_height hg h2 hp.1 (by omega) (by omega)]
    rfl
  | .ifS t c thn false els, pc, si, a, k, h, hp, hw => by
    obtain ⟨b, h1, h⟩ := bind_ok.1 h
    obtain ⟨d, h2, h⟩ := bind_ok.1 h
    cases h
    simp only [widthOf_append, width_one1] at hw
    simp only [heightAt_append]
    rw [asmE_height hg h1 hp.1 (by omega)]
    exact asmB_height hg thn _ _ d k h2 hp.2.1 (by omega)
  | .ifS t c thn true els, pc, si, a, k, h, hp, hw => by
    obtain ⟨b, h1, h⟩ := bind_ok.1 h
    obtain ⟨d, h2, h⟩ := bind_ok.1 h
    obtain ⟨e, h3, h⟩ := bind_ok.1 h
    cases h
    simp only [widthOf_append, width_one1] at hw
    simp only [heightAt_append]
    rw [asmE_height hg h1 hp.1 (by omega)]
    have := asmB_height hg thn _ _ d k h2 hp.2.1 (by omega)
    have he := asmB_height hg els _ _ e k h3 (hp.2.2 rfl) (by omega)
    simp only [one_height, AIns.after, Nat.add_sub_cancel]
    rw [this, he]
  | .whileS t c body, pc, si, a, k, h, hp, hw => by
    obtain ⟨b, h1, h⟩ := bind_ok.1 h
    obtain ⟨d, h2, h⟩ := bind_ok.1 h
    cases h
    simp only [widthOf_append, width_one1] at hw
    have hb := asmB_height hg body _ _ b k h1 hp.2 (by omega)
    simp only [heightAt_append, one_height, AIns.after]
    rw [hb, asmE_height hg h2 hp.1 (by omega)]
    rfl
  | .forS t n r start stop body, pc, si, a, k, h, hp, hw => by
    obtain ⟨b, h1, h⟩ := bind_ok.1 h
    obtain ⟨s0, h2, h⟩ := bind_ok.1 h
    obtain ⟨d, h3, h⟩ := bind_ok.1 h
    obtain ⟨g0, h4, h⟩ := bind_ok.1 h
    obtain ⟨s1, h5, h⟩ := bind_ok.1 h
    obtain ⟨z, h6, h⟩ := bind_ok.1 h
    cases h
    simp only [widthOf_append, width_one1, width_one0] at hw
    have hd := asmB_height hg body _ _ d k h3 hp.2.2 (by omega)
    simp only [heightAt_append, one_height, AIns.after]
    rw [asmE_height hg h1 hp.1 (by omega), set_height h2, hd, Nat.add_sub_cancel, get_height h4 k, set_height h5 k,
      get_height h4 k, asmE_height hg h6 hp.2.1 (by omega)]
    rfl
  | .ret t none, pc, si, a, k, h, hp, hw => by
    cases h
    rfl
  | .ret t (some ex), pc, si, a, k, h, hp, hw => by
    obtain ⟨b, h1, h⟩ := bind_ok.1 h
    cases h
    rw [widthOf_append] at hw
    rw [heightAt_append, asmE_height hg h1 hp (by omega)]
    rfl

theorem asmB_height {g : GenCtx} (hg : g.prog = q) :
    ∀ (ss : List (Stmt Ref)) (pc si : Nat) (a : Asm) (k : Nat), asmB g sys pc si ss = .ok a → plainB q ss →
      widthOf a < 2147483648 → heightAt k a = k
  | [], pc, si, a, k, h, hp, hw => by cases h; rfl
  | st :: ss, pc, si, a, k, h, hp, hw => by
    obtain ⟨b, h1, h⟩ := bind_ok.1 h
    obtain ⟨d, h2, h⟩ := bind_ok.1 h
    cases h
    rw [widthOf_append] at hw
    rw [heightAt_append, asmS_height hg st _ _ b k h1 hp.1 (by omega),
      asmB_height hg ss _ _ d k h2 hp.2 (by omega)]

end

end

/-! ### Heights of threads -/

/-- Instructions take up space. -/
theorem width_pos (x : AIns) : 0 < x.width := by
  cases x with
  | ins i => cases i <;> simp [AIns.width, Ins.width]
  | _ => simp [AIns.width]

/-- A position in the code has one place in the list of instructions. -/
theorem pre_unique : ∀ {pre pre' : Asm} {x x' : AIns × Option Token} {post post' : Asm},
    pre ++ x :: post = pre' ++ x' :: post' → widthOf pre = widthOf pre' → pre = pre'
  | [], [], _, _, _, _, _, _ => rfl
  | [], y :: pre', x, x', post, post', _, h => by
    have := width_pos y.1
    simp only [widthOf] at h
    omega
  | y :: pre, [], x, x', post, post', _, h => by
    have := width_pos y.1
    simp only [widthOf] at h
    omega
  | y :: pre, y' :: pre', x, x', post, post', he, h => by
    simp only [List.cons_append, List.cons.injEq] at he
    obtain ⟨rfl, he⟩ := he
    simp only [widthOf] at h
    rw [pre_unique he (by omega)]

/-- A thread in a state a machine gets to, about to execute the instruction at `pc` in frame `fr`. -/
def AtCode (e : Env Val Store) (t : Thread Val) (fr : Frame) (pc : Nat) : Prop :=
  ∃ v outer, Arises e v ∧ t ∈ v.threads ∧ t.finished = false ∧ t.frames = fr :: outer ∧ t.pc = pc

section
variable {K : Lay} {e : Env Val Store} {cx : Sem.Ctx} {prog : Program}

/-- Where the thread is. -/
theorem AtCode.stk (M : Mach e cx) (L : InPlace K e) (HS : HostSound K cx) {t : Thread Val} {fr : Frame} {pc : Nat}
    (h : AtCode e t fr pc) : ∃ F ∈ K.fns, ∃ pre x post, F.asm = pre ++ x :: post ∧ pc = F.pc + widthOf pre ∧
      t.stack.length = fr.sp + heightAt 0 pre := by
  obtain ⟨v, outer, h1, h2, h3, h4, h5⟩ := h
  rcases (reach_ok M L HS h1).after t h2 with ⟨k, -⟩ | ⟨-, -, -, k⟩
  · rw [h3] at k; cases k
  · rw [h4, h5] at k
    obtain ⟨F, hF, pre, x, post, k1, k2, k3, -⟩ := k
    exact ⟨F, hF, pre, x, post, k1, by omega, k3⟩

/-- The height goes with the position. -/
theorem AtCode.height (M : Mach e cx) (L : InPlace K e) (HS : HostSound K cx) (D : Located K prog) {F : Fn}
    (hF : F ∈ K.fns) {pre post : Asm} {x : AIns × Option Token} (ha : F.asm = pre ++ x :: post) {t : Thread Val}
    {fr : Frame} (h : AtCode e t fr (F.pc + widthOf pre)) : t.stack.length = fr.sp + heightAt 0 pre := by
  obtain ⟨G, hG, pre', x', post', k1, k2, k3⟩ := h.stk M L HS
  have hx := width_pos x.1
  have hx' := width_pos x'.1
  have w : widthOf F.asm = widthOf pre + (x.1.width + widthOf post) := by rw [ha, widthOf_append]; rfl
  have w' : widthOf G.asm = widthOf pre' + (x'.1.width + widthOf post') := by rw [k1, widthOf_append]; rfl
  obtain ⟨h1, h2⟩ := D.apart F hF G hG (F.pc + widthOf pre) (by omega) (by omega) (by omega) (by omega)
  rw [h2, k1] at ha
  rw [pre_unique ha.symm (by omega)]
  exact k3

end

/-! ### Running some steps -/

/-- Some instructions of a thread that goes on. -/
def runN (e : Env Val Store) : Nat → St Val Store → Option (St Val Store)
  | 0, s => some s
  | n + 1, s =>
    if s.th.finished then none
    else match stepImp e s with
      | .ok (_, s') => runN e n s'
      | .error _ => none

theorem runN_reach {e : Env Val Store} : ∀ {n : Nat} {s s' : St Val Store}, Arises e s.whole →
    runN e n s = some s' → Arises e s'.whole
  | 0, s, s', h, hx => by cases hx; exact h
  | n + 1, s, s', h, hx => by
    rw [runN] at hx
    split at hx
    · cases hx
    · rename_i hf
      split at hx
      · rename_i s1 h1
        exact runN_reach (h.step (by simpa using hf) h1) hx
      · cases hx

/-- A machine in which a function was just called. -/
def called (f : Function) (args : List Val) : St Val Store :=
  ⟨Sem.startThread f.codeStart.toInt args, [], [], [], [], Io.fresh⟩

theorem called_reach {e : Env Val Store} (hm : e.mem = Mem.abs) {f : Function} (hf : f ∈ e.prog.functions)
    {args : List Val} (hn : f.numArgs = args.length) (ha : ∀ x ∈ args, HostArg e.prog x) :
    Arises e (called f args).whole :=
  Arises.start .new hf ha (newThread_eq hm ha hn)

/-! ### The host functions of a program -/

/-- A declared host function. -/
def Item.sysOf {D : Type} : Item D → Option (Str × Option Nat)
  | .syscall n a => some (n, a)
  | _ => none

theorem sysOf_some {D : Type} {x : Item D} {n : Str} {a : Option Nat} (h : x.sysOf = some (n, a)) :
    x = .syscall n a := by
  cases x <;> cases h
  rfl

theorem annItem_sys {L : Layout} {p0 : Prog Unit} {i : Nat} {x : Item Unit} {y : Item Ref}
    (h : annItem L p0 i x = .ok y) : y.sysOf = x.sysOf := by
  cases x with
  | var t c init =>
    rw [annItem] at h
    split at h <;> cases h
    rfl
  | syscall n a => cases h; rfl
  | func f =>
    rw [annItem] at h
    split at h <;> cases h
    rfl

theorem annItems_sys {L : Layout} {p0 : Prog Unit} : ∀ {i : Nat} {p : List (Item Unit)} {q : Prog Ref},
    annItems L p0 i p = .ok q → q.map Item.sysOf = p.map Item.sysOf
  | i, [], q, h => by
    rw [annItems] at h
    cases h
    rfl
  | i, x :: xs, q, h => by
    rw [annItems] at h
    split at h
    · cases h
    · rename_i x' hx
      split at h
      · cases h
      · rename_i xs' hxs
        cases h
        rw [List.map_cons, List.map_cons, annItem_sys hx, annItems_sys hxs]

theorem globalPass_sys : ∀ {is : List Nat} {p q : Prog Ref} {ch ch' : Bool},
    globalPass is p ch = .ok (q, ch') → q.map Item.sysOf = p.map Item.sysOf
  | [], p, q, ch, ch', h => by
    rw [globalPass] at h
    cases h
    rfl
  | i :: is, p, q, ch, ch', h => by
    rw [globalPass] at h
    split at h
    · rename_i t c e hi
      split at h
      · cases h
      · exact (globalPass_sys h).trans (map_set_same hi rfl)
    · exact globalPass_sys h

theorem globalLoop_sys : ∀ {n : Nat} {p q : Prog Ref}, globalLoop n p = .ok q → q.map Item.sysOf = p.map Item.sysOf
  | 0, p, q, h => by rw [globalLoop] at h; cases h
  | n + 1, p, q, h => by
    rw [globalLoop] at h
    split at h
    · cases h
    · rename_i h1
      exact (globalLoop_sys h).trans (globalPass_sys h1)
    · rename_i h1
      cases h
      exact globalPass_sys h1

theorem globalVars_sys {p q : Prog Ref} (h : globalVars p = .ok q) : q.map Item.sysOf = p.map Item.sysOf := by
  unfold globalVars at h
  split at h
  · cases h
  · rename_i h1
    split at h
    · cases h
    · rename_i h2
      cases h
      exact (globalPass_sys h2).trans (globalLoop_sys h1)

theorem constItem_sys {p : Prog Ref} {x y : Item Ref} (h : constItem p x = .ok y) : y.sysOf = x.sysOf := by
  cases x with
  | var t c init =>
    rw [constItem] at h
    split at h
    · cases h
    · split at h
      · exact absurd h Props.errTok_ne
      · cases h
        rfl
  | func f =>
    rw [constItem] at h
    split at h <;> cases h
    rfl
  | syscall n a => cases h; rfl

theorem constPass_sys : ∀ {is : List Nat} {p q : Prog Ref}, constPass is p = .ok q →
    q.map Item.sysOf = p.map Item.sysOf
  | [], p, q, h => by
    rw [constPass] at h
    cases h
    rfl
  | i :: is, p, q, h => by
    rw [constPass] at h
    split at h
    · exact constPass_sys h
    · rename_i x hi
      split at h
      · cases h
      · rename_i y hy
        exact (constPass_sys h).trans (map_set_same hi (constItem_sys hy))

theorem runSema_sys {L : Layout} {p : Prog Unit} {q : Prog Ref} (h : runSema L p = .ok q) :
    q.map Item.sysOf = p.map Item.sysOf := by
  obtain ⟨q1, q2, h1, h2, h3, _, _⟩ := Props.runSema_steps h
  exact (constPass_sys h3).trans ((globalVars_sys h2).trans (annItems_sys h1))

theorem constFold_sys : ∀ {p q : Prog Ref}, constFold p = .ok q → q.map Item.sysOf = p.map Item.sysOf
  | [], q, h => by cases h; rfl
  | x :: xs, q, h => by
    rw [constFold] at h
    split at h
    · cases h
    · rename_i y hy
      split at h
      · cases h
      · rename_i ys hys
        cases h
        rw [List.map_cons, List.map_cons, constFold_sys hys]
        congr 1
        cases x with
        | syscall n a => cases hy; rfl
        | _ =>
          rw [foldItem] at hy
          split at hy <;> cases hy
          rfl

theorem prune_sys : ∀ {p : List (Item Ref)} {m : List Nat}, (pruneItems m p).1.map Item.sysOf = p.map Item.sysOf
  | [], m => rfl
  | .func f :: xs, m => by
    simp only [pruneItems, List.map_cons]
    rw [prune_sys]
    rfl
  | .var .. :: xs, m => by
    simp only [pruneItems, List.map_cons]
    rw [prune_sys]
  | .syscall .. :: xs, m => by
    simp only [pruneItems, List.map_cons]
    rw [prune_sys]

theorem runOptimize_sys {opt : Bool} {p q : Prog Ref} (h : runOptimize opt p = .ok q) :
    q.map Item.sysOf = p.map Item.sysOf := by
  unfold runOptimize at h
  split at h
  · split at h
    · cases h
    · rename_i r hr
      cases h
      have h1 : ∀ m, Item.sysOf ∘ patchItem m = (Item.sysOf : Item Ref → _) := by
        intro m; funext x; cases x <;> rfl
      have h2 : Item.sysOf ∘ postRetItem = (Item.sysOf : Item Ref → _) := by
        funext x; cases x <;> rfl
      unfold ifRemove
      dsimp only
      rw [List.map_map, h1, prune_sys, constFold_sys hr, postRet, List.map_map, h2]
  · cases h; rfl

/-- The optimised tree declares the host functions of the source. -/
theorem Compiles.syscall {L : Layout} {opt : Bool} {p : Prog Unit} {q : Prog Ref} {prog : Program}
    (hc : Compiles L opt p q prog) {n : Str} {a : Option Nat} (h : Item.syscall n a ∈ q) : Item.syscall n a ∈ p := by
  obtain ⟨q0, h1, h2, -⟩ := hc
  have he : q.map Item.sysOf = p.map Item.sysOf := (runOptimize_sys h2).trans (runSema_sys h1)
  have hm : some (n, a) ∈ q.map Item.sysOf := List.mem_map.2 ⟨_, h, rfl⟩
  rw [he] at hm
  obtain ⟨x, h3, h4⟩ := List.mem_map.1 hm
  rw [sysOf_some h4] at h3
  exact h3

/-! ### Deciding the restriction -/

/-- `direct`, computed. -/
def directB (q : Prog Ref) : Expr Ref → Bool
  | .ident _ (.item i) => match q[i]? with | some (Item.syscall _ _) => true | _ => false
  | _ => false

/-- Not a host function with a fixed number of arguments. -/
def looseB (q : Prog Ref) (i : Nat) : Bool := match q[i]? with | some (Item.syscall _ (some _)) => false | _ => true

mutual
/-- `plainE`, computed. -/
def plainEB (q : Prog Ref) : Expr Ref → Bool
  | .ident _ (.item i) => looseB q i
  | .arr _ es => plainEsB q es
  | .deref _ l i => plainEB q l && plainEB q i
  | .call _ c as => (directB q c || plainEB q c) && plainEsB q as
  | .bin op l r => (op.type != .NOT) && (plainEB q l && plainEB q r)
  | .un _ a => plainEB q a
  | _ => true
/-- `plainEs`, computed. -/
def plainEsB (q : Prog Ref) : List (Expr Ref) → Bool
  | [] => true
  | e :: es => plainEB q e && plainEsB q es
end

mutual
/-- `plainS`, computed. -/
def plainSB (q : Prog Ref) : Stmt Ref → Bool
  | .var _ _ none => true
  | .var _ _ (some e) => plainEB q e
  | .assign _ _ e => plainEB q e
  | .assignArr _ _ i e => plainEB q i && plainEB q e
  | .assignMem _ _ _ e => plainEB q e
  | .call _ c as => (directB q c || plainEB q c) && plainEsB q as
  | .ifS _ c thn h els => plainEB q c && (plainBB q thn && (!h || plainBB q els))
  | .whileS _ c body => plainEB q c && plainBB q body
  | .forS _ _ _ a b body => plainEB q a && (plainEB q b && plainBB q body)
  | .ret _ none => true
  | .ret _ (some e) => plainEB q e
/-- `plainB`, computed. -/
def plainBB (q : Prog Ref) : List (Stmt Ref) → Bool
  | [] => true
  | s :: ss => plainSB q s && plainBB q ss
end

/-- `plainP`, computed. -/
def plainPB (q : Prog Ref) : Bool :=
  q.all (fun x => match x with | .func f => plainBB q f.body | _ => true) && plainBB q (initBody q)

theorem directB_ok {q : Prog Ref} {c : Expr Ref} (h : directB q c = true) : direct q c := by
  unfold directB at h
  split at h
  · split at h
    · rename_i n a hq
      exact ⟨n, a, hq⟩
    · cases h
  · cases h

mutual
theorem plainEB_ok {q : Prog Ref} : ∀ (ex : Expr Ref), plainEB q ex = true → plainE q ex
  | .ident t (.item i), h => by
    intro s k hq
    rw [plainEB, looseB, hq] at h
    cases h
  | .ident t (.arg _), h => trivial
  | .ident t (.loc _), h => trivial
  | .int .., h => trivial
  | .float .., h => trivial
  | .str .., h => trivial
  | .none _, h => trivial
  | .member .., h => trivial
  | .arr t es, h => plainEsB_ok es h
  | .deref t l i, h => by
    rw [plainEB, Bool.and_eq_true] at h
    exact ⟨plainEB_ok l h.1, plainEB_ok i h.2⟩
  | .call t c as, h => by
    rw [plainEB, Bool.and_eq_true, Bool.or_eq_true] at h
    exact ⟨h.1.imp directB_ok (plainEB_ok c), plainEsB_ok as h.2⟩
  | .bin op l r, h => by
    rw [plainEB, Bool.and_eq_true, Bool.and_eq_true] at h
    exact ⟨by simpa using h.1, plainEB_ok l h.2.1, plainEB_ok r h.2.2⟩
  | .un op a, h => plainEB_ok a h
theorem plainEsB_ok {q : Prog Ref} : ∀ (es : List (Expr Ref)), plainEsB q es = true → plainEs q es
  | [], h => trivial
  | e :: es, h => by
    rw [plainEsB, Bool.and_eq_true] at h
    exact ⟨plainEB_ok e h.1, plainEsB_ok es h.2⟩
end

mutual
theorem plainSB_ok {q : Prog Ref} : ∀ (st : Stmt Ref), plainSB q st = true → plainS q st
  | .var _ _ none, h => trivial
  | .var _ _ (some e), h => plainEB_ok e h
  | .assign _ _ e, h => plainEB_ok e h
  | .assignArr _ _ i e, h => by
    rw [plainSB, Bool.and_eq_true] at h
    exact ⟨plainEB_ok i h.1, plainEB_ok e h.2⟩
  | .assignMem _ _ _ e, h => plainEB_ok e h
  | .call _ c as, h => by
    rw [plainSB, Bool.and_eq_true, Bool.or_eq_true] at h
    exact ⟨h.1.imp directB_ok (plainEB_ok c), plainEsB_ok as h.2⟩
  | .ifS _ c thn b els, h => by
    rw [plainSB, Bool.and_eq_true, Bool.and_eq_true, Bool.or_eq_true] at h
    refine ⟨plainEB_ok c h.1, plainBB_ok thn h.2.1, fun hb => plainBB_ok els (h.2.2.resolve_left ?_)⟩
    simp [hb]
  | .whileS _ c body, h => by
    rw [plainSB, Bool.and_eq_true] at h
    exact ⟨plainEB_ok c h.1, plainBB_ok body h.2⟩
  | .forS _ _ _ a b body, h => by
    rw [plainSB, Bool.and_eq_true, Bool.and_eq_true] at h
    exact ⟨plainEB_ok a h.1, plainEB_ok b h.2.1, plainBB_ok body h.2.2⟩
  | .ret _ none, h => trivial
  | .ret _ (some e), h => plainEB_ok e h
theorem plainBB_ok {q : Prog Ref} : ∀ (ss : List (Stmt Ref)), plainBB q ss = true → plainB q ss
  | [], h => trivial
  | s :: ss, h => by
    rw [plainBB, Bool.and_eq_true] at h
    exact ⟨plainSB_ok s h.1, plainBB_ok ss h.2⟩
end

theorem plainPB_ok {q : Prog Ref} (h : plainPB q = true) : plainP q := by
  unfold plainPB at h
  rw [Bool.and_eq_true, List.all_eq_true] at h
  exact ⟨fun f hf => plainBB_ok _ (h.1 _ hf), plainBB_ok _ h.2⟩

end Ccml
