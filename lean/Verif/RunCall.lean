import Verif.SimRun
import Verif.TraceProg
/-!
`resume` and `call_once` on top of single instructions (proof infrastructure).
-/
set_option linter.unusedSimpArgs false
namespace Ccml
open Sem (State Res)

variable {e : Env Val Store}

theorem collect_id (hm : e.mem = Mem.abs) (s : St Val Store) : gcCollect e s = .ok ((), s) := by
  unfold gcCollect
  rw [hm]
  dsimp only [Mem.abs]
  rw [splitLike_flatten]
  dsimp only
  rw [withStacks_self, List.drop_left, List.take_left]

theorem tick_id (hm : e.mem = Mem.abs) (s : St Val Store) : tickGc e s = .ok ((), s) := by
  unfold tickGc
  split
  · exact collect_id hm s
  · rfl

theorem finish_id (hh : e.handlers = {}) (s : St Val Store) : finishHandlers e s = .ok ((), s) := by
  unfold finishHandlers errorHandler
  rw [hh]
  have : ∀ s : St Val Store, (do
      let t ← getTh
      if t.hasError = true then runHandler (none : Option (VM Val Store Bool)) else pure ()) s =
        .ok ((), s) := by
    intro s
    rw [vm_bind_ok (show getTh s = .ok (s.th, s) from rfl)]
    split <;> rfl
  rw [vm_bind_ok (this s)]
  rfl

theorem awake_of {s : St Val Store} (h : s.th.halted = false) : awake s = s := by
  obtain ⟨th, m, g, b, a⟩ := s
  cases th
  simp only at h
  subst h
  rfl

theorem awake_going {s : St Val Store} : Going (awake s) ↔ Going s := Iff.rfl

theorem Steps.ofAwake {k : Nat} {s s' : St Val Store} (h : Steps e (k + 1) s s') :
    Steps e (k + 1) (awake s) s' := by
  cases h with
  | succ hg h1 h2 => exact .succ hg h1 h2

theorem Steps.toAwake {k : Nat} {s s' : St Val Store} (h : Steps e (k + 1) (awake s) s') :
    Steps e (k + 1) s s' := by
  cases h with
  | succ hg h1 h2 => exact .succ hg h1 h2

/-- One round of the loop in `resume`. -/
theorem resumeLoop_succ (hm : e.mem = Mem.abs) (hh : e.handlers = {}) {s s1 : St Val Store} {n : Nat}
    (h : stepImp e s = .ok ((), s1)) :
    resumeLoop e (n + 1) s =
      if s1.th.finished then .ok (true, s1) else if s1.th.halted then .ok (true, s1)
      else resumeLoop e n s1 := by
  rw [resumeLoop, vm_bind_ok (tick_id hm s), vm_bind_ok h,
    vm_bind_ok (show getTh s1 = .ok (s1.th, s1) from rfl)]
  split
  · rw [vm_bind_ok (finish_id hh s1)]
    rfl
  · split <;> rfl

/-- The loop in `resume` makes a part of a run, or all of it and goes on behind it. -/
theorem resumeLoop_run (hm : e.mem = Mem.abs) (hh : e.handlers = {}) :
    ∀ (n k : Nat) (s s' : St Val Store), Steps e (k + 1) s s' → s.th.halted = false →
      (∃ j s1 b, j ≤ k ∧ j ≤ n ∧ Steps e (j + 1) s s1 ∧ Steps e (k - j) s1 s' ∧
        resumeLoop e (n + 1) s = .ok (b, s1)) ∨
      (k < n ∧ s'.th.finished = false ∧ s'.th.halted = false ∧
        resumeLoop e (n + 1) s = resumeLoop e (n - k) s')
  | n, k, s, s', h, hl => by
    cases h with
    | @succ _ _ s1 _ hg h1 h2 =>
      have h1' := h1
      rw [awake_of hl] at h1'
      have key := resumeLoop_succ hm hh (n := n) h1'
      by_cases hf : s1.th.finished = true
      · rw [if_pos hf] at key
        exact .inl ⟨0, s1, true, Nat.zero_le _, Nat.zero_le _, .one hg h1, h2, key⟩
      · rw [if_neg hf] at key
        by_cases hl1 : s1.th.halted = true
        · rw [if_pos hl1] at key
          exact .inl ⟨0, s1, true, Nat.zero_le _, Nat.zero_le _, .one hg h1, h2, key⟩
        · rw [if_neg hl1] at key
          cases n with
          | zero => exact .inl ⟨0, s1, false, Nat.zero_le _, Nat.zero_le _, .one hg h1, h2, key⟩
          | succ n =>
            cases k with
            | zero =>
              cases h2
              exact .inr ⟨Nat.succ_pos _, by simpa using hf, by simpa using hl1, key⟩
            | succ k =>
              rcases resumeLoop_run hm hh n k s1 s' h2 (by simpa using hl1) with
                ⟨j, s2, b, hj, hn, h3, h4, h5⟩ | ⟨hk, h3, h4, h5⟩
              · refine .inl ⟨j + 1, s2, b, by omega, by omega, .succ hg h1 h3, ?_, by rw [key, h5]⟩
                have : k + 1 - (j + 1) = k - j := by omega
                rw [this]
                exact h4
              · refine .inr ⟨by omega, h3, h4, ?_⟩
                have : n + 1 - (k + 1) = n - k := by omega
                rw [key, h5, this]

/-- `resume` as `call_once` uses it. -/
theorem resume_eq {s : St Val Store} (hg : Going s) :
    resume e 131072 s = match resumeLoop e 131072 (awake s) with
      | .ok (_, s1) => .ok (!s1.th.hasError, s1)
      | .error f => .error f := by
  unfold resume
  rw [vm_bind_ok (show getTh s = .ok (s.th, s) from rfl), if_neg (by rw [hg.1]; decide)]
  rw [vm_bind_ok (show modTh _ s = .ok ((), awake s) from rfl)]
  unfold runQuantum
  rw [if_pos (by decide), vm_bind, vm_bind]
  have : (131072 : I32).toNat = 131072 := rfl
  rw [this]
  cases resumeLoop e 131072 (awake s) with
  | error f => rfl
  | ok r => obtain ⟨b, s1⟩ := r; rfl

theorem callLoop_ends {n : Nat} {s : St Val Store} (h : ¬ Going s) :
    callLoop e (n + 1) s = .ok ((), s) := by
  rw [callLoop, vm_bind_ok (show getTh s = .ok (s.th, s) from rfl), if_pos]
  · rfl
  · by_cases hf : s.th.finished = true
    · exact .inl hf
    · right
      unfold Thread.hasError
      by_cases he : s.th.error = .success
      · exact absurd ⟨by simpa using hf, he⟩ h
      · simpa using he

theorem callLoop_going {n : Nat} {s : St Val Store} (h : Going s) :
    callLoop e (n + 1) s = match resumeLoop e 131072 (awake s) with
      | .ok (_, s1) => if s1.th.hasError then .ok ((), s1) else callLoop e n s1
      | .error f => .error f := by
  rw [callLoop, vm_bind_ok (show getTh s = .ok (s.th, s) from rfl), if_neg, vm_bind, resume_eq h]
  · cases resumeLoop e 131072 (awake s) with
    | error f => rfl
    | ok r =>
      obtain ⟨b, s1⟩ := r
      cases hx : s1.th.hasError <;> simp [hx] <;> rfl
  · simp [Thread.hasError, h.1, h.2]

theorem notGoing_of_error {s : St Val Store} (h : s.th.hasError = true) : ¬ Going s := by
  rintro ⟨_, h2⟩
  simp [Thread.hasError, h2] at h

theorem Steps.stuck {k : Nat} {s s' : St Val Store} (h : Steps e k s s') (hg : ¬ Going s) :
    k = 0 ∧ s = s' := by
  cases h with
  | zero => exact ⟨rfl, rfl⟩
  | succ h => exact absurd h hg

/-- A run that ends is the whole of `call_once`. -/
theorem callLoop_done (hm : e.mem = Mem.abs) (hh : e.handlers = {}) {s' : St Val Store}
    (hf : s'.th.finished = true) : ∀ (k : Nat) (s : St Val Store), Steps e k s s' → ∀ n, k < n →
      callLoop e n s = .ok ((), s') := by
  intro k
  induction k using Nat.strongRecOn with
  | _ k ih =>
    intro s h n hn
    obtain ⟨n, rfl⟩ : ∃ m, n = m + 1 := ⟨n - 1, by omega⟩
    cases k with
    | zero =>
      cases h
      exact callLoop_ends (fun hg => by rw [hg.1] at hf; cases hf)
    | succ k =>
      have hg : Going s := by cases h; assumption
      rw [callLoop_going hg]
      rcases resumeLoop_run hm hh 131071 k _ s' h.ofAwake rfl with
        ⟨j, s1, b, hj, hn', h3, h4, h5⟩ | ⟨hk, h3, h4, h5⟩
      · rw [show (131072 : Nat) = 131071 + 1 from rfl, h5]
        dsimp only
        split
        · rename_i he
          obtain ⟨_, rfl⟩ := h4.stuck (notGoing_of_error he)
          rfl
        · exact ih (k - j) (by omega) s1 h4 n (by omega)
      · rw [h3] at hf; cases hf

/-- A run up to an instruction that ends abnormally. -/
theorem callLoop_fault (hm : e.mem = Mem.abs) (hh : e.handlers = {}) {s' : St Val Store} {f : Fault}
    (hg' : Going s') (hf : stepImp e (awake s') = .error f) : ∀ (k : Nat) (s : St Val Store),
      Steps e k s s' → ∀ n, k < n → callLoop e n s = .error f := by
  have one : ∀ n s1, awake s1 = awake s' → resumeLoop e (n + 1) (awake s1) = .error f := by
    intro n s1 h
    rw [resumeLoop, vm_bind_ok (tick_id hm _), h, vm_bind_error hf]
  intro k
  induction k using Nat.strongRecOn with
  | _ k ih =>
    intro s h n hn
    obtain ⟨n, rfl⟩ : ∃ m, n = m + 1 := ⟨n - 1, by omega⟩
    cases k with
    | zero =>
      cases h
      rw [callLoop_going hg', one 131071 s' rfl]
    | succ k =>
      have hg : Going s := by cases h; assumption
      rw [callLoop_going hg]
      rcases resumeLoop_run hm hh 131071 k _ s' h.ofAwake rfl with
        ⟨j, s1, b, hj, hn', h3, h4, h5⟩ | ⟨hk, h3, h4, h5⟩
      · rw [show (131072 : Nat) = 131071 + 1 from rfl, h5]
        dsimp only
        split
        · rename_i he
          obtain ⟨_, rfl⟩ := h4.stuck (notGoing_of_error he)
          exact absurd hg' (notGoing_of_error he)
        · exact ih (k - j) (by omega) s1 h4 n (by omega)
      · have h6 := one (131071 - k - 1) s' rfl
        rw [awake_of h4, show 131071 - k - 1 + 1 = 131071 - k by omega] at h6
        rw [show (131072 : Nat) = 131071 + 1 from rfl, h5, h6]

/-- A run that is too long for the given number of rounds. -/
theorem callLoop_long (hm : e.mem = Mem.abs) (hh : e.handlers = {}) {s' : St Val Store} :
    ∀ (n k : Nat) (s : St Val Store), Steps e k s s' → 131072 * n < k →
      callLoop e n s = .error .diverge
  | 0, _, _, _, _ => rfl
  | n + 1, k, s, h, hk => by
    obtain ⟨k, rfl⟩ : ∃ m, k = m + 1 := ⟨k - 1, by omega⟩
    have hg : Going s := by cases h; assumption
    rw [callLoop_going hg]
    rcases resumeLoop_run hm hh 131071 k _ s' h.ofAwake rfl with
      ⟨j, s1, b, hj, hn', h3, h4, h5⟩ | ⟨hk, h3, h4, h5⟩
    · rw [show (131072 : Nat) = 131071 + 1 from rfl, h5]
      dsimp only
      split
      · rename_i he
        obtain ⟨h6, _⟩ := h4.stuck (notGoing_of_error he)
        omega
      · exact callLoop_long hm hh n (k - j) s1 h4 (by omega)
    · omega

end Ccml
