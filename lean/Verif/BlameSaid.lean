import Verif.Token
/-!
What the messages of the compiler say (proof infrastructure for C84).
-/
namespace Ccml.Blame

/-- The messages that quote no word. -/
def plainMessages : List Str :=
  [str "equals expected after operator for compound assignment", str "constant divide by zero"]

/-- A message, possibly cut off, about the line of a token with `T`, which it quotes. -/
def Said (T : Token → Prop) (e : CErr) : Prop :=
  ∃ t full, T t ∧ e.line = t.line ∧ e.msg = full.take 1023 ∧
    (full ∈ plainMessages ∨ ∃ w, t.string = .ok w ∧ ch '\'' :: w ++ [ch '\''] <:+: full)

/-- What stands around a word in a message ends and begins with an apostrophe. -/
abbrev Quotes (pre post : Str) : Prop := pre.getLast? = some (ch '\'') ∧ post.head? = some (ch '\'')

theorem quoted {pre w post : Str} (h : Quotes pre post) : ch '\'' :: w ++ [ch '\''] <:+: pre ++ (w ++ post) := by
  obtain ⟨p, rfl⟩ := List.getLast?_eq_some_iff.1 h.1
  obtain ⟨q, rfl⟩ := List.head?_eq_some_iff.1 h.2
  exact ⟨p, q, by simp⟩

/-- An error about a token, for its line. -/
theorem errTok_said {T : Token → Prop} {α : Type} {l : SrcLine} {pre post : String} {t : Token} {e : CErr} (ht : T t)
    (hl : l = t.line) (hq : Quotes (str pre) (str post))
    (h : (errTok l pre t post : Comp α) = .error (.err e)) : Said T e := by
  unfold errTok at h
  split at h
  · cases h
  · rename_i w hw
    cases h
    exact ⟨t, _, ht, hl, rfl, .inr ⟨w, hw, by simpa using quoted hq⟩⟩

end Ccml.Blame
