import Verif.Token
/-!
The lexer (lib_compiler/lexer.cpp).

The pointer `s` into the source buffer is the part of the buffer from that address on, including
the terminating NUL; the empty list is the address one past the buffer, reading there is
`LexStop.oob`.  Characters are compared as signed `char`; `tolower` leaves bytes above 127 alone,
as it does in the "C" locale.
-/
namespace Ccml

/-- How lexing ends early. -/
inductive LexStop
  /-- a reported error -/
  | err (e : CErr)
  /-- a read beyond the source buffer -/
  | oob
  /-- signed overflow while a number is accumulated -/
  | overflow
  /-- a failed `assert` -/
  | assert
  /-- the loop did not end (never happens, see `C06_lexing_stays_inside_partial`) -/
  | diverge
  deriving DecidableEq, Repr

/-- Result of a lexer function. -/
abbrev Lex (α : Type) := Except LexStop α

/-- `tolower` of `<cctype>` on a `char` in the "C" locale. -/
def lower (c : Byte) : Byte := if 65 ≤ c.toNat ∧ c.toNat ≤ 90 then c + 32 else c

/-- `is_alpha`, lib_compiler/lexer.cpp:10-12, on a signed `char`. -/
def isAlpha (c : Byte) : Bool :=
  (decide ((ch 'a').toInt ≤ c.toInt) && decide (c.toInt ≤ (ch 'z').toInt)) ||
  (decide ((ch 'A').toInt ≤ c.toInt) && decide (c.toInt ≤ (ch 'Z').toInt)) ||
  decide ((ch '_').toInt ≤ c.toInt)

/-- `is_numeric`, lib_compiler/lexer.cpp:14-16. -/
def isNumeric (c : Byte) : Bool :=
  decide ((ch '0').toInt ≤ c.toInt) && decide (c.toInt ≤ (ch '9').toInt)

/-- `is_alpha_numeric`, lib_compiler/lexer.cpp:18-21. -/
def isAlphaNum (c : Byte) : Bool := isAlpha c || isNumeric c

/-- `munch`, lib_compiler/lexer.cpp:23-38: the rest of the buffer after the keyword, `none` when
it does not match.  (The code leaves `s` one before that, the loop increments it.) -/
def munch : List Byte → Str → Lex (Option (List Byte))
  | [], _ => .error .oob
  | c :: t, [] => if isAlphaNum c then .ok none else .ok (some (c :: t))
  | c :: t, k :: ks => if lower c = lower k then munch t ks else .ok none

/-- The `munch` calls of one case label, in order: first match wins
(lib_compiler/lexer.cpp:94-175). -/
def munchAny (s : List Byte) : List (Str × Tok) → Lex (Option (Tok × List Byte))
  | [] => .ok none
  | (k, t) :: ks =>
    match munch s k with
    | .error e => .error e
    | .ok (some r) => .ok (some (t, r))
    | .ok none => munchAny s ks

/-- The keywords tried for a lower-case first letter, lib_compiler/lexer.cpp:93-175. -/
def keywordsFor (c : Byte) : List (Str × Tok) :=
  if c = ch 'a' then [(str "and", .AND)]
  else if c = ch 'c' then [(str "const", .CONST)]
  else if c = ch 'e' then [(str "end", .END), (str "else", .ELSE)]
  else if c = ch 'f' then [(str "for", .FOR), (str "function", .FUNC)]
  else if c = ch 'i' then [(str "if", .IF), (str "import", .IMPORT)]
  else if c = ch 'n' then [(str "not", .NOT), (str "none", .NONE)]
  else if c = ch 'o' then [(str "or", .OR)]
  else if c = ch 'r' then [(str "return", .RETURN)]
  else if c = ch 't' then [(str "to", .TO)]
  else if c = ch 'v' then [(str "var", .VAR)]
  else if c = ch 'w' then [(str "while", .WHILE)]
  else []

/-- Single-character tokens, lib_compiler/lexer.cpp:176-205, 236-238. -/
def punct (c : Byte) : Option Tok :=
  if c = ch '(' then some .LPAREN
  else if c = ch ')' then some .RPAREN
  else if c = ch '[' then some .LBRACKET
  else if c = ch ']' then some .RBRACKET
  else if c = ch ',' then some .COMMA
  else if c = ch '+' then some .ADD
  else if c = ch '-' then some .SUB
  else if c = ch '*' then some .MUL
  else if c = ch '/' then some .DIV
  else if c = ch '%' then some .MOD
  else if c = ch '.' then some .DOT
  else none

/-- Tokens whose second character decides, lib_compiler/lexer.cpp:212-235: the token with and
without a following `=`. -/
def punctEq (c : Byte) : Option (Tok × Tok) :=
  if c = ch '=' then some (.EQ, .ASSIGN)
  else if c = ch '<' then some (.LEQ, .LT)
  else if c = ch '>' then some (.GEQ, .GT)
  else none

/-- `for (; p(*t); ++t);` as in lib_compiler/lexer.cpp:245, 248, 262: the characters passed over
and the rest. -/
def scanWhile (p : Byte → Bool) : List Byte → Lex (Str × List Byte)
  | [] => .error .oob
  | c :: t =>
    if p c then
      match scanWhile p t with
      | .error e => .error e
      | .ok (w, r) => .ok (c :: w, r)
    else .ok ([], c :: t)

/-- The string loop, lib_compiler/lexer.cpp:64-73: the characters up to the closing quote and the
rest after it; `none` when a newline or the end comes first. -/
def scanString : List Byte → Lex (Option (Str × List Byte))
  | [] => .error .oob
  | c :: t =>
    if c = ch '"' then .ok (some ([], t))
    else if c = ch '\n' || c = 0 then .ok none
    else
      match scanString t with
      | .error e => .error e
      | .ok none => .ok none
      | .ok (some (w, r)) => .ok (some (c :: w, r))

/-- The loop of `push_val_`, lib_compiler/lexer.cpp:293-306, from values `v` and `f`. -/
def numLoop : Str → I32 → I32 → Lex (I32 × I32)
  | [], v, f => .ok (v, f)
  | c :: t, v, f =>
    if c = ch '.' then
      if f = 0 then numLoop t v 1 else .error .assert
    else if isNumeric c then
      match ret32 (v.toInt * 10) with
      | .error _ => .error .overflow
      | .ok v10 =>
        match ret32 (v10.toInt + (c.toInt - (ch '0').toInt)) with
        | .error _ => .error .overflow
        | .ok v' =>
          match ret32 (f.toInt * 10) with
          | .error _ => .error .overflow
          | .ok f' => numLoop t v' f'
    else .error .assert

/-- `push_val_`, lib_compiler/lexer.cpp:293-314. -/
def numToken (fl : FloatOps) (s : Str) (l : SrcLine) : Lex Token :=
  match numLoop s 0 0 with
  | .error e => .error e
  | .ok (v, f) =>
    if f = 0 then .ok (.number .INT v l)
    else .ok (.number .FLOAT (fl.div (fl.ofInt v) (fl.ofInt f)) l)

/-- The characters of a number, lib_compiler/lexer.cpp:244-249: digits, then possibly a point and
further digits. -/
def scanNumber (s : List Byte) : Lex (Str × List Byte) :=
  match scanWhile isNumeric s with
  | .error e => .error e
  | .ok (w, []) => .ok (w, [])
  | .ok (w, c :: t) =>
    if c = ch '.' then
      match scanWhile isNumeric t with
      | .error e => .error e
      | .ok (w', r) => .ok (w ++ c :: w', r)
    else .ok (w, c :: t)

/-- `unexpected_character` and `string_quote_mismatch`, lib_compiler/errors.h:196-202. -/
def lexErr {α : Type} (l : SrcLine) (parts : List Str) : Lex α :=
  .error (.err ⟨parts.flatten.take 1023, l⟩)

/-- What one iteration of the lexer loop does. -/
inductive LexStep
  /-- the loop ends at the NUL -/
  | done
  /-- the tokens pushed (none or one), the line counter and the buffer for the next iteration -/
  | next (toks : List Token) (line : Nat) (rest : List Byte)
  deriving DecidableEq, Repr

/-- One iteration of `for (; *s; ++s)` in `lexer_t::lex`, lib_compiler/lexer.cpp:48-275, with the
line counter at `line` in file `file`. -/
def lexStep (fl : FloatOps) (file : Nat) (s : List Byte) (line : Nat) : Lex LexStep :=
  match s with
  | [] => .error .oob
  | c :: t =>
    let here : SrcLine := ⟨file, line⟩
    if c = 0 then .ok .done
    else if c = ch ' ' || c = ch '\r' || c = ch '\t' then .ok (.next [] line t)
    else if c = ch '"' then
      match scanString t with
      | .error e => .error e
      | .ok none => lexErr here [str "string missing closing quote \""]
      | .ok (some (w, r)) => .ok (.next [.text .STRING w here] line r)
    else if c = ch '#' then
      match scanWhile (fun c => c != 0 && c != ch '\n') (c :: t) with
      | .error e => .error e
      | .ok (_, []) => .error .oob
      | .ok (_, _ :: r) => .ok (.next [.plain .EOL ⟨file, line + 1⟩] (line + 1) r)
    else
      match munchAny (c :: t) (keywordsFor (lower c)) with
      | .error e => .error e
      | .ok (some (k, r)) => .ok (.next [.plain k here] line r)
      | .ok none =>
        match punct c with
        | some k => .ok (.next [.plain k here] line t)
        | none =>
          if c = ch '\n' then .ok (.next [.plain .EOL ⟨file, line + 1⟩] (line + 1) t)
          else
            match punctEq c with
            | some (k2, k1) =>
              match t with
              | [] => .error .oob
              | d :: r =>
                if d = ch '=' then .ok (.next [.plain k2 here] line r)
                else .ok (.next [.plain k1 here] line (d :: r))
            | none =>
              if isNumeric c then
                match scanNumber (c :: t) with
                | .error e => .error e
                | .ok (w, r) =>
                  match numToken fl w here with
                  | .error e => .error e
                  | .ok k => .ok (.next [k] line r)
              else if isAlpha c then
                match scanWhile isAlphaNum (c :: t) with
                | .error e => .error e
                | .ok (w, r) => .ok (.next [.text .IDENT w here] line r)
              else lexErr here [str "unexpected character '", [c], str "' in source"]

/-- The loop of `lexer_t::lex`, lib_compiler/lexer.cpp:48-278, and the end-of-file token pushed
after it.  Every iteration passes over at least one byte, so the buffer length plus one bounds the
number of iterations. -/
def lexLoop (fl : FloatOps) (file : Nat) : Nat → List Byte → Nat → Lex (List Token)
  | 0, _, _ => .error .diverge
  | n + 1, s, line =>
    match lexStep fl file s line with
    | .error e => .error e
    | .ok .done => .ok [.plain .EOF ⟨file, line⟩]
    | .ok (.next toks line' r) =>
      match lexLoop fl file n r line' with
      | .error e => .error e
      | .ok ts => .ok (toks ++ ts)

/-- `lexer_t::lex`, lib_compiler/lexer.cpp:43-279, on the buffer made by `source_t` from `text`
(lib_common/source.h:13-42): the bytes followed by a NUL. -/
def lex (fl : FloatOps) (file : Nat) (text : Str) : Lex (List Token) :=
  lexLoop fl file (text.length + 2) (text ++ [0]) 1

/-- The outcome of lexing seen by `nano_t::build`. -/
def LexStop.toStop : LexStop → Stop
  | .err e => .err e
  | .oob => .fault .ub
  | .overflow => .fault .ub
  | .assert => .fault .assert
  | .diverge => .fault .diverge

end Ccml
