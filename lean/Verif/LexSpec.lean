import Verif.Lexer
/-!
What a source text means as a sequence of tokens, written down independently of the lexer: the
tables of keywords and symbols and the spelling of each kind of token.
-/
namespace Ccml

/-- The keywords of the language. -/
def keywordTable : List (Str × Tok) :=
  [(str "and", .AND), (str "const", .CONST), (str "end", .END), (str "else", .ELSE),
   (str "for", .FOR), (str "function", .FUNC), (str "if", .IF), (str "import", .IMPORT),
   (str "not", .NOT), (str "none", .NONE), (str "or", .OR), (str "return", .RETURN),
   (str "to", .TO), (str "var", .VAR), (str "while", .WHILE)]

/-- The symbols of the language. -/
def symbolTable : List (Str × Tok) :=
  [(str "(", .LPAREN), (str ")", .RPAREN), (str "[", .LBRACKET), (str "]", .RBRACKET),
   (str ",", .COMMA), (str ".", .DOT), (str "+", .ADD), (str "-", .SUB), (str "*", .MUL),
   (str "/", .DIV), (str "%", .MOD), (str "=", .ASSIGN), (str "==", .EQ), (str "<", .LT),
   (str "<=", .LEQ), (str ">", .GT), (str ">=", .GEQ)]

/-- Characters that start a name: letters, and every ASCII character from `_` on (so also
backquote, braces, bar, tilde and DEL). -/
def NameStart (c : Byte) : Prop := (65 ≤ c.toNat ∧ c.toNat ≤ 90) ∨ (95 ≤ c.toNat ∧ c.toNat ≤ 127)

/-- Decimal digits. -/
def Digit (c : Byte) : Prop := 48 ≤ c.toNat ∧ c.toNat ≤ 57

/-- Characters that continue a name. -/
def NameChar (c : Byte) : Prop := NameStart c ∨ Digit c

instance (c : Byte) : Decidable (NameStart c) := by unfold NameStart; infer_instance
instance (c : Byte) : Decidable (Digit c) := by unfold Digit; infer_instance
instance (c : Byte) : Decidable (NameChar c) := by unfold NameChar; infer_instance

/-- Blanks between tokens. -/
def Blank (c : Byte) : Prop := c = ch ' ' ∨ c = ch '\r' ∨ c = ch '\t'

instance (c : Byte) : Decidable (Blank c) := by unfold Blank; infer_instance

/-- Value of a sequence of decimal digits. -/
def digitsValue (w : Str) : Nat := w.foldl (fun v c => 10 * v + (c.toNat - 48)) 0

/-- A keyword in upper case stands for the same keyword. -/
def caseFold (c : Byte) : Byte := if 65 ≤ c.toNat ∧ c.toNat ≤ 90 then BitVec.ofNat 8 (c.toNat + 32) else c

/-- The keyword a word stands for, ignoring case. -/
def keywordOf (w : Str) : Option Tok := (keywordTable.find? (fun k => k.1 = w.map caseFold)).map (·.2)

/-- `Spells fl w l t`: the characters `w`, standing on line `l`, are a spelling of the token `t`.
Line ends and comments are treated in `Reads`. -/
inductive Spells (fl : FloatOps) : Str → SrcLine → Token → Prop
  | keyword {w l t} : keywordOf w = some t → Spells fl w l (.plain t l)
  | symbol {w l t} : (w, t) ∈ symbolTable → Spells fl w l (.plain t l)
  | name {c w l} : NameStart c → (∀ d ∈ w, NameChar d) → keywordOf (c :: w) = none →
      Spells fl (c :: w) l (.text .IDENT (c :: w) l)
  | string {q l} : (∀ c ∈ q, c ≠ ch '"' ∧ c ≠ ch '\n' ∧ c ≠ 0) →
      Spells fl (ch '"' :: q ++ [ch '"']) l (.text .STRING q l)
  | int {w l} : w ≠ [] → (∀ c ∈ w, Digit c) → digitsValue w < 2 ^ 31 →
      Spells fl w l (.number .INT (BitVec.ofNat 32 (digitsValue w)) l)
  | float {a b l} : a ≠ [] → (∀ c ∈ a, Digit c) → (∀ c ∈ b, Digit c) →
      digitsValue (a ++ b) < 2 ^ 31 → 10 ^ b.length < 2 ^ 31 →
      Spells fl (a ++ ch '.' :: b) l
        (.number .FLOAT (fl.div (fl.ofInt (BitVec.ofNat 32 (digitsValue (a ++ b))))
          (fl.ofInt (BitVec.ofNat 32 (10 ^ b.length)))) l)

/-- `Reads fl file n s ts`: the text `s`, whose first character stands on line `n`, consists of
the spellings of the tokens `ts`, blanks and comments; the last token is the end of file, and
a NUL ends the text early. -/
inductive Reads (fl : FloatOps) (file : Nat) : Nat → Str → List Token → Prop
  | eof {n} : Reads fl file n [] [.plain .EOF ⟨file, n⟩]
  | nul {n s} : Reads fl file n (0 :: s) [.plain .EOF ⟨file, n⟩]
  | blank {n c s ts} : Blank c → Reads fl file n s ts → Reads fl file n (c :: s) ts
  | eol {n s ts} : Reads fl file (n + 1) s ts →
      Reads fl file n (ch '\n' :: s) (.plain .EOL ⟨file, n + 1⟩ :: ts)
  | comment {n q d s ts} : (∀ c ∈ q, c ≠ 0 ∧ c ≠ ch '\n') → d = ch '\n' ∨ d = 0 →
      Reads fl file (n + 1) s ts →
      Reads fl file n (ch '#' :: q ++ d :: s) (.plain .EOL ⟨file, n + 1⟩ :: ts)
  | token {n w s t ts} : Spells fl w ⟨file, n⟩ t → Reads fl file n s ts →
      Reads fl file n (w ++ s) (t :: ts)

/-- Where a reader of the text stands: between tokens, in a string, in a comment. -/
inductive Mode
  | normal | string | comment
  deriving DecidableEq, Repr

/-- Does the text end inside a comment?  A NUL between tokens ends the text. -/
def endsInComment : Mode → Str → Bool
  | .normal, [] => false
  | .string, [] => false
  | .comment, [] => true
  | .normal, c :: t =>
    if c = 0 then false
    else if c = ch '"' then endsInComment .string t
    else if c = ch '#' then endsInComment .comment t
    else endsInComment .normal t
  | .string, c :: t =>
    if c = ch '"' then endsInComment .normal t
    else if c = ch '\n' ∨ c = 0 then false
    else endsInComment .string t
  | .comment, c :: t =>
    if c = ch '\n' ∨ c = 0 then endsInComment .normal t else endsInComment .comment t

/-- The decimal digits of a number. -/
def printNat (n : Nat) : Str :=
  if n < 10 then [BitVec.ofNat 8 (48 + n)] else printNat (n / 10) ++ [BitVec.ofNat 8 (48 + n % 10)]

/-- A token before it is written down. -/
inductive Lexeme
  /-- a keyword or symbol of the tables -/
  | fixed (w : Str) (t : Tok)
  | name (w : Str)
  | string (w : Str)
  | int (n : Nat)
  /-- the number before the point and the digits after it -/
  | float (whole : Nat) (frac : Str)
  | newline
  deriving DecidableEq, Repr

/-- Lexemes the language can write down. -/
def Lexeme.Legal : Lexeme → Prop
  | .fixed w t => (w, t) ∈ keywordTable ++ symbolTable
  | .name w => (∃ c v, w = c :: v ∧ NameStart c ∧ ∀ d ∈ v, NameChar d) ∧ keywordOf w = none
  | .string w => ∀ c ∈ w, c ≠ ch '"' ∧ c ≠ ch '\n' ∧ c ≠ 0
  | .int n => n < 2 ^ 31
  | .float a b => (∀ c ∈ b, Digit c) ∧ a * 10 ^ b.length + digitsValue b < 2 ^ 31 ∧ 10 ^ b.length < 2 ^ 31
  | .newline => True

/-- How a lexeme is written. -/
def Lexeme.spell : Lexeme → Str
  | .fixed w _ => w
  | .name w => w
  | .string w => ch '"' :: w ++ [ch '"']
  | .int n => printNat n
  | .float a b => printNat a ++ ch '.' :: b
  | .newline => [ch '\n']

/-- May the character `d` stand directly behind the lexeme without becoming part of it? -/
def Lexeme.CanPrecede : Lexeme → Byte → Prop
  | .fixed w _, d =>
    if w ∈ keywordTable.map (·.1) then ¬ NameChar d
    else if w ∈ [str "=", str "<", str ">"] then d ≠ ch '='
    else True
  | .name _, d => ¬ NameChar d
  | .string _, _ => True
  | .int _, d => ¬ Digit d ∧ d ≠ ch '.'
  | .float _ _, d => ¬ Digit d
  | .newline, _ => True

/-- A text made of lexemes, each followed by some blanks. -/
def written (xs : List (Lexeme × Str)) : Str := xs.flatMap (fun x => x.1.spell ++ x.2)

/-- Every lexeme is legal, the gaps are blanks, and wherever there is no gap the next character
does not continue the lexeme. -/
def Readable : List (Lexeme × Str) → Prop
  | [] => True
  | (x, gap) :: xs =>
    x.Legal ∧ (∀ c ∈ gap, Blank c) ∧ (∀ d ∈ (gap ++ written xs).head?, x.CanPrecede d) ∧ Readable xs

/-- The tokens expected for a list of lexemes starting on line `n`. -/
def expectedTokens (fl : FloatOps) (file : Nat) : Nat → List Lexeme → List Token
  | n, [] => [⟨.EOF, [], ⟨file, n⟩, 0⟩]
  | n, .fixed _ t :: xs => ⟨t, [], ⟨file, n⟩, 0⟩ :: expectedTokens fl file n xs
  | n, .name w :: xs => ⟨.IDENT, w, ⟨file, n⟩, 0⟩ :: expectedTokens fl file n xs
  | n, .string w :: xs => ⟨.STRING, w, ⟨file, n⟩, 0⟩ :: expectedTokens fl file n xs
  | n, .int v :: xs => ⟨.INT, [], ⟨file, n⟩, BitVec.ofNat 32 v⟩ :: expectedTokens fl file n xs
  | n, .float a b :: xs =>
    ⟨.FLOAT, [], ⟨file, n⟩, fl.div (fl.ofInt (BitVec.ofNat 32 (a * 10 ^ b.length + digitsValue b)))
      (fl.ofInt (BitVec.ofNat 32 (10 ^ b.length)))⟩ :: expectedTokens fl file n xs
  | n, .newline :: xs => ⟨.EOL, [], ⟨file, n + 1⟩, 0⟩ :: expectedTokens fl file (n + 1) xs

end Ccml
