import Verif.Model.Basic

set_option autoImplicit false

/-!
# Reading a script tag

How a browser reads an inline module script, as far as needed for the text that `loader_script` writes: where the
element ends (HTML standard, script data state) and the tokens of its text (ECMAScript lexical grammar).
-/

namespace Hotmeal
namespace Script

/-- Does the text go on with `</script` and a character that ends the name? (HTML standard, script data end
tag name state; upper-case letters are accepted.) -/
def endsHere : Str → Bool
  | '<' :: '/' :: s :: c :: r :: i :: p :: t :: x :: _ =>
    ([s, c, r, i, p, t].map lowerAscii == "script".toList) &&
      (x == '>' || x == '/' || x == ' ' || x == '\n' || x == '\t' || x == '\x0c' || x == '\r')
  | _ => false

/-- The text of a script element that starts here, and what follows from the end tag on. The escaped states that
begin with `<!--` are left out: they matter only for texts with `<`.
The replacement of NUL characters and the normalisation of line ends are left out too. -/
def content : Str → Option (Str × Str)
  | [] => none
  | c :: cs =>
    if endsHere (c :: cs) then some ([], c :: cs)
    else (content cs).map fun (a, b) => (c :: a, b)

/-- Tokens: identifiers and keywords, string literals by their value, and single punctuators. -/
inductive Tok
  | word (s : Str)
  | str (s : Str)
  | punct (c : Char)
  deriving DecidableEq

/-- Where the reader is: between tokens, in a word, in a string literal, after a backslash in one. What is read of
the token is kept in reverse. -/
inductive Mode
  | idle
  | word (acc : Str)
  | str (acc : Str)
  | esc (acc : Str)
  deriving DecidableEq

/-- The state: the mode and the tokens read, in reverse. -/
structure St where
  mode : Mode
  toks : List Tok
  deriving DecidableEq

/-- Letters, digits, `_` and `$`. -/
def isWord (c : Char) : Bool := c.isAlphanum || c == '_' || c == '$'

/-- A character between tokens. -/
def start (c : Char) (toks : List Tok) : St :=
  if c == ' ' || c == '\n' || c == '\t' || c == '\r' then ⟨.idle, toks⟩
  else if c == '"' then ⟨.str [], toks⟩
  else if isWord c then ⟨.word [c], toks⟩
  else ⟨.idle, .punct c :: toks⟩

/-- The value of an escape sequence of one character. Escapes with numbers are not read. -/
def unescape (c : Char) : Option Str :=
  if c == 'n' then some ['\n']
  else if c == 't' then some ['\t']
  else if c == 'r' then some ['\r']
  else if c == 'b' then some ['\x08']
  else if c == 'f' then some ['\x0c']
  else if c == 'v' then some ['\x0b']
  else if c == '\n' then some []
  else if c.isDigit || c == 'x' || c == 'u' then none
  else some [c]

/-- One character. A line end inside a string literal is an error. Literals with single quotes, templates,
comments and regular expressions are not read. -/
def step (s : St) (c : Char) : Option St := match s.mode with
  | .idle => some (start c s.toks)
  | .word acc => if isWord c then some ⟨.word (c :: acc), s.toks⟩ else some (start c (.word acc.reverse :: s.toks))
  | .str acc =>
    if c == '"' then some ⟨.idle, .str acc.reverse :: s.toks⟩
    else if c == '\\' then some ⟨.esc acc, s.toks⟩
    else if c == '\n' || c == '\r' then none
    else some ⟨.str (c :: acc), s.toks⟩
  | .esc acc => (unescape c).map fun v => ⟨.str (v.reverse ++ acc), s.toks⟩

/-- All tokens of a text. -/
def lex (s : Str) : Option (List Tok) := do
  let s ← s.foldlM step ⟨.idle, []⟩
  match s.mode with
  | .idle => some s.toks.reverse
  | .word acc => some (.word acc.reverse :: s.toks).reverse
  | _ => none

end Script
end Hotmeal
