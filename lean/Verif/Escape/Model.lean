import Mathlib.Data.List.Basic

/-!
Model of the texts written into C string literals: `escape_str_for_c` (src/mccode_antlr/common/utilities.py 1-4), the
names of metadata (src/mccode_antlr/common/metadata.py 46-54) and the row of the metadata table
(src/mccode_antlr/translators/c_decls.py 81-83), and of a C compiler reading a literal.

A text is a list of code points: a Python `str` may contain surrogates. Characters are written as in `ch 'x'`.
-/

namespace Verif.Escape

abbrev Text := List Nat

/-- The code point of a character. -/
abbrev ch (c : Char) : Nat := c.toNat

def txt (s : String) : Text := s.toList.map Char.toNat

/-! ### Writing -/

/-- A hexadecimal digit, lower case. -/
def hexDigit (d : Nat) : Nat := if d < 10 then 48 + d else 87 + d

/-- The last `k` hexadecimal digits. -/
def hexW : Nat → Nat → Text
  | 0, _ => []
  | k + 1, n => hexW k (n / 16) ++ [hexDigit (n % 16)]

/-- Python's `unicode-escape` codec, one character (CPython, `_PyUnicode_AsUnicodeEscapeString`). -/
def uniEsc (c : Nat) : Text :=
  if c = ch '\\' then [ch '\\', ch '\\']
  else if c = 9 then [ch '\\', ch 't']
  else if c = 10 then [ch '\\', ch 'n']
  else if c = 13 then [ch '\\', ch 'r']
  else if 32 ≤ c ∧ c < 127 then [c]
  else if c < 256 then ch '\\' :: ch 'x' :: hexW 2 c
  else if c < 65536 then ch '\\' :: ch 'u' :: hexW 4 c
  else ch '\\' :: ch 'U' :: hexW 8 c

/-- `str.replace('"', r'\"')`. -/
def escQuotes (t : Text) : Text := t.flatMap fun c => if c = ch '"' then [ch '\\', ch '"'] else [c]

/-- utilities.py 1-4, of a text that is not `None`. -/
def escape (s : Text) : Text := escQuotes (s.flatMap uniEsc)

/-- metadata.py 46-50: the name kept by `partial_from_tokens`. -/
def metaName (name : Text) : Text :=
  if ch ' ' ∈ name ∧ (name.head? ≠ some (ch '"') ∨ name.getLast? ≠ some (ch '"')) then ch '"' :: name ++ [ch '"'] else name

/-- c_decls.py 83, from the opening quote of the second member on: the name is not escaped. -/
def rowFromName (name mimetype value : Text) : Text :=
  ch '"' :: metaName name ++ txt "\", \"" ++ mimetype ++ txt "\", \"" ++ escape value ++ txt "\"}, "

/-! ### Reading: the C language -/

/-- The bytes of a code point in UTF-8, the execution character set. -/
def utf8 (c : Nat) : List Nat :=
  if c < 128 then [c]
  else if c < 2048 then [192 + c / 64, 128 + c % 64]
  else if c < 65536 then [224 + c / 4096, 128 + c / 64 % 64, 128 + c % 64]
  else [240 + c / 262144, 128 + c / 4096 % 64, 128 + c / 64 % 64, 128 + c % 64]

def isHex (c : Nat) : Bool := (48 ≤ c && c ≤ 57) || (65 ≤ c && c ≤ 70) || (97 ≤ c && c ≤ 102)

def hexVal (c : Nat) : Nat := if c ≤ 57 then c - 48 else if c ≤ 70 then c - 55 else c - 87

def hexNum (t : Text) : Nat := t.foldl (fun a c => a * 16 + hexVal c) 0

def octNum (t : Text) : Nat := t.foldl (fun a c => a * 8 + (c - 48)) 0

def isOct (c : Nat) : Bool := 48 ≤ c && c ≤ 55

/-- The simple escape sequences (C99 6.4.4.4). -/
def simpleEsc : List (Nat × Nat) :=
  [(ch '\'', 39), (ch '"', 34), (ch '?', 63), (ch '\\', 92), (ch 'a', 7), (ch 'b', 8), (ch 'f', 12), (ch 'n', 10),
    (ch 'r', 13), (ch 't', 9), (ch 'v', 11)]

/-- A universal character name must not denote one of these (C99 6.4.3). -/
def ucnOk (n : Nat) : Bool :=
  (160 ≤ n || n = 36 || n = 64 || n = 96) && !(55296 ≤ n && n ≤ 57343) && n ≤ 1114111

/-- A universal character name with `k` digits. -/
def readUcn (k : Nat) (t : Text) : Option (List Nat × Text) :=
  if (t.take k).length = k ∧ (t.take k).all isHex ∧ ucnOk (hexNum (t.take k)) then
    some (utf8 (hexNum (t.take k)), t.drop k)
  else none

/-- An escape sequence, after the backslash: the bytes it stands for and the text after it. As many hexadecimal digits
are taken as there are; the value must fit a byte. -/
def readEsc : Text → Option (List Nat × Text)
  | [] => none
  | e :: t =>
    match simpleEsc.lookup e with
    | some v => some ([v], t)
    | none =>
      if e = ch 'x' then
        if (t.takeWhile isHex).isEmpty ∨ 255 < hexNum (t.takeWhile isHex) then none
        else some ([hexNum (t.takeWhile isHex)], t.dropWhile isHex)
      else if e = ch 'u' then readUcn 4 t
      else if e = ch 'U' then readUcn 8 t
      else if isOct e then
        let o := ((e :: t).take 3).takeWhile isOct
        if 255 < octNum o then none else some ([octNum o], (e :: t).drop o.length)
      else none

/-- One character of a literal. -/
def readChar : Text → Option (List Nat × Text)
  | [] => none
  | c :: t => if c = 10 then none else if c = ch '\\' then readEsc t else some (utf8 c, t)

/-- A literal, after the opening quote: its bytes and the text after the closing quote, `none` if it is not valid. `fuel`
bounds the number of characters. -/
def readFuel : Nat → Text → Option (List Nat × Text)
  | 0, _ => none
  | fuel + 1, t =>
    if t.head? = some (ch '"') then some ([], t.tail)
    else
      match readChar t with
      | none => none
      | some (b, t) =>
        match readFuel fuel t with
        | none => none
        | some (bs, rest) => some (b ++ bs, rest)

def readLit (t : Text) : Option (List Nat × Text) := readFuel (t.length + 1) t

/-- The third characters of the trigraph sequences, and what they are replaced by. -/
def trigraphTable : List (Nat × Nat) :=
  [(ch '=', ch '#'), (ch '(', ch '['), (ch '/', ch '\\'), (ch ')', ch ']'), (ch '\'', ch '^'), (ch '<', ch '{'),
    (ch '!', ch '|'), (ch '>', ch '}'), (ch '-', ch '~')]

/-- Translation phase 1 of C99 (the compiler is called with `-std=c99`, src/mccode_antlr/config/platforms.yaml 6):
trigraphs are replaced. -/
def trigraphs : Text → Text
  | a :: b :: c :: t =>
    if a = ch '?' ∧ b = ch '?' then
      match trigraphTable.lookup c with
      | some r => r :: trigraphs t
      | none => a :: trigraphs (b :: c :: t)
    else a :: trigraphs (b :: c :: t)
  | t => t

end Verif.Escape
