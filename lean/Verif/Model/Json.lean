import Verif.Model.Guid
/-!
# The default quoter: `json.dumps` of text

`DEFAULT_QUOTER = json.dumps` (sensible.py:19), applied to the formatted text of a field (sensible.py:291-292).  The standard
library function is modelled as its documented behaviour with `ensure_ascii=True` (CPython's
`py_encode_basestring_ascii`).  Text is a list of code points below 0x110000; lone surrogates are allowed, as in Python.
-/
namespace Verif.Json

open Guid (hexc)

/-- A character escaped by a four-digit code. -/
def u4 (n : Nat) : List Nat :=
  [92, 117, hexc (n / 4096 % 16), hexc (n / 256 % 16), hexc (n / 16 % 16), hexc (n % 16)]

/-- How one character is written. -/
def encodeChar (c : Nat) : List Nat :=
  if c = 92 then [92, 92]
  else if c = 34 then [92, 34]
  else if c = 10 then [92, 110]
  else if c = 13 then [92, 114]
  else if c = 9 then [92, 116]
  else if c = 12 then [92, 102]
  else if c = 8 then [92, 98]
  else if 32 ≤ c ∧ c ≤ 126 then [c]
  else if c < 0x10000 then u4 c
  else u4 (0xd800 + (c - 0x10000) / 1024 % 1024) ++ u4 (0xdc00 + (c - 0x10000) % 1024)

/-- `json.dumps(s)` of text. -/
def dumps (s : List Nat) : List Nat := 34 :: s.flatMap encodeChar ++ [34]

end Verif.Json
