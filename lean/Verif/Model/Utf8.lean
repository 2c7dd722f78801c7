import Verif.Model.Json
/-!
# Encoding entries: `entry.encode('UTF-8', 'backslashreplace')`

The default encoding and error handling of `StreamEmitter` and `FileEmitter` (emitters.py:63-65, 95, 136).  Text is a list of
code points, as in `Json`.
-/
namespace Verif.Utf8

/-- One character; surrogates cannot be encoded and are written as `\udxxx` (emitters.py:65, 95). -/
def encodeChar (c : Nat) : List Nat :=
  if c < 0x80 then [c]
  else if c < 0x800 then [0xc0 + c / 64, 0x80 + c % 64]
  else if 0xd800 ≤ c ∧ c < 0xe000 then Json.u4 c
  else if c < 0x10000 then [0xe0 + c / 4096, 0x80 + c / 64 % 64, 0x80 + c % 64]
  else [0xf0 + c / 262144, 0x80 + c / 4096 % 64, 0x80 + c / 64 % 64, 0x80 + c % 64]

/-- `text.encode('UTF-8', 'backslashreplace')` (emitters.py:95). -/
def encode (s : List Nat) : List Nat := s.flatMap encodeChar

/-- `text.encode('UTF-16')` (emitters.py:87, 95 with `encoding='UTF-16'`) on a little-endian machine, for characters below
0x10000: every call writes a byte order mark first. -/
def encode16 (s : List Nat) : List Nat := [0xff, 0xfe] ++ s.flatMap fun c => [c % 256, c / 256]

end Verif.Utf8
