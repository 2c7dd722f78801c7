/-!
# `lithoxyl/utils.py`: sequential GUIDs

Text is a list of code points.
-/
namespace Verif.Guid

/-- The code point of a hexadecimal digit, lower case. -/
def hexc (d : Nat) : Nat := if d < 10 then 48 + d else 87 + d

/-- The hexadecimal digits of a number, most significant first, no leading zeros. -/
def digits (n : Nat) : List Nat := if n < 16 then [n] else digits (n / 16) ++ [n % 16]
termination_by n
decreasing_by omega

/-- `'%x' % n` for `n ≥ 0` (utils.py:223). -/
def hex (n : Nat) : List Nat := (digits n).map hexc

/-- The module globals `_PID` and `_GUID_START` (utils.py:188-193). -/
structure Seed where
  pid : Nat
  start : Nat
deriving DecidableEq, Repr

/-- `reseed_guid` (utils.py:171-189): the start is 24 hexadecimal digits of a hash of the process id, the host name, the time
and random bytes; here any number. -/
def reseed (pid start : Nat) : Seed := ⟨pid, start⟩

/-- `int2hexguid_seq` (utils.py:210-223): `pid` is the running process, `fresh` what reseeding would give. -/
def guidSeq (s : Seed) (pid fresh id : Nat) : Seed × List Nat :=
  let s := if pid ≠ s.pid then reseed pid fresh else s
  (s, hex (s.start + id))

/-- The guids returned by a sequence of calls in one process, each with its own `fresh`. -/
def calls (pid : Nat) : Seed → List (Nat × Nat) → List (List Nat)
  | _, [] => []
  | s, (fresh, id) :: rest => (guidSeq s pid fresh id).2 :: calls pid (guidSeq s pid fresh id).1 rest

end Verif.Guid
