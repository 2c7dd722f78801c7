/-!
# `Event.message` (`lithoxyl/action.py`) when messages mention messages

`Model/Message.lean` takes what the built-in getters give as known.  Four of them read messages in turn: `event_message` and
`event_message_raw` that of the event itself, `begin_message` and `end_message` those of the action's begin and end events
(sensible.py:445-450).  Here the messages of a set of events are read together, on a finite stack.
-/
namespace Verif.MsgRec

/-- A part of a message template, after parsing: text (or a field that is not a message, as the text it shows), or a field that
shows the message of an event, with its default text (sensible.py:302-303). -/
inductive Part where
  | text (s : String)
  | message (ev : Nat) (default : String)
  deriving DecidableEq, Repr

/-- The `_message` of each event (action.py:299, 309-321). -/
abbrev Cache := Nat → Option String

/-- No message was read so far. -/
def fresh : Cache := fun _ => none

/-- The loop of `SensibleMessageFormatter.format` (sensible.py:280-300): a field that raises shows its default.  `rd` reads the
message of an event; `none` is RecursionError. -/
def fill (rd : Cache → Nat → Option String × Cache) : List Part → String → Cache → String × Cache
  | [], acc, c => (acc, c)
  | .text s :: ps, acc, c => fill rd ps (acc ++ s) c
  | .message j dflt :: ps, acc, c =>
    match rd c j with
    | (some t, c') => fill rd ps (acc ++ t) c'
    | (none, c') => fill rd ps (acc ++ dflt) c'

/-- Reading `Event.message` (action.py:307-321; sensible.py:445-450) of event `i` when `depth` more readings fit on the stack: a true `_message` is
returned, else it is made and kept.  (A reading either fits as a whole or raises RecursionError before it does anything.) -/
def read (tm : Nat → List Part) : (depth : Nat) → Cache → Nat → Option String × Cache
  | 0, c, _ => (none, c)
  | depth + 1, c, i =>
    if (c i).getD "" ≠ "" then (c i, c)
    else
      let r := fill (read tm depth) (tm i) "" c
      (some r.1, fun k => if k = i then some r.1 else r.2 k)

end Verif.MsgRec
