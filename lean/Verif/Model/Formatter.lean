import Verif.Model.Template
/-!
# `lithoxyl/sensible.py`: `SensibleFormatter`

One `SensibleMessageFormatter` per event, made when the formatter is made, used when an event is formatted.
-/
namespace Verif.Tmpl

open Verif.Sens

/-- The templates given to `SensibleFormatter` (sensible.py:165-172): the base (`none` is None, also if it is not given) and the
keywords with the names of events. -/
structure FormatterArgs where
  base : Option String
  kw : String → TemplateArg

/-- The loop of `SensibleFormatter.__init__` (sensible.py:171-178) over the events: the formatter of each, or the first exception
raised. -/
def mkFormatters {V : Type} (c : Conf V) (defaulter : TField → Res String) (quoter : TField → Res Quoter) (a : FormatterArgs) :
    List String → Out (List (String × List Token))
  | [] => .ok []
  | ev :: evs =>
    match construct c defaulter quoter (template a.base (a.kw ev)).toList with
    | .ok ts =>
      match mkFormatters c defaulter quoter a evs with
      | .ok fs => .ok ((ev, ts) :: fs)
      | r => r
    | .keyError => .keyError
    | .exc => .exc
    | .base => .base

/-- `SensibleFormatter(base, **kwargs)` (sensible.py:165-178) without defaulter and quoter. -/
def mkFormatter {V : Type} (c : Conf V) (a : FormatterArgs) : Out (List (String × List Token)) :=
  mkFormatters c defaultDefaulter (defaultQuoter c jsonQuoter) a EVENTS

/-- `on_begin`, `on_warn`, `on_end`, `on_comment` (sensible.py:180-190): the event's formatter is called with the event only
(`__call__` is `format`, sensible.py:300); `c` has the values its getters return for the event. -/
def onEvent {V : Type} (c : Conf V) (fs : List (String × List Token)) (k : Sens.Kind) (dataMap : String → Option V) : Out String :=
  match fs.lookup k.name with
  | some ts => formatTokens c (fun _ => none) dataMap [] ts ""
  | none => .exc

end Verif.Tmpl
