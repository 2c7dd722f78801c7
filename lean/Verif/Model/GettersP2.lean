import Verif.Model.Getters
import Verif.Model.P2Sink
import Verif.Model.Ewma
/-!
# `QuantileSink(use_p2=True)` and `EWMASink` with getters that may raise

As in `Model/Getters.lean`: the accumulator is made and stored before the getter is called.
-/
namespace Verif.Sinks

open Verif.Dct

variable {K : Type} [Field K] [LinearOrder K] [IsStrictOrderedRing K] [FloorRing K]

/-- `QuantileSink.on_end` (sinks.py:341-352) with `P2Accumulator`s (no `add` raises, C53). -/
def p2Try (store : K → K) (points : List K) (m : P2Sink.Table K) (e : TryEv String K K) : P2Sink.Table K :=
  onEnd2 TryEv.logger TryEv.name (P2.accInit points)
    (fun a e => addGot (fun a v => (P2.accAdd store a v).getD a) a e.got) m e

/-- `EWMASink.on_end` (sinks.py:253-263); `mk` makes an accumulator at a clock reading (`C149_ewma_refuses` is about options with
which it cannot). -/
noncomputable def ewmaTry (mk : ℝ → Ewma.Ewma) : Map3 String Ewma.Ewma → TryEv String ℝ ℝ → Map3 String Ewma.Ewma :=
  onEnd TryEv.logger TryEv.name TryEv.status (fun e => mk e.now) (fun a e => addGot Ewma.add a e.got)

end Verif.Sinks
