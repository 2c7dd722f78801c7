import Verif.Lemmas.Registry
import Verif.Spec.Samples
/-!
# C13: the sink registry
-/
namespace Verif

/-- **C13.**  In every reachable state, a logger's sink list has no duplicates, and for each event kind
the hooks that will be called are those of the listed sinks that have one, in the order of the list. -/
theorem registry_ok {env : Env} {w : World} (h : Reachable env w) {l : LogId} {L : Log}
    (hL : w.logs l = some L) :
    L.sinks.Nodup ∧ ∀ k, L.hooks k = L.sinks.filter fun s => env.hasHook s k :=
  ⟨(h.qInv.reg l L hL).nodup, (h.qInv.reg l L hL).hooks⟩

/-- **C13.**  The list holds exactly the sinks asked for since it was last set, in order of first
request: a new logger starts with the given sinks ... -/
theorem sinks_new {env : Env} {w : World} {l : LogId} (hl : w.logs l = none) (ss : List SinkId)
    (as : Option Bool) :
    ∃ L, (step env w (.newLogger l ss as)).1.logs l = some L ∧ L.sinks = firsts ss := by
  refine ⟨newLog env w ss as, ?_, newLog_sinks ..⟩
  simp [step, hl, addLogger_logs]

/-- ... and any later history keeps it so. -/
theorem sinks_requested {env : Env} {w : World} (h : Reachable env w) {l : LogId} {L : Log}
    {r : List SinkId} (hL : w.logs l = some L) (hr : L.sinks = firsts r) (its : List Item) :
    ∃ L', (run env w its).logs l = some L' ∧ L'.sinks = firsts (its.foldl (requested l) r) := by
  have hg := h.good
  clear h
  induction its generalizing w L r with
  | nil => exact ⟨L, hL, hr⟩
  | cons it its ih =>
    obtain ⟨L', h1, h2⟩ := sinks_item hg hL hr it
    exact ih h1 h2 (hg.item it)

section
open Sample
/-- Duplicates are dropped, a re-added sink keeps its place, other loggers do not matter. -/
def exReg : List Item :=
  [.op (.newLogger 0 [3, 1, 3] none), .op (.newLogger 1 [7] none), .op (.addSink 0 2),
    .op (.addSink 0 1), .op (.addSink 1 9), .op (.setSinks 0 [5, 6, 5]), .op (.addSink 0 4)]

example : ((run quiet World.init exReg).logs 0).map (·.sinks) = some [5, 6, 4] := by decide
example : ((run quiet World.init (exReg.take 5)).logs 0).map (·.sinks) = some [3, 1, 2] := by decide
example : (exReg.drop 1).foldl (requested 0) [3, 1, 3] = [5, 6, 5, 4] := by decide
end

end Verif
