import Verif.Model.Step
/-!
# What a logger's sink list should be
-/
namespace Verif

/-- The elements of a list in order of first occurrence. -/
def firsts : List SinkId → List SinkId
  | [] => []
  | x :: xs => x :: (firsts xs).filter (· ≠ x)

/-- The sinks asked for on logger `l` since its list was last set, oldest request first. -/
def requested (l : LogId) : List SinkId → Item → List SinkId
  | r, .op (.setSinks m ss) => if m = l then ss else r
  | r, .op (.addSink m s) => if m = l then r ++ [s] else r
  | r, .op (.clearSinks m) => if m = l then [] else r
  | r, _ => r

end Verif
