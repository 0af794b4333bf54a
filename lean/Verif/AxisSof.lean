import Verif.Common
/-!
# Start of frame of a stream (hwtLib/amba/axis_comp/builder.py, `Axi4SBuilder.startOfFrame`)
-/
namespace Verif.AxisSof

structure In where
  valid : Bool
  ready : Bool
  last : Bool
deriving DecidableEq

/-- builder.py:55-67: the state is `lastseen` (reset to 1), which is also the output -/
def sof : Machine Bool In Bool where
  out s _ := s
  next s i := if i.valid && i.ready then i.last else s

end Verif.AxisSof
