import Verif.Model.SendFlow

/-!
# Model of the ages of `src/SendFlow.cpp`

`getBufferedAge` and `getUnstartedAge`, on top of the model of the sending side of a session (`Verif.Model.SendFlow`). `now` is `getCurrentTime()`; times are integers.
-/

namespace Rtmfp
namespace SS

/-- src/SendFlow.cpp:129-135 `getBufferedAge` -/
def bufferedAge (s : SS) (i : Nat) (now : Int) : Int :=
  match (s.flow i).queue with
  | [] => 0
  | x :: _ => now - (s.receipts.r x.receipt).origin

/-- src/SendFlow.cpp:145-151: the loop of `getUnstartedAge` from a position in the queue -/
def unstartedFrom (r : RStore) (now : Int) : List SFrag → Int
  | [] => 0
  | x :: q => if (r.r x.receipt).started = false then now - (r.r x.receipt).origin else unstartedFrom r now q

/-- src/SendFlow.cpp:137-152 `getUnstartedAge`; lines 141-143 are the same as in `assembleData` (`startAt`) -/
def unstartedAge (s : SS) (i : Nat) (now : Int) : Int := unstartedFrom s.receipts now (startAt (s.flow i).lastName (s.flow i).queue).2

end SS
end Rtmfp
