import Verif.Go
/-!
# Model of /repo/collections/reference_counter.go

`Refer`, `Release` and `UseCount` are single atomic instructions (`sync/atomic`), so an execution of any number of
goroutines is a sequence of such steps.  The counter is an `int32` (wraps around).  `Get` (/repo/collections/reference_counter.go:22-24) and `ResetData`
(/repo/collections/reference_counter.go:31-33) are plain accesses to the payload and play no role in counting.
-/
namespace Avf
open Go

/-- `ReferenceCounter[T]` (/repo/collections/reference_counter.go:5-8), counter only. -/
structure RefCounter where
  refer : BitVec 32
deriving DecidableEq, Repr

namespace RefCounter

/-- `NewReferenceCounter` (/repo/collections/reference_counter.go:35-40). -/
def new : RefCounter := ⟨1⟩

/-- `Refer` (/repo/collections/reference_counter.go:10-12). -/
def addRef (r : RefCounter) : RefCounter := ⟨r.refer + 1⟩

/-- `Release` (/repo/collections/reference_counter.go:14-16). -/
def release (r : RefCounter) : Bool × RefCounter :=
  let v := r.refer + (-1)
  (v == 0, ⟨v⟩)

/-- `UseCount` (/repo/collections/reference_counter.go:18-20). -/
def useCount (r : RefCounter) : Int := r.refer.toInt

end RefCounter
end Avf
