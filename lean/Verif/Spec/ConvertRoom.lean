import Verif.Spec.Nal
/-!
# A buffer after bytes were written from its start
-/
namespace Avf

/-- `dst` with `out` written from its start, as far as there is room. -/
def blit (dst out : Bytes) : Bytes := out.take dst.length ++ dst.drop out.length

/-- The length of the last of some units, 0 if there are none. -/
def lastLength (us : List Bytes) : Nat := (us.getLast?.map List.length).getD 0

end Avf
