import Verif.Spec.Nal
/-! # Specification: header byte behind a leading start code -/
namespace Avf

/-- The first byte behind the start code that `p` may begin with. -/
def leadByte (p : Bytes) : Option Byte :=
  if p.take 4 = [0, 0, 0, 1] then p[4]? else if p.take 3 = [0, 0, 1] then p[3]? else p[0]?

end Avf
