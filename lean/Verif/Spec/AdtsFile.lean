import Verif.Model.Utils
import Verif.Spec.Record
/-! # Streams of ADTS frames (ISO/IEC 13818-7, 6.2) -/
namespace Avf
open Go

/-- A frame with its header: the sync word, and its own length in the field of 13 bits at bit 30. -/
def AdtsFrame (d : Bytes) : Prop := 7 ≤ d.length ∧ bitField d 0 12 = 0xFFF ∧ bitField d 30 13 = d.length

instance (d : Bytes) : Decidable (AdtsFrame d) := inferInstanceAs (Decidable (_ ∧ _ ∧ _))

/-- What a reader of such a file does with the functions of /repo/utils/aac_util.go: it reads the header (`ReadADtsFixedHeader`), takes
as many bytes as `FrameLength` says, and goes on. -/
def cutAdts (data : Bytes) : Go (List Bytes) :=
  if data = [] then ok []
  else do
    let a ← readADtsFixedHeader data
    let n := (adtsFrameLength a).toNat
    if h : 7 ≤ n ∧ n ≤ data.length then do
      let rest ← cutAdts (data.drop n)
      return data.take n :: rest
    else err "bad frame length"
termination_by data.length
decreasing_by rw [List.length_drop]; omega

end Avf
