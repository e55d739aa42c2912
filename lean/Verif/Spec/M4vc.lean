import Verif.Spec.Nal
/-! # What `M4VCExtraDataToAnnexB` does with every byte string

No buffers and no counters that wrap: a list is taken apart from the front. The texts of errors are left out. -/
namespace Avf
open Go

/-- The same outcome, whatever the text of an error. -/
def SameUpToText {α : Type} : Go α → Go α → Prop
  | ok a, ok b => a = b
  | err _, err _ => True
  | .panic, .panic => True
  | _, _ => False

/-- Copy `n` units with start codes behind `out`: the output and what is left of the input. A missing length field is an
error, so is an output longer than `room`; a unit longer than what is left panics – unless there is not even room for its
start code. -/
def m4vcUnits (room : Nat) : Nat → Bytes → Bytes → Go (Bytes × Bytes)
  | 0, out, rest => ok (out, rest)
  | n + 1, out, p :: q :: t =>
    let size := 256 * p.toNat + q.toNat
    if room < out.length + 4 then err ""
    else if t.length < size then .panic
    else if room < out.length + 4 + size then err ""
    else m4vcUnits room n (out ++ [0, 0, 0, 1] ++ t.take size) (t.drop size)
  | _ + 1, _, _ => err ""

/-- The whole: five bytes of header, the number of SPS in the low five bits of the sixth, the SPS; a second count is read
only if there was one SPS and more than two bytes are left. -/
def m4vcSpec (src : Bytes) : Go Bytes :=
  let room := src.length + 256
  if src.length < 5 then err ""
  else match src.drop 5 with
    | [] => ok []
    | b :: rest =>
      match m4vcUnits room (b.toNat % 32) [] rest with
      | ok (out, m :: p :: q :: t) =>
        if b.toNat % 32 = 1 then
          match m4vcUnits room m.toNat out (p :: q :: t) with
          | ok (out, _) => ok out
          | err e => err e
          | .panic => .panic
        else ok out
      | ok (out, _) => ok out
      | err e => err e
      | .panic => .panic

/-- After fewer than `n` complete units, taking `room` bytes with their start codes and one more start code, there is a
length field that announces more than what is left. -/
def CutOff (room n : Nat) (rest : Bytes) : Prop := ∃ (us : List Bytes) (p q : Byte) (t : Bytes), us.length < n ∧
  (∀ u ∈ us, u.length < 2 ^ 16) ∧ rest = us.flatMap unit16 ++ p :: q :: t ∧ t.length < 256 * p.toNat + q.toNat ∧
  (withCodes us).length + 4 ≤ room

end Avf
