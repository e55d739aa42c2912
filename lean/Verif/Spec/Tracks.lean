import Verif.Spec.Demuxer
/-! # Specification: histories of track registration and of buffer lookups -/
namespace Avf
open Go

/-- Operations on a muxer. -/
inductive MuxOp where
  | addTrack (t : AVStream)
  | writeHeader

/-- A history on a muxer. -/
def runMux (b : BaseMuxer) : List MuxOp → BaseMuxer
  | [] => b
  | .addTrack t :: rest => runMux (b.addTrack t).2 rest
  | .writeHeader :: rest => runMux b.writeHeader.2 rest

/-- `t` is the first element for which `P` holds. -/
def IsFirst {α : Type} (P : α → Prop) (l : List α) (t : α) : Prop := ∃ a b, l = a ++ t :: b ∧ P t ∧ ∀ x ∈ a, ¬ P x

/-- The answers of `FindBufferIndex` during a history, with the markers asked for. -/
def answers (s : Demuxer) : List (Oracle × DemuxOp) → Go (List (Int × Nat))
  | [] => ok []
  | (o, e) :: rest => do
    let s' ← e.run o s
    let xs ← answers s' rest
    match e with
    | .findBufferIndex m => return (m, (s.findBufferIndex m).1) :: xs
    | _ => return xs

/-- Indices given out densely, in the order of first use: a marker seen before gets its old index, a new one the number of
markers seen so far (`seen`, in that order). -/
def Dense : List Int → List (Int × Nat) → Prop
  | _, [] => True
  | seen, (m, i) :: rest =>
    (m ∈ seen ∧ seen[i]? = some m ∧ Dense seen rest) ∨ (m ∉ seen ∧ i = seen.length ∧ Dense (seen ++ [m]) rest)

end Avf
