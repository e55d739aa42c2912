import Verif.Model.GolombIO
import Verif.Lemmas.Golomb
/-! # Specification: what comes out of a bit reader on any `io.Reader` -/
namespace Avf
open Go

/-- What one call of `ReadBit` can meet: a bit, or an error. -/
inductive BitEvent where
  | bit (b : Bool)
  | fail (e : String)
deriving DecidableEq, Repr

/-- What an answer of the `io.Reader` turns into: the eight bits of the buffer, or one error. -/
def Answer.events (a : Answer) : List BitEvent :=
  match a.err with
  | some e => [.fail e]
  | none => (byteBits a.byte).map .bit

/-- What a bit reader has before it: the bits that it has in store, and what the answers turn into. -/
def GolombIO.events (s : GolombIO) : List BitEvent :=
  ((byteBits s.buf).drop (8 - s.left)).map .bit ++ s.answers.flatMap Answer.events

/-- At most eight bits are in store. -/
def GolombIO.Ok (s : GolombIO) : Prop := s.left ≤ 8

/-- A bit reader that has not been used. -/
def GolombIO.on (l : List Answer) : GolombIO := { answers := l }

/-- What a `Read` of one byte may do according to the documentation of `io.Reader`: anything. (It should not return 0 and nil, but may.) The
bytes of the stream are those that are counted, whether an error comes with them or not. -/
def streamOf (l : List Answer) : Bytes := (l.filter (·.got)).map (·.byte)

/-- Answers such as those of `bytes.Reader`, files and most readers: a byte, or an error and no byte. -/
def Answer.Plain (a : Answer) : Prop := a.got = a.err.isNone

/-- The error that follows when nothing but `tail` is left, which begins with it; at the end it is `io.EOF`. -/
def errorOf : List BitEvent → Option String
  | [] => some "EOF"
  | .fail e :: _ => some e
  | .bit _ :: _ => none

namespace GolombIO

/-- `s` has before it the bits that `g` has, and then `tail`. -/
structure Ahead (tail : List BitEvent) (g : Golomb) (s : GolombIO) : Prop where
  okG : g.Ok
  okS : s.Ok
  events : s.events = g.todo.map .bit ++ tail

/-- `rs` is what `rg` says, if `tail` begins with an error or is empty. -/
def Follows {w : Nat} (tail : List BitEvent) (rg : Go (BitVec w × Golomb)) (rs : Result w) : Prop :=
  (∃ v g', rg = ok (v, g') ∧ rs.1 = (v, none) ∧ Ahead tail g' rs.2) ∨
  (rg = err "EOF" ∧ rs.1.2 = errorOf tail ∧ rs.2.Ok ∧ rs.2.events = tail.tail)

end GolombIO

/-- The bits among events. -/
def bitsAmong (l : List BitEvent) : List Bool := l.filterMap fun x => match x with
  | .bit b => some b
  | .fail _ => none

end Avf
