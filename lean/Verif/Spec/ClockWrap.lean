import Verif.Spec.ProbeTime
/-!
# Time stamps of a clock that starts again

Time stamps of MPEG streams have 33 bits, those of RTMP and FLV have 32: a stamp is the time modulo `m`.
-/
namespace Avf

/-- The times between neighbours. -/
def gaps : List Int → List Int
  | a :: b :: l => (b - a) :: gaps (b :: l)
  | _ => []

/-- How often the clock has started again between neighbours. -/
def restarts (m : Int) : List Int → List Int
  | a :: b :: l => (b / m - a / m) :: restarts m (b :: l)
  | _ => []

/-- How often the clock has started again from the first of these times to the last. -/
def restartsOver (m : Int) : List Int → Int
  | [] => 0
  | t :: ts => (t :: ts).getLast (by simp) / m - t / m

/-- How many of these times are earlier than the one before. -/
def decreases : List Int → Nat
  | a :: b :: l => (if b < a then 1 else 0) + decreases (b :: l)
  | _ => 0

end Avf
