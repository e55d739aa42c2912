import Verif.Model.DemuxerPanics
import Verif.Model.DemuxerLife
/-! # Specification: handlers that panic or close the demuxer, seen from the calls that are made when they do not -/
namespace Avf

/-- The handler panics at none of the calls `d`, `cs` being the calls before. -/
def Quiet (f : Panicky) (cs d : List Call) : Prop :=
  ∀ l c r, d = l ++ c :: r → c.isHandler = true → f.handler (cs ++ l) c = false

/-- The first of the calls `d` at which the handler panics is `c`; `l` are the calls before it. -/
def FirstPanic (f : Panicky) (cs d l : List Call) (c : Call) : Prop :=
  (∃ r, d = l ++ c :: r) ∧ Quiet f cs l ∧ c.isHandler = true ∧ f.handler (cs ++ l) c = true

/-- The handler has closed the demuxer in one of the calls: `closes` says at which ones it does, from the calls before. -/
def ClosedBy (closes : List Call → Call → Bool) (cs : List Call) : Prop :=
  ∃ l c r, cs = l ++ c :: r ∧ c.isHandler = true ∧ closes l c = true

open Classical in
/-- A handler that calls `Close` (/repo/demuxer.go:482-485) in some of its methods: the next method that is called is one of a nil
handler. -/
noncomputable def closingHandler (closes : List Call → Call → Bool) : Panicky :=
  ⟨fun cs _ => decide (ClosedBy closes cs), fun _ => false⟩

end Avf
