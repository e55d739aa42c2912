import Verif.Spec.Repackage
import Verif.Props.Packet
import Verif.Props.Codec
import Verif.Props.AnnexUnits
/-! # Lemmas for C107 -/
namespace Avf
open Go

theorem parseAVCRecord_annexB {undef : Int} {data : Bytes} {c : CodecData} (h : parseAVCRecord undef data = ok c) :
    c.annexBExtraData = (c.sps ++ c.pps).flatten := by
  unfold parseAVCRecord at h
  obtain ⟨⟨r1, r⟩, _, h⟩ := bind_eq_ok.1 h
  cases r1 with
  | error e => cases h
  | ok _ =>
    obtain ⟨s, _, h⟩ := bind_eq_ok.1 h
    obtain ⟨i, _, h⟩ := bind_eq_ok.1 h
    cases h
    show mix [r.spsList, r.ppsList] = (r.spsList ++ r.ppsList).flatten
    rw [mix_eq]; simp

theorem parseHEVCRecord_record {grow : Nat → Nat} {data : Bytes} {c : CodecData} (h : parseHEVCRecord grow data = ok c) :
    ∃ r, c.record = .hevc r ∧ hevcUnmarshal grow {} data = ok (.ok (), r) := by
  unfold parseHEVCRecord at h
  obtain ⟨⟨r1, r⟩, hu, h⟩ := bind_eq_ok.1 h
  cases r1 with
  | error e => cases h
  | ok _ =>
    obtain ⟨s, _, h⟩ := bind_eq_ok.1 h
    obtain ⟨i, _, h⟩ := bind_eq_ok.1 h
    cases h
    exact ⟨r, rfl, hu⟩

theorem noUnit_nil (k : Nat) : NoUnit k [] := by
  intro u rest hu _ he
  have := congrArg List.length he
  simp [avccUnit] at this
  exact hu (List.length_eq_zero_iff.1 (by omega))

theorem map_firstLong (us : List Bytes) : (firstLong us).map (·.2) = us := by
  cases us with
  | nil => rfl
  | cons u us => simp [firstLong]

theorem annexB_append (xs ys : List (Bool × Bytes)) : annexB (xs ++ ys) = annexB xs ++ annexB ys := by
  simp [annexB]

theorem annexB_long (us : List Bytes) : annexB (us.map (true, ·)) = us.flatMap (([0, 0, 0, 1] : Bytes) ++ ·) := by
  induction us with
  | nil => rfl
  | cons u us ih => simp [annexB, annexUnit, code] at ih ⊢; exact ih

theorem short_le (xs : List (Bool × Bytes)) : (xs.filter fun x => !x.1).length ≤ xs.length := List.length_filter_le _ _

end Avf
