import Verif.Lemmas.DemuxerQueue
import Verif.Spec.DemuxerProbe
/-! # Lemmas: ending probing early -/
namespace Avf
open Go
namespace Demuxer

/-- With packet input every track has a packet. -/
theorem runDemux_all {s s' : Demuxer} (hi : Inv s) {l : List (Oracle × DemuxOp)} (hv : ∀ x ∈ l, x.1.Valid)
    (hp : ∀ x ∈ l, x.2.PacketOnly) (hr : runDemux s l = ok s')
    (hall : ∀ i < s.bufferOf.length, ∃ p ∈ taken s.calls, p.index = (i : Int)) :
    ∀ i < s'.bufferOf.length, ∃ p ∈ taken s'.calls, p.index = (i : Int) := by
  induction l generalizing s with
  | nil => cases hr; exact hall
  | cons x l ih =>
    obtain ⟨o, e⟩ := x
    obtain ⟨s1, h1, hr⟩ := bind_eq_ok.1 hr
    have ho := hv _ (List.mem_cons_self ..)
    have hpe := hp _ (List.mem_cons_self ..)
    have hlen : s.bufferOf.length = s.tracks.tracks.length := by
      have := congrArg List.length hi.keys; simpa using this
    refine ih (hi.micros (run_micros ho hi h1)) (fun y hy => hv y (List.mem_cons_of_mem _ hy)) (fun y hy => hp y (List.mem_cons_of_mem _ hy)) hr ?_
    cases run_shape ho hi h1 with
    | plain cs h hpl hb hk => rw [h, taken_append, hpl.taken, List.append_nil, hb]; exact hall
    | track b h hn hb => exact absurd hpe hn
    | reject b d hk h hb hno => rw [h, taken_reject, hb]; exact hall
    | accept p cs d hk hd h hpl hb =>
      rw [h, show s.calls ++ .accepted p :: cs = s.calls ++ [.accepted p] ++ cs by simp, taken_append, hpl.taken, List.append_nil, taken_accept]
      intro i hi'
      rcases hb with ⟨hb, _⟩ | ⟨_, hidx, hb⟩
      · rw [hb] at hi'
        obtain ⟨q, hq, e⟩ := hall i hi'
        exact ⟨q, by simp [hq], e⟩
      · rw [hb, List.length_append, List.length_singleton] at hi'
        by_cases hlt : i < s.bufferOf.length
        · obtain ⟨q, hq, e⟩ := hall i hlt
          exact ⟨q, by simp [hq], e⟩
        · exact ⟨p, by simp, by rw [hidx]; omega⟩

theorem Reached.all {name : String} {a : Bool} {l : List (Oracle × DemuxOp)} {s : Demuxer} (h : Reached name a l s)
    (hp : ∀ x ∈ l, x.2.PacketOnly) : ∀ t ∈ s.tracks.tracks, ∃ p ∈ taken s.calls, p.index = t.index := by
  have hi := Reached.inv h
  intro t ht
  obtain ⟨i, hlt, rfl⟩ := List.mem_iff_getElem.1 ht
  rw [hi.index i _ (List.getElem?_eq_getElem hlt)]
  refine runDemux_all (Inv.new name a) h.1 hp h.2 (by simp [Demuxer.new]) i ?_
  have := congrArg List.length hi.keys
  simp only [List.length_map, List.length_range] at this
  omega

theorem takenOf_eq (s : Demuxer) (t : AVStream) {i : Nat} (h : t.index = i) : takenOf s t = (ofTrack i (taken s.calls)).length := by
  unfold takenOf ofTrack
  rw [h]

/-- What `TryCompleteProbe` looks at. -/
theorem needMore_iff {s : Demuxer} (hi : Inv s) (hq : QInv s) (hc : s.completed = false) :
    (s.tracks.tracks.any fun t => (t.codecID = codecPCMS16LE ∨ t.codecID = codecG726) ∧
      s.packets.zipIdx.any fun (q, i) => (i : Int) = t.index ∧ q.length < 2) = true ↔
    ∃ t ∈ s.tracks.tracks, Measured t.codecID ∧ takenOf s t = 1 := by
  rw [List.any_eq_true]
  refine exists_congr fun t => and_congr_right fun ht => ?_
  obtain ⟨i, hlt, rfl⟩ := List.mem_iff_getElem.1 ht
  have hidx := hi.index i _ (List.getElem?_eq_getElem hlt)
  rw [decide_eq_true_eq]
  refine and_congr_right fun _ => ?_
  rw [List.any_eq_true, takenOf_eq s _ hidx]
  have hqi := (hq.probing hc).2 i
  have hl := hq.len i
  have hlen : (s.packets.getD i []).length = (ofTrack i (taken s.calls)).length := by rw [hqi, queueOf_length]
  constructor
  · rintro ⟨⟨q, j⟩, hm, hd⟩
    rw [List.mem_zipIdx_iff_getElem?] at hm
    simp only [decide_eq_true_eq] at hd
    have hji : j = i := by rw [hidx] at hd; exact_mod_cast hd.1
    subst hji
    have hq' : s.packets.getD j [] = q := by rw [List.getD_eq_getElem?_getD, hm]; rfl
    rw [hq'] at hlen
    have hj : j < s.packets.length := (List.getElem?_eq_some_iff.1 hm).1
    obtain ⟨p, hp, hpi⟩ := hl.1 hj
    have : (ofTrack j (taken s.calls)).length ≠ 0 := by
      intro h0
      exact ofTrack_nil_iff.1 (List.eq_nil_of_length_eq_zero h0) p hp hpi
    have := hd.2
    omega
  · intro h1
    have hne : ofTrack i (taken s.calls) ≠ [] := by intro e; rw [e] at h1; cases h1
    obtain ⟨p, hp⟩ := List.exists_mem_of_ne_nil _ hne
    have hlt' : i < s.packets.length := hl.2 ⟨p, mem_ofTrack.1 hp⟩
    refine ⟨(s.packets[i], i), List.mem_zipIdx_iff_getElem?.2 (List.getElem?_eq_getElem hlt'), ?_⟩
    rw [List.getD_eq_getElem?_getD, List.getElem?_eq_getElem hlt', Option.getD_some, h1] at hlen
    simp only [hidx, hlen, decide_eq_true_eq]
    exact ⟨trivial, by omega⟩

end Demuxer
end Avf
