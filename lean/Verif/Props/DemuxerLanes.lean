import Verif.Lemmas.DemuxerLanes
import Verif.Props.DemuxerProbe
/-!
# C62, C65, C74: what the demuxer does for every history

The claims speak of tracks and hold when first packets come in index order. Here is what happens for all histories: the same with
lanes (`Spec/DemuxerLanes.lean`) in place of tracks; and lanes are tracks exactly if first packets come in index order.
-/
namespace Avf
open Go

/-- **C62**, while probing, for every history: nothing is delivered, and the queues are the lanes, each packet with its duration. -/
theorem C62_exact_probing {name : String} {a : Bool} {h : List (Oracle × DemuxOp)} {s : Demuxer} (hr : Reached name a h s)
    (hc : s.completed = false) :
    delivered s.calls = [] ∧ s.packets = (lanes (taken s.calls)).map fun l => timed l ++ l.getLast?.toList :=
  (Demuxer.Reached.lanes hr).probing hc

/-- **C62**, after probing, for every history: delivered are first all packets of all lanes but the last of each, in order of DTS, and
then, with each packet that is taken, the one before it in its lane. The last packet of each lane is held back. -/
theorem C62_exact {name : String} {a : Bool} {h : List (Oracle × DemuxOp)} {s : Demuxer} (hr : Reached name a h s)
    (hc : s.completed = true) :
    ∃ after early, taken s.calls = taken (beforeComplete s.calls) ++ after ∧
      delivered s.calls = early ++ lateOf (lanes (taken (beforeComplete s.calls))) after ∧
      (early.Pairwise fun a b => a.dts ≤ b.dts) ∧ early.Perm ((lanes (taken (beforeComplete s.calls))).flatMap timed) ∧
      s.packets = (lanes (taken s.calls)).map fun l => l.getLast?.toList := by
  obtain ⟨after, early, h1, h2, h3, h4, h5⟩ := (Demuxer.Reached.lanes hr).done hc
  exact ⟨after, early, h1, h2, h3.imp (by intro a b; exact Int.not_lt.1), h4, h5⟩

/-- The packets that were taken have indices that are not negative. -/
theorem taken_nonneg {name : String} {a : Bool} {h : List (Oracle × DemuxOp)} {s : Demuxer} (hr : Reached name a h s) :
    ∀ p ∈ taken s.calls, 0 ≤ p.index := fun p hp => ((Demuxer.Reached.inv hr).range (Demuxer.Reached.takenKnown hr p hp)).1

/-- **C62**: lanes are tracks if and only if the first packets of the tracks come in index order. -/
theorem C62_lanes_are_tracks {name : String} {a : Bool} {h : List (Oracle × DemuxOp)} {s : Demuxer} (hr : Reached name a h s) :
    (∀ i, (lanes (taken s.calls)).getD i [] = ofTrack i (taken s.calls)) ↔ FirstsInOrder (taken s.calls) :=
  ⟨firsts_lanes (taken_nonneg hr), fun hf => (lanes_firsts (taken_nonneg hr) hf).1⟩

/-- **C65** for every history: a packet that is taken ends probing if and only if the packets of its lane, all but itself, last
`ProbeDuration` ms and at least 200 ms. A packet that is refused does not end it. -/
theorem C65_exact {name : String} {a : Bool} {h : List (Oracle × DemuxOp)} {s s' : Demuxer} (hr : Reached name a h s)
    (hc : s.completed = false) {o : Oracle} (ho : o.Valid) {e : DemuxOp} (he : e.IsPacket) (h1 : e.run o s = ok s') :
    (taken s'.calls = taken s.calls ∧ s'.completed = false) ∨
    ∃ p, taken s'.calls = taken s.calls ++ [p] ∧
      (s'.completed = true ↔
        max s.probeDuration 200 ≤ bufferedMs o.undef (timed (laneBefore (lanes (taken s.calls)) p ++ [p]))) := by
  rcases packet_ends hr hc ho he h1 with ⟨b, e1, e2⟩ | ⟨p, s1, e1, e2, e3, h0, hc1, hiff⟩
  · exact Or.inl ⟨by rw [e1, Demuxer.taken_reject], e2⟩
  · refine Or.inr ⟨p, e1, ?_⟩
    rw [hiff, e3, (Demuxer.Reached.lanes hr).joins hc p (fun l => max s.probeDuration 200 ≤ bufferedMs o.undef l)]
    have hnil : ¬ max s.probeDuration 200 ≤ bufferedMs o.undef (timed [p]) := by
      have : bufferedMs o.undef (timed [p]) = 0 := by simp [timed, bufferedMs, wrap64]
      rw [this]; omega
    have hne := lanes_nonempty _ (taken_nonneg hr)
    unfold laneBefore Demuxer.slot
    generalize lanes (taken s.calls) = ls at hne ⊢
    split
    · rename_i hlt
      have hlt' : p.index.toNat < ls.length := by omega
      rw [List.getElem?_eq_getElem hlt', List.getD_eq_getElem?_getD, List.getElem?_eq_getElem hlt', Option.getD_some]
      constructor
      · rintro ⟨x, l, e, hh⟩; rw [Option.some.inj e]; exact hh
      · intro hh
        obtain h0 | ⟨l, x, e⟩ := List.eq_nil_or_concat ls[p.index.toNat]
        · exact absurd h0 (hne _ (List.getElem_mem hlt'))
        · rw [List.concat_eq_append] at e
          exact ⟨x, l, by rw [e], by rw [← e]; exact hh⟩
    · rw [List.getElem?_eq_none (Nat.le_refl _)]
      constructor
      · rintro ⟨x, l, e, _⟩; cases e
      · intro hh; exact absurd hh hnil

/-- **C74** for every history: while probing, `TryCompleteProbe` does nothing if the lane with the number of a track whose rate is to be
measured has exactly one packet, and ends probing otherwise. -/
theorem C74_exact {name : String} {a : Bool} {h : List (Oracle × DemuxOp)} {s : Demuxer} (hr : Reached name a h s)
    (hc : s.completed = false) {o : Oracle} (ho : o.Valid) :
    ∃ s', s.tryCompleteProbe o = ok s' ∧
      if ∃ t ∈ s.tracks.tracks, Measured t.codecID ∧ ((lanes (taken s.calls)).getD t.index.toNat []).length = 1 then s' = s
      else s'.completed = true := by
  have hi := Demuxer.Reached.inv hr
  have hq := ((Demuxer.Reached.lanes hr).probing hc).2
  have hne := lanes_nonempty _ (taken_nonneg hr)
  have hn : (s.tracks.tracks.any fun t => (t.codecID = codecPCMS16LE ∨ t.codecID = codecG726) ∧
      s.packets.zipIdx.any fun (q, i) => (i : Int) = t.index ∧ q.length < 2) = true ↔
      ∃ t ∈ s.tracks.tracks, Measured t.codecID ∧ ((lanes (taken s.calls)).getD t.index.toNat []).length = 1 := by
    rw [List.any_eq_true]
    refine exists_congr fun t => and_congr_right fun ht => ?_
    obtain ⟨i, hlt, rfl⟩ := List.mem_iff_getElem.1 ht
    have hidx := hi.index i _ (List.getElem?_eq_getElem hlt)
    rw [decide_eq_true_eq]
    refine and_congr_right fun _ => ?_
    rw [List.any_eq_true, hidx, hq, Int.toNat_natCast]
    generalize lanes (taken s.calls) = ls at hne ⊢
    constructor
    · rintro ⟨⟨q, k⟩, hm, hh⟩
      rw [decide_eq_true_eq] at hh
      obtain ⟨hk, hlen⟩ := hh
      obtain rfl : k = i := by omega
      rw [List.mem_zipIdx_iff_getElem?] at hm
      dsimp only at hm
      rw [List.getElem?_map, Option.map_eq_some_iff] at hm
      obtain ⟨l, hl, rfl⟩ := hm
      rw [queueOf_length] at hlen
      rw [List.getD_eq_getElem?_getD, hl, Option.getD_some]
      have := List.length_pos_iff.2 (hne l (List.mem_of_getElem? hl))
      omega
    · intro hh
      rw [List.getD_eq_getElem?_getD] at hh
      cases hl : ls[i]? with
      | none => rw [hl] at hh; cases hh
      | some l =>
        rw [hl, Option.getD_some] at hh
        refine ⟨(queueOf l, i), ?_, ?_⟩
        · rw [List.mem_zipIdx_iff_getElem?]
          dsimp only
          rw [List.getElem?_map, hl]; rfl
        · rw [decide_eq_true_eq, queueOf_length]
          exact ⟨rfl, by omega⟩
  unfold Demuxer.tryCompleteProbe
  dsimp only
  by_cases hm : ∃ t ∈ s.tracks.tracks, Measured t.codecID ∧ ((lanes (taken s.calls)).getD t.index.toNat []).length = 1
  · rw [if_pos (hn.2 hm)]
    exact ⟨s, rfl, by rw [if_pos hm]⟩
  · rw [if_neg (fun e => hm (hn.1 e))]
    obtain ⟨s', h1, _⟩ := Demuxer.complete_micros o ho hi
    exact ⟨s', h1, by rw [if_neg hm]; exact Demuxer.complete_completed ho hi h1⟩

/-! ## Examples: `mixedRun`, where track 1 has packets before track 0 -/

/-- The lanes are not the tracks: the packets of track 1 open a lane each. -/
example : (runDemux (Demuxer.new "ts" true) mixedRun >>= fun s => ok (s.completed, (taken s.calls).map (·.index),
      (lanes (taken s.calls)).map fun l => l.map fun p => (p.index, p.dts))) =
    ok (false, [1, 1], [[(1, 0)], [(1, 1000)]]) := by decide +kernel

/-- A packet of track 0 comes behind one of track 1 in lane 0, and that ends probing; the next packet of track 1 has one before it. -/
example : (runDemux (Demuxer.new "ts" true) (mixedRun ++ [(exOracle, .audioPacket 0 codecPCMS16LE [3] 500), (exOracle, .audioPacket 1 codecG726 [4] 1300)]) >>=
      fun s => ok ((taken (beforeComplete s.calls)).map (·.index), (delivered s.calls).map (fun p => [p.index, p.dts, p.duration]),
        s.packets.map fun q => q.map (·.dts))) =
    ok ([1, 1, 0], [[1, 0, 500], [1, 1000, 300]], [[500], [1300]]) := by decide +kernel

/-- `C74_exact`, both outcomes: lane 1 has the number of the G726 track and one packet; with no packet there is no lane. -/
example : (runDemux (Demuxer.new "ts" true) mixedRun >>= fun s => s.tryCompleteProbe exOracle >>= fun s' => ok (s.completed, s'.completed,
      (lanes (taken s.calls)).map List.length)) = ok (false, false, [1, 1]) ∧
    (runDemux (Demuxer.new "ts" true) (mixedRun.take 2) >>= fun s => s.tryCompleteProbe exOracle >>= fun s' => ok (s.completed, s'.completed,
      (lanes (taken s.calls)).map List.length)) = ok (false, true, []) := by decide +kernel

end Avf
