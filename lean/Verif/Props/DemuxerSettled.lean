import Verif.Spec.DemuxerSettled
import Verif.Lemmas.DemuxerSettled
/-!
# C63, second part: the order is kept with two tracks, whichever has the first packet

`C63_input_order_firsts` needs first packets in the order of the tracks. When the caller announces tracks this need not be: sound may be
announced first and pictures come first. Here: with two tracks the order is still kept if each has a packet before probing ends; and
it is not kept without that (`C63_order_lost`).
-/
namespace Avf
open Go

/-- **C63** by lanes: if, when probing ends, each lane ends with a packet of its track and at most one track has no lane, then per track
what was taken is what was delivered and then what is still queued. -/
theorem C63_settled {name : String} {a : Bool} {h : List (Oracle × DemuxOp)} {s : Demuxer} (hr : Reached name a h s)
    (hc : s.completed = true) (hs : Settled (lanes (taken (beforeComplete s.calls))))
    (hn : s.tracks.tracks.length ≤ (lanes (taken (beforeComplete s.calls))).length + 1) (i : Nat)
    (hd : (ofTrack i (taken s.calls)).Pairwise fun a b => a.dts < b.dts) :
    (ofTrack i (delivered s.calls) ++ s.packets.getD i []).map bare = (ofTrack i (taken s.calls)).map bare := by
  obtain ⟨after, early, h1, h2, h3, h4, h5⟩ := C62_exact hr hc
  have hk : ∀ p ∈ taken s.calls, 0 ≤ p.index ∧ p.index < s.tracks.tracks.length := fun p hp =>
    (Demuxer.Reached.inv hr).range (Demuxer.Reached.takenKnown hr p hp)
  have hk1 : ∀ p ∈ taken (beforeComplete s.calls), 0 ≤ p.index := fun p hp => (hk p (by rw [h1]; exact List.mem_append_left _ hp)).1
  have hk2 : ∀ p ∈ after, 0 ≤ p.index ∧ p.index < s.tracks.tracks.length := fun p hp => hk p (by rw [h1]; exact List.mem_append_right _ hp)
  have hlate := settled_late i after _ hs hn hk2
  obtain ⟨xs, hx, hperm⟩ := settled_early hk1 hs i
  have hfold : after.foldl putLane (lanes (taken (beforeComplete s.calls))) = lanes (taken s.calls) := by
    rw [h1]; unfold lanes; rw [List.foldl_append]
  have hheld : s.packets.getD i [] = heldIn (lanes (taken s.calls)) i := by
    rw [h5]
    unfold heldIn laneLast
    rw [List.getD_eq_getElem?_getD, List.getD_eq_getElem?_getD, List.getElem?_map]
    cases (lanes (taken s.calls))[i]? <;> rfl
  have hearly : (ofTrack i early).map bare = xs.map bare := by
    refine eq_of_dts ?_ ?_ ?_
    · have := ((ofTrack_perm (i := i) h4).map bare)
      refine this.trans ?_
      rw [ofTrack_map_bare, List.map_flatMap]
      simp only [timed_map_bare']
      rw [← List.map_flatMap, ← ofTrack_map_bare]
      exact hperm.map _
    · exact List.pairwise_map.2 (h3.sublist List.filter_sublist)
    · refine List.pairwise_map.2 ?_
      rw [h1, ofTrack_append, hx, List.append_assoc] at hd
      exact (List.pairwise_append.1 hd).1
  rw [hfold] at hlate
  rw [h2, ofTrack_append, List.append_assoc, List.map_append, hheld, hlate, hearly, h1, ofTrack_append, hx]
  simp only [List.map_append, List.append_assoc]

/-- **C63**: with DTS that increase in the track, what was taken of a track in an orderly history is what was delivered of it, in this
order, and what is still queued, which is the most recent packet or nothing; nothing only if there was at most one packet, or none
if first packets are in order. -/
theorem C63_orderly {name : String} {a : Bool} {h : List (Oracle × DemuxOp)} {s : Demuxer} (hr : Reached name a h s)
    (hc : s.completed = true) (ho : Orderly s) (i : Nat) (hd : (ofTrack i (taken s.calls)).Pairwise fun a b => a.dts < b.dts) :
    (ofTrack i (delivered s.calls) ++ s.packets.getD i []).map bare = (ofTrack i (taken s.calls)).map bare ∧
    (s.packets.getD i []).length ≤ 1 ∧
    (s.packets.getD i [] = [] → (ofTrack i (taken s.calls)).length ≤ 1 ∧ (FirstsInOrder (taken s.calls) → ofTrack i (taken s.calls) = [])) := by
  have hlen : (s.packets.getD i []).length ≤ 1 := by
    rw [List.getD_eq_getElem?_getD]
    cases hq : s.packets[i]? with
    | none => simp
    | some q => exact C62_held_back hr hc q (List.mem_of_getElem? hq)
  obtain ⟨after, early, h1, h2, h3, h4, h5⟩ := C62_exact hr hc
  have hheld : s.packets.getD i [] = laneLast ((lanes (taken s.calls)).getD i []) := by
    rw [h5]
    unfold laneLast
    rw [List.getD_eq_getElem?_getD, List.getD_eq_getElem?_getD, List.getElem?_map]
    cases (lanes (taken s.calls))[i]? <;> rfl
  have hfirst : FirstsInOrder (taken s.calls) → s.packets.getD i [] = laneLast (ofTrack i (taken s.calls)) := fun hf => by
    rw [hheld, (C62_lanes_are_tracks hr).2 hf i]
  have hempty : FirstsInOrder (taken s.calls) → s.packets.getD i [] = [] → ofTrack i (taken s.calls) = [] := by
    intro hf he
    rw [hfirst hf] at he
    obtain h0 | ⟨l, x, h0⟩ := List.eq_nil_or_concat (ofTrack i (taken s.calls))
    · exact h0
    · rw [h0, List.concat_eq_append, laneLast_concat] at he; cases he
  by_cases hf : FirstsInOrder (taken s.calls)
  · refine ⟨?_, hlen, fun he => ?_⟩
    · rw [C63_input_order_firsts hr hf hc i hd, hfirst hf, List.map_append, timed_map_bare', ← List.map_append, dropLast_laneLast]
    · rw [hempty hf he]; simp
  · obtain ⟨hn, hseen⟩ := ho.resolve_left hf
    have hk : ∀ p ∈ taken s.calls, 0 ≤ p.index ∧ p.index < s.tracks.tracks.length := fun p hp =>
      (Demuxer.Reached.inv hr).range (Demuxer.Reached.takenKnown hr p hp)
    have hk2 : ∀ p ∈ taken s.calls, p.index = 0 ∨ p.index = 1 := fun p hp => by have := hk p hp; omega
    have hk1 : ∀ p ∈ taken (beforeComplete s.calls), p.index = 0 ∨ p.index = 1 := fun p hp =>
      hk2 p (by rw [h1]; exact List.mem_append_left _ hp)
    obtain ⟨g1, g2, g3, g4⟩ := two_settled _ hk1
    have hne : 0 < s.tracks.tracks.length → taken (beforeComplete s.calls) ≠ [] := fun h0 => by
      obtain ⟨p, hp, _⟩ := hseen 0 h0
      exact List.ne_nil_of_mem hp
    refine ⟨C63_settled hr hc ?_ ?_ i hd, hlen, fun he => ⟨?_, fun h => absurd h hf⟩⟩
    · intro j hj
      have hpos : 0 < s.tracks.tracks.length := by
        rcases Nat.eq_zero_or_pos s.tracks.tracks.length with h0 | h0
        · have : taken (beforeComplete s.calls) = [] := by
            cases e : taken (beforeComplete s.calls) with
            | nil => rfl
            | cons p r =>
              have := hk p (by rw [h1, e]; simp)
              omega
          rw [this] at hj; cases hj
        · exact h0
      obtain rfl | rfl : j = 0 ∨ j = 1 := by omega
      · exact g3 (hseen 0 hpos)
      · exact g4 hj
    · by_cases h0 : 0 < s.tracks.tracks.length
      · have := g2 (hne h0); omega
      · omega
    · rw [hheld] at he
      have he : (lanes (taken s.calls)).getD i [] = [] := by
        obtain h0 | ⟨l, x, h0⟩ := List.eq_nil_or_concat ((lanes (taken s.calls)).getD i [])
        · exact h0
        · rw [h0, List.concat_eq_append, laneLast_concat] at he; cases he
      have hge : ¬ i < (lanes (taken s.calls)).length := by
        intro hlt
        rw [List.getD_eq_getElem?_getD, List.getElem?_eq_getElem hlt] at he
        exact lanes_nonempty _ (taken_nonneg hr) _ (List.getElem_mem hlt) he
      have hall := two_settled _ hk2
      match i, hge with
      | 0, hge =>
        have : taken s.calls = [] := by
          by_contra hne
          have := hall.2.1 hne
          omega
        rw [this]; simp [ofTrack]
      | 1, hge => exact two_single _ hk2 (by omega)
      | i + 2, _ =>
        have : ofTrack (i + 2) (taken s.calls) = [] := by
          unfold ofTrack
          rw [List.filter_eq_nil_iff]
          intro p hp
          have := hk2 p hp
          simp only [decide_eq_true_eq]
          omega
        rw [this]; simp

/-! ## Concrete cases -/

/-- Two tracks are announced, packets of the second come first; each has a packet before probing ends. -/
def pairRun : List (Oracle × DemuxOp) :=
  [(exOracle, .newAudioTrack 0 codecG726 1000 none {}), (exOracle, .newAudioTrack 1 codecPCMS16LE 1000 none {}),
   (exOracle, .audioPacket 1 codecPCMS16LE [1] 0), (exOracle, .audioPacket 1 codecPCMS16LE [2] 20), (exOracle, .audioPacket 0 codecG726 [3] 0),
   (exOracle, .audioPacket 0 codecG726 [4] 40), (exOracle, .probeComplete), (exOracle, .audioPacket 1 codecPCMS16LE [5] 40),
   (exOracle, .audioPacket 0 codecG726 [6] 80)]

/-- All hypotheses of `C63_orderly` hold, and the first packets are not in the order of the tracks. -/
example : ∃ s, Reached "ts" true pairRun s ∧ s.completed = true ∧ Orderly s ∧ ¬ FirstsInOrder (taken s.calls) ∧
    (∀ i, (ofTrack i (taken s.calls)).Pairwise fun a b => a.dts < b.dts) ∧
    (ofTrack 0 (delivered s.calls)).map (·.data) = [[3], [4]] ∧ (ofTrack 1 (delivered s.calls)).map (·.data) = [[1], [2]] ∧
    s.packets.map (fun q => q.map (·.data)) = [[[6]], [[5]]] := by
  have h : (runDemux (Demuxer.new "ts" true) pairRun >>= fun s => ok (decide (s.completed = true ∧ s.tracks.tracks.length = 2 ∧
      (taken (beforeComplete s.calls)).map (·.index) = [1, 1, 0, 0] ∧ (taken s.calls).map (fun p => (p.index, p.dts)) = [(1, 0), (1, 20), (0, 0), (0, 40), (1, 40), (0, 80)] ∧
      (ofTrack 0 (delivered s.calls)).map (·.data) = [[3], [4]] ∧ (ofTrack 1 (delivered s.calls)).map (·.data) = [[1], [2]] ∧
      s.packets.map (fun q => q.map (·.data)) = [[[6]], [[5]]]))) = ok true := by decide +kernel
  obtain ⟨s, h1, h2⟩ := bind_eq_ok.1 h
  simp only [Go.ok.injEq, decide_eq_true_eq] at h2
  obtain ⟨hc, hl, hb, ht, hr⟩ := h2
  refine ⟨s, ⟨fun x hx => ?_, h1⟩, hc, Or.inr ⟨by omega, fun i hi => ?_⟩, fun hf => ?_, fun i => ?_, hr⟩
  · have : x.1 = exOracle := by revert x; simp [pairRun]
    rw [this]; exact exOracle_valid
  · have : (i : Int) ∈ (taken (beforeComplete s.calls)).map (·.index) := by
      rw [hb]
      obtain rfl | rfl : i = 0 ∨ i = 1 := by omega
      · decide
      · decide
    obtain ⟨p, hp, e⟩ := List.mem_map.1 this
    exact ⟨p, hp, e⟩
  · cases hps : taken s.calls with
    | nil => rw [hps] at ht; cases ht
    | cons p r =>
      rw [hps] at ht hf
      have hp : p.index = 1 := (Prod.mk.inj (List.cons.inj ht).1).1
      obtain ⟨q, hq, _⟩ := hf [] p r rfl 0 (by omega)
      cases hq
  · have key : ∀ l : List AVPacket, ((l.map fun p => (p.index, p.dts)).filter fun x => x.1 = (i : Int)).Pairwise (fun a b => a.2 < b.2) →
        (ofTrack i l).Pairwise fun a b => a.dts < b.dts := by
      intro l hl
      rw [List.filter_map, List.pairwise_map] at hl
      exact hl
    refine key _ ?_
    rw [ht]
    match i with
    | 0 => decide
    | 1 => decide
    | i + 2 =>
      have : ([(1, 0), (1, 20), (0, 0), (0, 40), (1, 40), (0, 80)] : List (Int × Int)).filter (fun x => x.1 = ((i + 2 : Nat) : Int)) = [] := by
        rw [List.filter_eq_nil_iff]
        intro x hx
        simp only [List.mem_cons, List.not_mem_nil, or_false] at hx
        simp only [decide_eq_true_eq]
        rcases hx with rfl | rfl | rfl | rfl | rfl | rfl <;> dsimp only <;> omega
      rw [this]; exact .nil

/-- **C63**: when the first track has no packet before probing ends, the packets of the second come in another order: the one with DTS 20
before the one with DTS 0. -/
theorem C63_order_lost : (runDemux (Demuxer.new "ts" true) (pairRun.eraseIdx 4 |>.eraseIdx 4) >>= fun s => ok (s.completed,
      (ofTrack 1 (taken s.calls)).map (·.dts), (ofTrack 1 (delivered s.calls)).map (·.dts))) = ok (true, [0, 20, 40], [20, 0]) := by
  decide +kernel

end Avf
