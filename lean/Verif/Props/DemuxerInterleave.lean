import Verif.Lemmas.DemuxerInterleave
import Verif.Props.DemuxerQueue
/-!
# C111: how far the packets of different tracks are out of order (`demuxer.go`)

A packet is delivered when the next one of its track comes. Then its end is known, not only its beginning: packets reach the handler in the
order of their ends.
-/
namespace Avf
open Go

/-- **C111** if packets come in the order of their times: what was buffered while probing is delivered in the order in which packets begin;
everything after that in the order in which packets end, and later than all that was buffered. -/
theorem C111_ends {name : String} {a : Bool} {h : List (Oracle × DemuxOp)} {s : Demuxer} (hr : Reached name a h s) (hc : s.completed = true)
    (ht : InTime (taken s.calls)) :
    ∃ early late, delivered s.calls = early ++ late ∧ (early.Pairwise fun p q => p.dts ≤ q.dts) ∧
      (late.Pairwise fun p q => p.finish ≤ q.finish) ∧ (∀ p ∈ early, ∀ q ∈ late, p.finish ≤ q.finish) ∧
      (early.map bare).Perm (((lanes (taken (beforeComplete s.calls))).flatMap timed).map bare) ∧
      ∀ p ∈ early ++ late, 0 ≤ p.duration := by
  obtain ⟨after, early, h1, h2, h3, h4, _⟩ := C62_exact hr hc
  rw [h1] at ht
  obtain ⟨l1, l2⟩ := late_finish after _ ht
  have hb : InTime (taken (beforeComplete s.calls)) :=
    ⟨(List.pairwise_append.1 ht.order).1, fun p hp => ht.range p (List.mem_append_left _ hp)⟩
  have he : ∀ p ∈ early, ∃ z ∈ taken (beforeComplete s.calls), p.finish = z.dts ∧ 0 ≤ p.duration := by
    intro p hp
    obtain ⟨l, hl, hpl⟩ := List.mem_flatMap.1 (h4.mem_iff.1 hp)
    have hs := lanes_sublist _ l hl
    obtain ⟨_, _, z, hz, _, e1, e2⟩ := timed_finish l ⟨hb.order.sublist hs, fun x hx => hb.range x (hs.subset hx)⟩ p hpl
    exact ⟨z, hs.subset hz, e1, e2⟩
  refine ⟨early, _, h2, h3, ?_, ?_, h4.map _, ?_⟩
  · have : (after.map AVPacket.dts).Pairwise (· ≤ ·) := List.pairwise_map.2 (List.pairwise_append.1 ht.order).2.1
    exact List.pairwise_map.1 (this.sublist l1)
  · intro p hp q hq
    obtain ⟨z, hz, e, _⟩ := he p hp
    obtain ⟨w, hw, e'⟩ := List.mem_map.1 (l1.subset (List.mem_map_of_mem hq))
    rw [e, ← e']
    exact (List.pairwise_append.1 ht.order).2.2 z hz w hw
  · intro p hp
    rcases List.mem_append.1 hp with hp | hp
    · obtain ⟨_, _, _, h⟩ := he p hp; exact h
    · exact (l2 p hp).1

/-- **C111**: no packet is delivered after one that begins later than it ends. -/
theorem C111_disorder {name : String} {a : Bool} {h : List (Oracle × DemuxOp)} {s : Demuxer} (hr : Reached name a h s)
    (ht : InTime (taken s.calls)) : (delivered s.calls).Pairwise fun p q => p.dts ≤ q.finish := by
  cases hc : s.completed with
  | false => rw [(C62_exact_probing hr hc).1]; exact .nil
  | true =>
    obtain ⟨early, late, h1, h2, h3, h4, _, h5⟩ := C111_ends hr hc ht
    have hf : ∀ p ∈ early ++ late, p.dts ≤ p.finish := fun p hp => by have := h5 p hp; unfold AVPacket.finish; omega
    rw [h1]
    refine List.pairwise_append.2 ⟨?_, ?_, ?_⟩
    · exact (List.Pairwise.and_mem.1 h2).imp fun {p q} ⟨_, hq, e⟩ => le_trans e (hf q (List.mem_append_left _ hq))
    · exact (List.Pairwise.and_mem.1 h3).imp fun {p q} ⟨hp, _, e⟩ => le_trans (hf p (List.mem_append_right _ hp)) e
    · exact fun p hp q hq => le_trans (hf p (List.mem_append_left _ hp)) (h4 p hp q hq)

/-- **C111**: if no packet lasts longer than `D`, a packet is delivered at most `D` late. -/
theorem C111_jitter {name : String} {a : Bool} {h : List (Oracle × DemuxOp)} {s : Demuxer} {D : Int} (hr : Reached name a h s)
    (ht : InTime (taken s.calls)) (hD : ∀ p ∈ delivered s.calls, p.duration ≤ D) :
    (delivered s.calls).Pairwise fun p q => p.dts ≤ q.dts + D :=
  (List.Pairwise.and_mem.1 (C111_disorder hr ht)).imp fun {p q} ⟨_, hq, e⟩ => by have := hD q hq; unfold AVPacket.finish at e; omega

theorem timed_dts : ∀ l : List AVPacket, (timed l).map AVPacket.dts = (l.map AVPacket.dts).dropLast
  | [] => rfl
  | [_] => rfl
  | p :: q :: l => by
    have := timed_dts (q :: l)
    simp only [timed, List.map_cons, List.dropLast_cons₂] at this ⊢
    rw [this]

/-- **C111**: the packets of one track are never out of order. -/
theorem C111_track {name : String} {a : Bool} {h : List (Oracle × DemuxOp)} {s : Demuxer} (hr : Reached name a h s)
    (hp : ∀ x ∈ h, x.2.PacketOnly) (i : Nat) (ho : (ofTrack i (taken s.calls)).Pairwise fun p q => p.dts ≤ q.dts) :
    (ofTrack i (delivered s.calls)).Pairwise fun p q => p.dts ≤ q.dts := by
  cases hc : s.completed with
  | false => rw [(C62_exact_probing hr hc).1]; exact .nil
  | true =>
    obtain ⟨early, late, h1, h2, h3, h4⟩ := C62_in_order_partial hr (C62_packet_input hr hp) hc
    have hall : (timed (ofTrack i (taken s.calls))).Pairwise fun p q => p.dts ≤ q.dts := by
      have h5 : ((ofTrack i (taken s.calls)).map AVPacket.dts).Pairwise (· ≤ ·) := List.pairwise_map.2 ho
      have h6 := h5.sublist (List.dropLast_sublist _)
      rw [← timed_dts] at h6
      exact List.pairwise_map.1 h6
    rw [h4 i] at hall
    obtain ⟨_, g2, g3⟩ := List.pairwise_append.1 hall
    rw [h1, ofTrack_append]
    refine List.pairwise_append.2 ⟨?_, g2, fun p hp q hq => g3 p ((h3 i).mem_iff.1 hp) q hq⟩
    exact (h2.sublist List.filter_sublist).imp Int.not_lt.1

/-! ## Beginnings -/

/-- **C111** in full: packets that come in the order of their times are delivered in this order. -/
def C111_claim : Prop :=
  ∀ name a h s, Reached name a h s → (∀ x ∈ h, x.2.PacketOnly) → InTime (taken s.calls) →
    (delivered s.calls).Pairwise fun p q => p.dts ≤ q.dts

/-- Two tracks; the first has packets 200 ms and 100 ms apart, the second one at 0 ms and one at 400 ms. -/
def sparseRun : List (Oracle × DemuxOp) :=
  [(exOracle, .audioPacket 0 codecPCMS16LE [1] 0), (exOracle, .audioPacket 1 codecPCMS16LE [2] 0),
   (exOracle, .audioPacket 0 codecPCMS16LE [3] 18000), (exOracle, .audioPacket 0 codecPCMS16LE [4] 27000),
   (exOracle, .audioPacket 1 codecPCMS16LE [5] 36000), (exOracle, .audioPacket 0 codecPCMS16LE [6] 36000)]

theorem sparseRun_times : (runDemux (Demuxer.new "ts" true) sparseRun >>= fun s =>
      ok ((taken s.calls).map AVPacket.dts, (delivered s.calls).map fun p => (p.index, p.dts, p.finish))) =
    ok ([0, 0, 18000, 27000, 36000, 36000], [(0, 0, 18000), (0, 18000, 27000), (1, 0, 36000), (0, 27000, 36000)]) := by decide +kernel

theorem sparseRun_reached : ∃ s, Reached "ts" true sparseRun s ∧ InTime (taken s.calls) ∧
    (delivered s.calls).map (fun p => (p.index, p.dts, p.finish)) = [(0, 0, 18000), (0, 18000, 27000), (1, 0, 36000), (0, 27000, 36000)] := by
  obtain ⟨s, h1, h2⟩ := bind_eq_ok.1 sparseRun_times
  simp only [Go.ok.injEq, Prod.mk.injEq] at h2
  refine ⟨s, ⟨fun x hx => ?_, h1⟩, ⟨?_, ?_⟩, h2.2⟩
  · simp only [sparseRun, List.mem_cons, List.not_mem_nil, or_false] at hx
    rcases hx with rfl | rfl | rfl | rfl | rfl | rfl <;> exact exOracle_valid
  · have : ((taken s.calls).map AVPacket.dts).Pairwise (· ≤ ·) := by rw [h2.1]; decide
    exact List.pairwise_map.1 this
  · intro p hp
    have : p.dts ∈ (taken s.calls).map AVPacket.dts := List.mem_map_of_mem hp
    rw [h2.1] at this
    have hall : ∀ x ∈ ([0, 0, 18000, 27000, 36000, 36000] : List Int), -2 ^ 62 ≤ x ∧ x < 2 ^ 62 := by decide
    exact hall _ this

/-- **C111** is false: the packet of a sparse track waits for the next one, while the others pass it. -/
theorem C111_claim_violated : ¬ C111_claim := by
  intro hcl
  obtain ⟨s, h1, h2, h3⟩ := sparseRun_reached
  have := hcl "ts" true sparseRun s h1 (by
    intro x hx
    simp only [sparseRun, List.mem_cons, List.not_mem_nil, or_false] at hx
    rcases hx with rfl | rfl | rfl | rfl | rfl | rfl <;> trivial) h2
  have h4 : ((delivered s.calls).map (fun p => (p.index, p.dts, p.finish))).Pairwise fun x y => x.2.1 ≤ y.2.1 := List.pairwise_map.2 this
  rw [h3] at h4
  revert h4
  decide

/-- The run meets the conditions of `C111_ends`: the ends are in order, the beginnings are not. -/
example : ∃ s, Reached "ts" true sparseRun s ∧ InTime (taken s.calls) ∧ (delivered s.calls).length = 4 := by
  obtain ⟨s, h1, h2, h3⟩ := sparseRun_reached
  refine ⟨s, h1, h2, ?_⟩
  have := congrArg List.length h3
  simpa using this

end Avf
