import Verif.Props.ProbeForever
/-!
# C115: durations add up

A packet lasts until the next packet of its track. So the durations of the packets that are delivered add up to the time from the first
packet to the last one, in ticks; but not in milliseconds, because each duration is cut on its own.
-/
namespace Avf
open Go

theorem timeSpan_cons (a b : Int) (l : List Int) : timeSpan (a :: b :: l) = (b - a) + timeSpan (b :: l) := by
  show (a :: b :: l).getLast _ - a = (b - a) + ((b :: l).getLast _ - b)
  rw [List.getLast_cons (by simp)]
  omega

theorem timed_sum : ∀ l : List AVPacket, wrap64 ((timed l).map (·.duration)).sum = wrap64 (timeSpan (l.map (·.dts)))
  | [] => rfl
  | [p] => by simp [timed, timeSpan]
  | p :: q :: l => by
    have ih := timed_sum (q :: l)
    rw [timed, List.map_cons, List.sum_cons, List.map_cons, List.map_cons, timeSpan_cons]
    rw [List.map_cons] at ih
    generalize ((timed (q :: l)).map (·.duration)).sum = x at *
    generalize timeSpan (q.dts :: l.map (·.dts)) = y at *
    show wrap64 (wrap64 (q.dts - p.dts) + x) = _
    rw [Demuxer.wrap64_add, Int.add_comm, ← Demuxer.wrap64_add, ih, Demuxer.wrap64_add, Int.add_comm]

/-- **C115** for every history whose tracks begin in order: the durations of what is delivered of a track add up to the time from the first
packet of the track to the last, in the arithmetic of int64. -/
theorem C115_ticks_wrapped {name : String} {a : Bool} {h : List (Oracle × DemuxOp)} {s : Demuxer} (hr : Reached name a h s)
    (hf : FirstsInOrder (taken s.calls)) (hc : s.completed = true) (i : Nat) :
    wrap64 ((ofTrack i (delivered s.calls)).map (·.duration)).sum = wrap64 (timeSpan ((ofTrack i (taken s.calls)).map (·.dts))) := by
  rw [((C62_each_once_partial hr hf hc i).map _).sum_eq, timed_sum]

/-- The times of what is taken of a buffer are the times of the frames that were not refused. -/
theorem taken_dts {name : String} {a : Bool} {h : List (Oracle × DemuxOp)} {s : Demuxer} (hr : Reached name a h s)
    (hp : ∀ x ∈ h, x.2.PacketOnly) (hid : ∀ x ∈ h, x.1.preprocess = id) (b : Int) :
    (ofBuffer b (taken s.calls)).map (·.dts) = ((framesOf b h).drop (refusals b s.calls)).map (·.dts) := by
  have hm := (taken_frames hr hp hid b).2
  clear * - hm
  generalize (framesOf b h).drop (refusals b s.calls) = l at hm
  generalize ofBuffer b (taken s.calls) = l' at hm
  induction hm with
  | nil => rfl
  | cons hab _ ih => rw [List.map_cons, List.map_cons, ih, hab.dts]

theorem timed_sum_small : ∀ l : List AVPacket, (∀ q ∈ l, -2 ^ 62 ≤ q.dts ∧ q.dts < 2 ^ 62) →
    ((timed l).map (·.duration)).sum = timeSpan (l.map (·.dts))
  | [], _ => rfl
  | [p], _ => by simp [timed, timeSpan]
  | p :: q :: l, h => by
    have ih := timed_sum_small (q :: l) fun x hx => h x (List.mem_cons_of_mem _ hx)
    have h1 := h p (by simp)
    have h2 := h q (by simp)
    rw [timed, List.map_cons, List.sum_cons, ih, List.map_cons (l := q :: l), List.map_cons (l := l), timeSpan_cons]
    show wrap64 (q.dts - p.dts) + _ = _
    rw [wrap64_small (by omega) (by omega)]

/-- **C115** in terms of the input: let tracks come from packets and let times be moderate numbers, in any order. The durations of what is
delivered of a track add up to the time from the first packet given that was not refused to the last packet given. -/
theorem C115_ticks {name : String} {a : Bool} {h : List (Oracle × DemuxOp)} {s : Demuxer} (hr : Reached name a h s)
    (hp : ∀ x ∈ h, x.2.PacketOnly) (hid : ∀ x ∈ h, x.1.preprocess = id) (hc : s.completed = true) {i : Nat} {b : Int}
    (hb : ((i : Int), b) ∈ s.bufferOf) (hd : ∀ f ∈ framesOf b h, -2 ^ 62 ≤ f.dts ∧ f.dts < 2 ^ 62) :
    ((ofTrack i (delivered s.calls)).map (·.duration)).sum = timeSpan (((framesOf b h).drop (refusals b s.calls)).map (·.dts)) := by
  rw [((C62_each_once_partial hr (C62_packet_input hr hp) hc i).map _).sum_eq, track_buffer hr hp hb, ← taken_dts hr hp hid, timed_sum_small]
  intro q hq
  have : q.dts ∈ (ofBuffer b (taken s.calls)).map (·.dts) := List.mem_map_of_mem (f := fun x : AVPacket => x.dts) hq
  rw [taken_dts hr hp hid] at this
  obtain ⟨f, hf, e⟩ := List.mem_map.1 this
  have := hd f (List.mem_of_mem_drop hf)
  rwa [e] at this

/-- **C115** in milliseconds: the durations of what is delivered of a track, each asked for in milliseconds, add up to the times between the
packets, each cut to whole milliseconds. -/
theorem C115_milliseconds (undef : Int) {name : String} {a : Bool} {h : List (Oracle × DemuxOp)} {s : Demuxer} (hn : KnownName name)
    (hr : Reached name a h s) (hp : ∀ x ∈ h, x.2.PacketOnly) (hid : ∀ x ∈ h, x.1.preprocess = id) (hd : Paced 0 name h)
    (hc : s.completed = true) {i : Nat} {b : Int} (hb : ((i : Int), b) ∈ s.bufferOf) :
    ((ofTrack i (delivered s.calls)).map fun p => p.getDuration undef 1000).sum =
      wholeMs (timebaseOf name) (((framesOf b h).drop (refusals b s.calls)).map (·.dts)) := by
  obtain ⟨t1, _, t3⟩ := taken_paced hn hr hp hid hd b
  rw [((C62_each_once_partial hr (C62_packet_input hr hp) hc i).map _).sum_eq, track_buffer hr hp hb, ← taken_dts hr hp hid]
  exact msSum_eq undef _ (timebaseOf_cases name) _ t1 t3

theorem wholeMs_span {tb : Int} (htb : tb = 90000 ∨ tb = 1000) {l : List Int} (hl : l.IsChain (fun x y => x ≤ y)) :
    wholeMs tb l * tb ≤ 1000 * timeSpan l ∧ 1000 * timeSpan l ≤ wholeMs tb l * tb + (l.length - 1 : Nat) * (tb - 1000) := by
  cases l with
  | nil => exact ⟨by show 0 * tb ≤ 0; omega, by show 0 ≤ 0 * tb + 0 * (tb - 1000); omega⟩
  | cons x l =>
    obtain ⟨_, _, h3, h4, _⟩ := wholeMs_bounds htb 0 l x hl
    exact ⟨h3, h4⟩

/-- **C115**, how far off: in milliseconds the sum is never more than the time that passed, and it lacks less than a millisecond for each
packet delivered. In FLV and JT1078 it is the time that passed. -/
theorem C115_drift_bound (undef : Int) {name : String} {a : Bool} {h : List (Oracle × DemuxOp)} {s : Demuxer} (hn : KnownName name)
    (hr : Reached name a h s) (hp : ∀ x ∈ h, x.2.PacketOnly) (hid : ∀ x ∈ h, x.1.preprocess = id) (hd : Paced 0 name h)
    (hc : s.completed = true) {i : Nat} {b : Int} (hb : ((i : Int), b) ∈ s.bufferOf) :
    let ms := ((ofTrack i (delivered s.calls)).map fun p => p.getDuration undef 1000).sum
    let ticks := ((ofTrack i (delivered s.calls)).map (·.duration)).sum
    ms * timebaseOf name ≤ 1000 * ticks ∧
    1000 * ticks ≤ ms * timebaseOf name + (ofTrack i (delivered s.calls)).length * (timebaseOf name - 1000) := by
  dsimp only
  have hch : (((framesOf b h).drop (refusals b s.calls)).map (·.dts)).IsChain (fun x y => x ≤ y) := by
    rw [List.isChain_map]
    refine ((hd.apart b).drop _).imp fun x y hxy => ?_
    simp only [Nat.cast_zero, Int.zero_mul] at hxy
    omega
  have hlen : (ofTrack i (delivered s.calls)).length = (((framesOf b h).drop (refusals b s.calls)).map (·.dts)).length - 1 := by
    rw [(C62_each_once_partial hr (C62_packet_input hr hp) hc i).length_eq, timed_length, track_buffer hr hp hb, ← taken_dts hr hp hid,
      List.length_map]
  rw [C115_milliseconds undef hn hr hp hid hd hc hb, C115_ticks hr hp hid hc hb (fun f hf => by
    have := hd.range b f hf
    omega), hlen]
  exact wholeMs_span (timebaseOf_cases name) hch

theorem C115_exact_flv (undef : Int) {name : String} {a : Bool} {h : List (Oracle × DemuxOp)} {s : Demuxer}
    (hn : name = "flv" ∨ name = "jt1078") (hr : Reached name a h s) (hp : ∀ x ∈ h, x.2.PacketOnly) (hid : ∀ x ∈ h, x.1.preprocess = id)
    (hd : Paced 0 name h) (hc : s.completed = true) {i : Nat} {b : Int} (hb : ((i : Int), b) ∈ s.bufferOf) :
    ((ofTrack i (delivered s.calls)).map fun p => p.getDuration undef 1000).sum =
      timeSpan (((framesOf b h).drop (refusals b s.calls)).map (·.dts)) := by
  have hk : KnownName name := by rcases hn with e | e <;> simp [KnownName, e]
  have ht : timebaseOf name = 1000 := by rcases hn with e | e <;> rw [e] <;> decide
  rw [← C115_ticks hr hp hid hc hb (fun f hf => by have := hd.range b f hf; omega)]
  have := C115_drift_bound undef hk hr hp hid hd hc hb
  dsimp only at this
  rw [ht] at this
  omega

/-! ## In milliseconds durations do not add up -/

/-- **C115** in milliseconds: the durations of what is delivered of a track add up to the time that passed, to the millisecond. -/
def C115_claim : Prop :=
  ∀ (undef : Int) (name : String) a h s, KnownName name → Reached name a h s → (∀ x ∈ h, x.2.PacketOnly) → (∀ x ∈ h, x.1.preprocess = id) →
    Paced 0 name h → s.completed = true → ∀ (i : Nat) b, ((i : Int), b) ∈ s.bufferOf →
    1000 * timeSpan (((framesOf b h).drop (refusals b s.calls)).map (·.dts)) <
      (((ofTrack i (delivered s.calls)).map fun p => p.getDuration undef 1000).sum + 1) * timebaseOf name

/-- A packet, 200 ms of nothing, and then `n` packets half a millisecond apart. -/
def drifting (n : Nat) : List (Oracle × DemuxOp) := (exOracle, .audioPacket 0 codecPCMS16LE [1, 2] (-18000)) :: crowd n

theorem drifting_frames (b : Int) (n : Nat) : framesOf b (drifting n) =
    if b = 0 then ⟨false, false, [1, 2], -18000⟩ :: (List.range n).map fun i => ⟨false, false, [1, 2], 45 * (i : Int)⟩ else [] := by
  have e : framesOf b (drifting n) = (if b = 0 then [⟨false, false, [1, 2], -18000⟩] else []) ++ framesOf b (crowd n) := by
    unfold drifting framesOf
    rw [List.filterMap_cons]
    by_cases hb : b = 0
    · subst hb; rfl
    · simp [DemuxOp.frame, Ne.symm hb, hb]
  rw [e, crowd_frames]
  split <;> rfl

theorem drifting_paced {n : Nat} (hn : n ≤ 2 ^ 40) : Paced 0 "ts" (drifting n) := by
  have hc := crowd_crowded hn
  refine ⟨fun b => ?_, fun b f hf => ?_⟩
  · have h1 := hc.close b
    rw [crowd_frames] at h1
    rw [drifting_frames]
    split
    · rename_i hb
      rw [if_pos hb] at h1
      rw [List.isChain_cons]
      refine ⟨fun y hy => ?_, h1.imp fun x y hxy => by simp only [Nat.cast_zero, Int.zero_mul]; omega⟩
      have := List.mem_of_mem_head? hy
      obtain ⟨i, _, rfl⟩ := List.mem_map.1 this
      simp only [Nat.cast_zero, Int.zero_mul]
      show 0 ≤ 1000 * (45 * (i : Int) - -18000)
      omega
    · exact .nil
  · have h1 := hc.range b
    rw [crowd_frames] at h1
    rw [drifting_frames] at hf
    split at hf
    · rename_i hb
      rw [if_pos hb] at h1
      rcases List.mem_cons.1 hf with rfl | hf
      · decide
      · exact h1 f hf
    · cases hf

theorem drifting_succ (n : Nat) : drifting (n + 1) = drifting n ++ [(exOracle, .audioPacket 0 codecPCMS16LE [1, 2] (45 * n))] := by
  unfold drifting
  rw [crowd_succ, List.cons_append]

/-- With the second packet probing is over; nothing is refused. -/
theorem drifting_completed (n : Nat) {s : Demuxer} (hr : Reached "ts" true (drifting (n + 1)) s) :
    s.completed = true ∧ refusals 0 s.calls = 0 ∧ (((0 : Nat) : Int), (0 : Int)) ∈ s.bufferOf := by
  induction n generalizing s with
  | zero =>
    have h : (runDemux (Demuxer.new "ts" true) (drifting 1) >>= fun s =>
      ok (s.completed, refusals 0 s.calls, s.bufferOf)) = ok (true, 0, [(0, 0)]) := by decide +kernel
    obtain ⟨s', h1, h2⟩ := bind_eq_ok.1 h
    have e : runDemux (Demuxer.new "ts" true) (drifting 1) = ok s := hr.2
    rw [h1] at e
    injection e with e
    subst e
    simp only [Go.ok.injEq, Prod.mk.injEq] at h2
    rw [h2.1, h2.2.1, h2.2.2]
    simp
  | succ n ih =>
    rw [drifting_succ] at hr
    obtain ⟨s0, hr0, ho, h1⟩ := reached_snoc hr
    obtain ⟨i1, i2, i3⟩ := ih hr0
    obtain ⟨f1, _, f3⟩ := Demuxer.Micros.frozen (Demuxer.run_micros ho (Demuxer.Reached.inv hr0) h1) i1
    refine ⟨f1, ?_, by rw [f3]; exact i3⟩
    obtain ⟨b, f, e1, e2, k⟩ := packet_op hr0 ho rfl (show (DemuxOp.audioPacket 0 codecPCMS16LE [1, 2] (45 * ((n + 1 : Nat) : Int))).IsPacket from trivial) h1
    have hb : b = 0 := by
      by_contra hb
      have := e2 0 (Ne.symm hb)
      simp [DemuxOp.frame] at this
    subst hb
    rcases k with ⟨_, k⟩ | ⟨p, cs, k1, k2, _, _⟩
    · exact absurd (List.mem_map.2 ⟨_, i3, rfl⟩) k
    · rw [k1, refusals_append, i2]
      show 0 + refusals 0 cs = 0
      rw [refusals_plain k2]

theorem wholeMs_crowded {tb : Int} (h0 : 0 < tb) : ∀ l : List Int, l.IsChain (fun x y => 0 ≤ y - x ∧ 1000 * (y - x) < tb) → wholeMs tb l = 0
  | [], _ => rfl
  | [_], _ => rfl
  | a :: b :: l, h => by
    rw [List.isChain_cons_cons] at h
    rw [wholeMs, wholeMs_crowded h0 (b :: l) h.2, Int.ediv_eq_zero_of_lt (by omega) (by omega)]; rfl

/-- The time that passes in `drifting`. -/
theorem drifting_span (n : Nat) : timeSpan (-18000 :: (List.range (n + 1)).map fun i : Nat => 45 * (i : Int)) = 18000 + 45 * n := by
  rw [List.range_succ, List.map_append, List.map_singleton]
  show List.getLast _ _ - -18000 = _
  rw [List.getLast_cons (by simp), List.getLast_append_singleton]
  omega

/-- **C115**: so in milliseconds the sum lags behind without bound. Here it is 200 ms, however many half milliseconds passed after them. -/
theorem C115_drift {n : Nat} (hn : n < 2 ^ 40) (undef : Int) : ∃ s, Reached "ts" true (drifting (n + 1)) s ∧ s.completed = true ∧
    ((ofTrack 0 (delivered s.calls)).map (·.duration)).sum = 18000 + 45 * n ∧
    ((ofTrack 0 (delivered s.calls)).map fun p => p.getDuration undef 1000).sum = 200 := by
  have hx : ∀ x ∈ drifting (n + 1), x.1 = exOracle ∧ x.2.IsPacket ∧ ¬ x.2.IsSetsFrame := by
    intro x hx
    unfold drifting at hx
    rcases List.mem_cons.1 hx with rfl | hx
    · exact ⟨rfl, trivial, by simp [DemuxOp.IsSetsFrame]⟩
    · refine ⟨(crowd_ops _).1 x hx, (crowd_ops _).2 x hx, ?_⟩
      unfold crowd at hx
      obtain ⟨i, _, rfl⟩ := List.mem_map.1 hx
      simp [DemuxOp.IsSetsFrame]
  have hp : ∀ x ∈ drifting (n + 1), x.2.PacketOnly := fun x h => isPacket_only (hx x h).2.1
  have hid : ∀ x ∈ drifting (n + 1), x.1.preprocess = id := fun x h => by rw [(hx x h).1]; rfl
  obtain ⟨s, hr⟩ := C72_no_key_frames "ts" true (drifting (n + 1)) (by simp [KnownName]) (fun x h => by rw [(hx x h).1]; exact exOracle_valid) hp
    (fun x h => (hx x h).2.2)
  obtain ⟨h1, h2, h3⟩ := drifting_completed n hr
  have hpc := drifting_paced (n := n + 1) (by omega)
  have hfr : ((framesOf 0 (drifting (n + 1))).drop (refusals 0 s.calls)).map (·.dts) =
      -18000 :: (List.range (n + 1)).map fun i : Nat => 45 * (i : Int) := by
    rw [h2, List.drop_zero, drifting_frames, if_pos rfl, List.map_cons, List.map_map]; rfl
  refine ⟨s, hr, h1, ?_, ?_⟩
  · rw [C115_ticks hr hp hid h1 h3 (fun f hf => by have := hpc.range 0 f hf; omega), hfr, drifting_span]
  · rw [C115_milliseconds undef (by simp [KnownName]) hr hp hid hpc h1 h3, hfr, show timebaseOf "ts" = 90000 by decide]
    have hz : wholeMs 90000 ((List.range (n + 1)).map fun i : Nat => 45 * (i : Int)) = 0 := by
      refine wholeMs_crowded (by decide) _ ?_
      rw [List.isChain_map, List.isChain_iff_getElem]
      intro i hi
      simp only [List.getElem_range]
      push_cast
      omega
    rw [List.range_succ_eq_map, List.map_cons] at hz ⊢
    rw [wholeMs, hz]
    rfl

theorem C115_claim_violated : ¬ C115_claim := by
  intro hcl
  obtain ⟨s, hr, hc, h1, h2⟩ := C115_drift (n := 2) (by decide) 0
  obtain ⟨_, h3, h4⟩ := drifting_completed 2 hr
  have := hcl 0 "ts" true _ s (by simp [KnownName]) hr (by
      intro x hx; revert x; simp [drifting, crowd, List.range_succ, DemuxOp.PacketOnly]) (by
      intro x hx; revert x; simp [drifting, crowd, List.range_succ]; rfl) (drifting_paced (by decide)) hc 0 0 h4
  rw [h2, h3, List.drop_zero, drifting_frames, if_pos rfl, List.map_cons, List.map_map] at this
  have hs := drifting_span 2
  have e : ((fun f : Frame => f.dts) ∘ fun i : Nat => (⟨false, false, [1, 2], 45 * (i : Int)⟩ : Frame)) = fun i : Nat => 45 * (i : Int) := rfl
  rw [e] at this
  rw [hs, show timebaseOf "ts" = 90000 by decide] at this
  omega

/-! ## Concrete cases -/

/-- 29.97 frames per second: 3003 ticks are counted as 33 ms, so 900 frames are 29.7 s instead of 30.03 s. -/
example : wholeMs 90000 ((List.range 901).map fun i : Nat => 3003 * (i : Int)) = 29700 ∧
    timeSpan ((List.range 901).map fun i : Nat => 3003 * (i : Int)) = 90 * 30030 := by decide +kernel

/-- Times that go back: the negative duration is part of the sum. -/
example : (runDemux (Demuxer.new "ts" true) [(exOracle, .audioPacket 0 codecPCMS16LE [1] 0), (exOracle, .audioPacket 0 codecPCMS16LE [2] 18000),
      (exOracle, .audioPacket 0 codecPCMS16LE [3] 9000), (exOracle, .audioPacket 0 codecPCMS16LE [4] 27000)] >>= fun s =>
    ok (s.completed, (ofTrack 0 (delivered s.calls)).map (·.duration))) = ok (true, [18000, -9000, 18000]) ∧
    timeSpan [0, 18000, 9000, 27000] = 27000 := by decide +kernel

/-- Far apart the difference itself wraps. -/
example : (runDemux (Demuxer.new "flv" true) [(exOracle, .audioPacket 0 codecPCMS16LE [1] 0), (exOracle, .audioPacket 0 codecPCMS16LE [2] 200),
      (exOracle, .audioPacket 0 codecPCMS16LE [3] (-2 ^ 63 + 100))] >>= fun s =>
    ok (s.completed, (ofTrack 0 (delivered s.calls)).map (·.duration))) = ok (true, [200, 2 ^ 63 - 100]) := by decide +kernel

end Avf
