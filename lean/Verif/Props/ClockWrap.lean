import Verif.Spec.ClockWrap
import Verif.Props.Durations
/-!
# C125: streams whose clock starts again

The true times of the packets of a track are `ts`; their time stamps are these times modulo `m` (2^33 in MPEG streams, 2^32 in FLV).
-/
namespace Avf
open Go

theorem timed_clock {m : Int} (hm : 0 < m) (hm2 : m ≤ 2 ^ 62) : ∀ (l : List AVPacket) (ts : List Int), l.map (·.dts) = ts.map (· % m) →
    (timed l).map (·.duration) = List.zipWith (fun g r => g - m * r) (gaps ts) (restarts m ts)
  | [], [], _ => rfl
  | [], _ :: _, h => by cases h
  | _ :: _, [], h => by cases h
  | [_], [_], _ => rfl
  | [_], _ :: _ :: _, h => by simp at h
  | _ :: _ :: _, [_], h => by simp at h
  | p :: q :: l, a :: b :: ts, h => by
    simp only [List.map_cons, List.cons.injEq] at h
    obtain ⟨h1, h2, h3⟩ := h
    have ih := timed_clock hm hm2 (q :: l) (b :: ts) (by simp [h2, h3])
    rw [timed, List.map_cons, ih, gaps, restarts, List.zipWith_cons_cons]
    congr 1
    show wrap64 (q.dts - p.dts) = _
    have e1 := Int.emod_add_mul_ediv a m
    have e2 := Int.emod_add_mul_ediv b m
    have l1 := Int.emod_nonneg a (show m ≠ 0 by omega)
    have l2 := Int.emod_lt_of_pos a hm
    have l3 := Int.emod_nonneg b (show m ≠ 0 by omega)
    have l4 := Int.emod_lt_of_pos b hm
    rw [wrap64_small (by omega) (by omega), h1, h2, Int.mul_sub]
    omega

/-- The frames of a buffer that were taken have the stamps of the times `ts`. -/
def Stamped (m : Int) (b : Int) (h : List (Oracle × DemuxOp)) (s : Demuxer) (ts : List Int) : Prop :=
  ((framesOf b h).drop (refusals b s.calls)).map (·.dts) = ts.map (· % m)

/-- **C125**: each duration that is delivered is the time that passed, less `m` for each time the clock started again in between. -/
theorem C125_durations {name : String} {a : Bool} {h : List (Oracle × DemuxOp)} {s : Demuxer} (hr : Reached name a h s)
    (hp : ∀ x ∈ h, x.2.PacketOnly) (hid : ∀ x ∈ h, x.1.preprocess = id) (hc : s.completed = true) {i : Nat} {b : Int}
    (hb : ((i : Int), b) ∈ s.bufferOf) {m : Int} (hm : 0 < m) (hm2 : m ≤ 2 ^ 62) {ts : List Int} (hs : Stamped m b h s ts) :
    ((ofTrack i (delivered s.calls)).map (·.duration)).Perm (List.zipWith (fun g r => g - m * r) (gaps ts) (restarts m ts)) := by
  refine ((C62_each_once_partial hr (C62_packet_input hr hp) hc i).map _).trans ?_
  rw [track_buffer hr hp hb, timed_clock hm hm2 _ ts]
  rw [taken_dts hr hp hid]; exact hs

theorem zip_mod {m : Int} : ∀ (gs rs : List Int), gs.length = rs.length → (∀ g ∈ gs, 0 ≤ g ∧ g < m) →
    (List.zipWith (fun g r => g - m * r) gs rs).map (· % m) = gs
  | [], _, _, _ => rfl
  | _ :: _, [], h, _ => by cases h
  | g :: gs, r :: rs, h, hg => by
    rw [List.zipWith_cons_cons, List.map_cons, zip_mod gs rs (by simpa using h) fun x hx => hg x (List.mem_cons_of_mem _ hx)]
    congr 1
    have := hg g (by simp)
    rw [Int.sub_mul_emod_self_left]
    exact Int.emod_eq_of_lt this.1 this.2

theorem gaps_restarts (m : Int) : ∀ ts : List Int, (gaps ts).length = (restarts m ts).length
  | [] => rfl
  | [_] => rfl
  | _ :: b :: l => by simp [gaps, restarts, gaps_restarts m (b :: l)]

/-- **C125**: durations modulo `m` are the times that passed, if less than a full turn passes from packet to packet. -/
theorem C125_modulo {name : String} {a : Bool} {h : List (Oracle × DemuxOp)} {s : Demuxer} (hr : Reached name a h s)
    (hp : ∀ x ∈ h, x.2.PacketOnly) (hid : ∀ x ∈ h, x.1.preprocess = id) (hc : s.completed = true) {i : Nat} {b : Int}
    (hb : ((i : Int), b) ∈ s.bufferOf) {m : Int} (hm : 0 < m) (hm2 : m ≤ 2 ^ 62) {ts : List Int} (hs : Stamped m b h s ts)
    (hg : ∀ g ∈ gaps ts, 0 ≤ g ∧ g < m) :
    ((ofTrack i (delivered s.calls)).map fun p => p.duration % m).Perm (gaps ts) := by
  have := (C125_durations hr hp hid hc hb hm hm2 hs).map (· % m)
  rwa [zip_mod _ _ (gaps_restarts m ts) hg, List.map_map] at this

theorem restartsOver_cons (m a b : Int) (l : List Int) : restartsOver m (a :: b :: l) = (b / m - a / m) + restartsOver m (b :: l) := by
  show (a :: b :: l).getLast _ / m - a / m = (b / m - a / m) + ((b :: l).getLast _ / m - b / m)
  rw [List.getLast_cons (by simp)]
  omega

theorem sum_clock (m : Int) : ∀ ts : List Int,
    (List.zipWith (fun g r => g - m * r) (gaps ts) (restarts m ts)).sum = timeSpan ts - m * restartsOver m ts
  | [] => by simp [gaps, timeSpan, restartsOver]
  | [t] => by simp [gaps, timeSpan, restartsOver]
  | a :: b :: l => by
    rw [gaps, restarts, List.zipWith_cons_cons, List.sum_cons, sum_clock m (b :: l), timeSpan_cons, restartsOver_cons, Int.mul_add]
    omega

/-- **C125**: the durations that are delivered add up to the time that passed, less `m` for each time the clock started again. -/
theorem C125_sum {name : String} {a : Bool} {h : List (Oracle × DemuxOp)} {s : Demuxer} (hr : Reached name a h s)
    (hp : ∀ x ∈ h, x.2.PacketOnly) (hid : ∀ x ∈ h, x.1.preprocess = id) (hc : s.completed = true) {i : Nat} {b : Int}
    (hb : ((i : Int), b) ∈ s.bufferOf) {m : Int} (hm : 0 < m) (hm2 : m ≤ 2 ^ 62) {ts : List Int} (hs : Stamped m b h s ts) :
    ((ofTrack i (delivered s.calls)).map (·.duration)).sum = timeSpan ts - m * restartsOver m ts := by
  rw [(C125_durations hr hp hid hc hb hm hm2 hs).sum_eq, sum_clock]

/-- **C125**: the order of a track is kept if its time stamps increase while probing lasts, whatever they do later. -/
theorem C125_order {name : String} {a : Bool} {h : List (Oracle × DemuxOp)} {s : Demuxer} (hr : Reached name a h s)
    (hf : FirstsInOrder (taken s.calls)) (hc : s.completed = true) (i : Nat)
    (hd : (ofTrack i (taken (beforeComplete s.calls))).Pairwise fun a b => a.dts < b.dts) :
    ofTrack i (delivered s.calls) = timed (ofTrack i (taken s.calls)) := by
  obtain ⟨early, late, h1, h2, h3, h4⟩ := C62_in_order_partial hr hf hc
  have hd1 : (timed (ofTrack i (taken (beforeComplete s.calls)))).Pairwise fun a b => a.dts < b.dts := by
    generalize ofTrack i (taken (beforeComplete s.calls)) = l at hd
    have := (List.Pairwise.sublist (List.take_sublist (l.length - 1) l) hd)
    have h5 : ((l.take (l.length - 1)).map bare).Pairwise fun a b => a.dts < b.dts := List.pairwise_map.2 this
    rw [← timed_map_bare] at h5
    exact (List.pairwise_map (f := bare) (R := fun a b => a.dts < b.dts)).1 h5
  rw [h1, ofTrack_append, h4 i]
  congr 1
  refine List.Perm.eq_of_pairwise (le := fun a b => a.dts ≤ b.dts) ?_ ?_ ?_ (h3 i)
  · intro x y hx hy hxy hyx
    have hx' := (h3 i).subset hx
    by_contra hne
    rcases List.pairwise_iff_getElem.1 hd1 with hpair
    obtain ⟨m, hm, rfl⟩ := List.mem_iff_getElem.1 hx'
    obtain ⟨n, hn, rfl⟩ := List.mem_iff_getElem.1 hy
    rcases Nat.lt_trichotomy m n with hlt | rfl | hlt
    · have := hpair m n hm hn hlt; omega
    · exact hne rfl
    · have := hpair n m hn hm hlt; omega
  · exact (h2.sublist List.filter_sublist).imp (by simp)
  · exact hd1.imp (by intro a b; exact Int.le_of_lt)

/-- **C125**: a packet with a smaller time stamp comes first among those kept while probing, so what comes after the restart of the clock
is delivered before what came before it. -/
theorem C125_early {name : String} {a : Bool} {h : List (Oracle × DemuxOp)} {s : Demuxer} (hr : Reached name a h s)
    (hf : FirstsInOrder (taken s.calls)) (hc : s.completed = true) :
    ∃ early late, delivered s.calls = early ++ late ∧
      (∀ i, (ofTrack i early).Perm (timed (ofTrack i (taken (beforeComplete s.calls))))) ∧
      ∀ x y u v w, early = u ++ x :: v ++ y :: w → x.dts ≤ y.dts := by
  obtain ⟨early, late, h1, h2, h3, _⟩ := C62_in_order_partial hr hf hc
  refine ⟨early, late, h1, h3, fun x y u v w e => ?_⟩
  subst e
  have := (List.pairwise_append.1 h2).2.2 x (by simp) y (by simp)
  omega

/-- A duration in milliseconds, of any sign. -/
theorem duration_ms_bounds (undef : Int) (p : AVPacket) {tb : Int} (htb : tb = 90000 ∨ tb = 1000) (hp : p.timebase = tb)
    (h : |p.duration| ≤ 2 ^ 51) :
    p.getDuration undef 1000 * tb ≤ 1000 * p.duration + (if p.duration < 0 then tb - 1000 else 0) ∧
    1000 * p.duration - (tb - 1000) ≤ p.getDuration undef 1000 * tb := by
  unfold AVPacket.getDuration
  rcases htb with rfl | rfl
  · rw [if_neg (by rw [hp]; decide), hp, convertTs_ms undef h]
    have e := Int.mul_tdiv_add_tmod p.duration 90
    have u := Int.tmod_lt_of_pos p.duration (by decide : (0 : Int) < 90)
    have v := Int.tmod_lt_of_pos (-p.duration) (by decide : (0 : Int) < 90)
    rw [Int.neg_tmod] at v
    split
    · omega
    · have := Int.tmod_nonneg (a := p.duration) 90 (by omega)
      omega
  · rw [if_pos hp]
    split <;> omega

/-- The durations of a list of packets in milliseconds, whatever the stamps do. -/
theorem msSum_bounds (undef tb : Int) (htb : tb = 90000 ∨ tb = 1000) : ∀ (l : List AVPacket),
    (∀ q ∈ l, q.timebase = tb ∧ -2 ^ 50 ≤ q.dts ∧ q.dts ≤ 2 ^ 50) →
    msSum undef l * tb ≤ 1000 * timeSpan (l.map (·.dts)) + decreases (l.map (·.dts)) * (tb - 1000) ∧
    1000 * timeSpan (l.map (·.dts)) - l.length * (tb - 1000) ≤ msSum undef l * tb
  | [], _ => by simp [msSum, timed, timeSpan, decreases]
  | [_], _ => by
    have h0 : 0 ≤ tb - 1000 := by omega
    simp [msSum, timed, timeSpan, decreases]; omega
  | p :: q :: l, hq => by
    obtain ⟨i1, i2⟩ := msSum_bounds undef tb htb (q :: l) fun x hx => hq x (List.mem_cons_of_mem _ hx)
    have hp := hq p (by simp)
    have hq' := hq q (by simp)
    have hs : msSum undef (p :: q :: l) =
        ({ p with duration := wrap64 (q.dts - p.dts) } : AVPacket).getDuration undef 1000 + msSum undef (q :: l) := rfl
    have hd := duration_ms_bounds undef { p with duration := q.dts - p.dts } htb hp.1 (by
      show |q.dts - p.dts| ≤ _
      rw [abs_le]; omega)
    rw [hs, wrap64_small (by omega) (by omega), Int.add_mul]
    rw [List.map_cons, List.map_cons] at *
    rw [timeSpan_cons, decreases, List.length_cons]
    dsimp only at hd
    generalize ({ p with duration := q.dts - p.dts } : AVPacket).getDuration undef 1000 * tb = x at *
    generalize msSum undef (q :: l) * tb = y at *
    generalize timeSpan (q.dts :: l.map (·.dts)) = z at *
    generalize decreases (q.dts :: l.map (·.dts)) = w at *
    generalize (q :: l).length = n at *
    have h0 : 0 ≤ tb - 1000 := by omega
    generalize tb - 1000 = c at *
    push_cast
    rw [Int.add_mul, Int.add_mul]
    split at hd
    · rw [if_pos (by omega)]; push_cast; omega
    · rw [if_neg (by omega)]; push_cast; omega

/-- **C125**: a packet does not end probing as long as the stamps of its queue span too little, whatever time has passed. -/
theorem C125_goes_on {name : String} {a : Bool} {h : List (Oracle × DemuxOp)} {s s' : Demuxer} (hr : Reached name a h s)
    (hc : s.completed = false) {o : Oracle} (ho : o.Valid) {e : DemuxOp} (he : e.IsPacket) (h1 : e.run o s = ok s') {tb : Int}
    (htb : tb = 90000 ∨ tb = 1000)
    (hl : ∀ p, taken s'.calls = taken s.calls ++ [p] →
      let l := laneBefore (lanes (taken s.calls)) p ++ [p]
      (∀ q ∈ l, q.timebase = tb ∧ -2 ^ 50 ≤ q.dts ∧ q.dts ≤ 2 ^ 50) ∧ l.length < 2 ^ 40 ∧
      1000 * timeSpan (l.map (·.dts)) + decreases (l.map (·.dts)) * (tb - 1000) < max s.probeDuration 200 * tb) :
    s'.completed = false := by
  rcases C65_exact hr hc ho he h1 with ⟨_, h2⟩ | ⟨p, h2, h3⟩
  · exact h2
  · obtain ⟨k1, k2, k3⟩ := hl p h2
    obtain ⟨b1, b2⟩ := msSum_bounds o.undef tb htb _ k1
    rw [Bool.eq_false_iff, Ne, h3]
    have e : bufferedMs o.undef (timed (laneBefore (lanes (taken s.calls)) p ++ [p])) = wrap64 (msSum o.undef (laneBefore (lanes (taken s.calls)) p ++ [p])) := rfl
    rw [e]
    generalize laneBefore (lanes (taken s.calls)) p ++ [p] = l at *
    have hspan : -2 ^ 51 ≤ timeSpan (l.map (·.dts)) ∧ timeSpan (l.map (·.dts)) ≤ 2 ^ 51 := by
      cases l with
      | nil => simp [timeSpan]
      | cons x l =>
        have hx := k1 x (by simp)
        have hm : (((x :: l).map (·.dts)).getLast (by simp)) ∈ (x :: l).map (·.dts) := List.getLast_mem _
        obtain ⟨y, hy, hye⟩ := List.mem_map.1 hm
        have hy' := k1 y hy
        have : timeSpan ((x :: l).map (·.dts)) = (((x :: l).map (·.dts)).getLast (by simp)) - x.dts := rfl
        rw [this, ← hye]
        omega
    have hdec : ∀ ts : List Int, decreases ts ≤ ts.length := by
      intro ts
      induction ts with
      | nil => simp [decreases]
      | cons t ts ih =>
        cases ts with
        | nil => simp [decreases]
        | cons u ts =>
          rw [decreases, List.length_cons (as := u :: ts)]
          split <;> omega
    have hd := hdec (l.map (·.dts))
    rw [List.length_map] at hd
    generalize decreases (l.map (·.dts)) = d at *
    generalize msSum o.undef l = x at *
    generalize timeSpan (l.map (·.dts)) = z at *
    rcases htb with rfl | rfl
    · rw [wrap64_small (by omega) (by omega)]; omega
    · rw [wrap64_small (by omega) (by omega)]; omega

theorem decreases_restarts {m : Int} (hm : 0 < m) : ∀ ts : List Int, (∀ g ∈ gaps ts, 0 ≤ g) →
    (decreases (ts.map (· % m)) : Int) ≤ restartsOver m ts
  | [], _ => by simp [decreases, restartsOver]
  | [t], _ => by simp [decreases, restartsOver]
  | a :: b :: l, h => by
    have ih := decreases_restarts hm (b :: l) fun g hg => h g (by rw [gaps]; exact List.mem_cons_of_mem _ hg)
    have hab := h (b - a) (by simp [gaps])
    rw [restartsOver_cons, List.map_cons, List.map_cons, decreases]
    rw [List.map_cons] at ih
    have hle : a / m ≤ b / m := Int.ediv_le_ediv hm (by omega)
    split
    · rename_i hlt
      have : a / m ≠ b / m := by
        intro e
        have e1 := Int.emod_add_mul_ediv a m
        have e2 := Int.emod_add_mul_ediv b m
        rw [e] at e1
        omega
      push_cast
      omega
    · push_cast
      omega

theorem timeSpan_clock (m : Int) : ∀ ts : List Int, timeSpan (ts.map (· % m)) = timeSpan ts - m * restartsOver m ts
  | [] => by simp [timeSpan, restartsOver]
  | [t] => by simp [timeSpan, restartsOver]
  | a :: b :: l => by
    have ih := timeSpan_clock m (b :: l)
    rw [List.map_cons, List.map_cons, timeSpan_cons, timeSpan_cons, restartsOver_cons, ← List.map_cons (f := (· % m)), ih, Int.mul_add, Int.mul_sub]
    have e1 := Int.emod_add_mul_ediv a m
    have e2 := Int.emod_add_mul_ediv b m
    omega

/-- **C125**: when the clock has started again `r` times while probing, probing goes on until `r` turns of the clock and the probing
time have passed, up to a millisecond for each restart. -/
theorem C125_long_probe {name : String} {a : Bool} {h : List (Oracle × DemuxOp)} {s s' : Demuxer} (hr : Reached name a h s)
    (hc : s.completed = false) {o : Oracle} (ho : o.Valid) {e : DemuxOp} (he : e.IsPacket) (h1 : e.run o s = ok s') {tb : Int}
    (htb : tb = 90000 ∨ tb = 1000) {m : Int} (hm : 0 < m) (hm2 : m ≤ 2 ^ 50)
    (hl : ∀ p, taken s'.calls = taken s.calls ++ [p] →
      let l := laneBefore (lanes (taken s.calls)) p ++ [p]
      ∃ ts : List Int, l.map (·.dts) = ts.map (· % m) ∧ (∀ g ∈ gaps ts, 0 ≤ g) ∧ (∀ q ∈ l, q.timebase = tb) ∧ l.length < 2 ^ 40 ∧
      1000 * timeSpan ts < max s.probeDuration 200 * tb + restartsOver m ts * (1000 * m - (tb - 1000))) :
    s'.completed = false := by
  refine C125_goes_on hr hc ho he h1 htb fun p hp => ?_
  obtain ⟨ts, k1, k2, k3, k4, k5⟩ := hl p hp
  refine ⟨fun q hq => ⟨k3 q hq, ?_⟩, k4, ?_⟩
  · have : q.dts ∈ ts.map (· % m) := by rw [← k1]; exact List.mem_map_of_mem (f := fun x : AVPacket => x.dts) hq
    obtain ⟨t, _, ht⟩ := List.mem_map.1 this
    have l1 := Int.emod_nonneg t (show m ≠ 0 by omega)
    have l2 := Int.emod_lt_of_pos t hm
    omega
  · rw [k1, timeSpan_clock]
    have hd := decreases_restarts hm ts k2
    have h0 : 0 ≤ tb - 1000 := by omega
    have := Int.mul_le_mul_of_nonneg_right hd h0
    generalize max s.probeDuration 200 * tb = L at *
    generalize restartsOver m ts = r at *
    rw [Int.mul_sub] at k5
    have e : r * (1000 * m) = 1000 * (m * r) := by rw [← Int.mul_assoc, Int.mul_comm r, Int.mul_assoc, ← Int.mul_comm r, Int.mul_comm r m]
    omega

/-! ## The claim, and a stream that breaks it -/

/-- **C125** in full: with time stamps of 33 bits, the packets of a track are delivered in the order in which they came, and their
durations are the times that passed. -/
def C125_claim : Prop :=
  ∀ name a h s, Reached name a h s → (∀ x ∈ h, x.2.PacketOnly) → (∀ x ∈ h, x.1.preprocess = id) → s.completed = true →
    ∀ (i : Nat) b, ((i : Int), b) ∈ s.bufferOf → ∀ ts, Stamped (2 ^ 33) b h s ts → (∀ g ∈ gaps ts, 0 < g ∧ g < 2 ^ 33) →
      (ofTrack i (delivered s.calls)).map (·.dts) = (ts.map (· % 2 ^ 33)).dropLast ∧
      (ofTrack i (delivered s.calls)).map (·.duration) = gaps ts

/-- Five packets, 100 ms apart; the clock starts again after the second. Then the caller ends probing. -/
def restartRun : List (Oracle × DemuxOp) :=
  [(exOracle, .audioPacket 0 codecPCMS16LE [1, 2] (2 ^ 33 - 18000)), (exOracle, .audioPacket 0 codecPCMS16LE [3, 4] (2 ^ 33 - 9000)),
   (exOracle, .audioPacket 0 codecPCMS16LE [5, 6] 0), (exOracle, .audioPacket 0 codecPCMS16LE [7, 8] 9000),
   (exOracle, .audioPacket 0 codecPCMS16LE [9, 10] 18000)]

/-- The true times. -/
def restartTimes : List Int := [2 ^ 33 - 18000, 2 ^ 33 - 9000, 2 ^ 33, 2 ^ 33 + 9000, 2 ^ 33 + 18000]

theorem restartRun_valid : ∀ x ∈ restartRun, x.1.Valid := by
  intro x hx
  simp only [restartRun, List.mem_cons, List.not_mem_nil, or_false] at hx
  rcases hx with rfl | rfl | rfl | rfl | rfl <;> exact exOracle_valid

/-- **C125**: 400 ms have passed, but the sum of the durations is negative: probing goes on. Without the restart the third packet ends it. -/
theorem C125_probing :
    (runDemux (Demuxer.new "ts" true) restartRun >>= fun s => ok (s.completed, s.packets.map (·.map (·.duration)))) =
      ok (false, [[9000, 9000 - 2 ^ 33, 9000, 9000, 0]]) ∧
    (runDemux (Demuxer.new "ts" true) [(exOracle, .audioPacket 0 codecPCMS16LE [1, 2] 0), (exOracle, .audioPacket 0 codecPCMS16LE [3, 4] 9000),
      (exOracle, .audioPacket 0 codecPCMS16LE [5, 6] 18000)] >>= fun s => ok s.completed) = ok true := by
  constructor <;> decide +kernel

/-- **C125**: what is delivered when the caller ends probing. -/
theorem C125_restart :
    (runDemux (Demuxer.new "ts" true) (restartRun ++ [(exOracle, .probeComplete)]) >>= fun s =>
      ok (s.completed, (ofTrack 0 (delivered s.calls)).map fun p => (p.dts, p.duration))) =
    ok (true, [(0, 9000), (9000, 9000), (2 ^ 33 - 18000, 9000), (2 ^ 33 - 9000, 9000 - 2 ^ 33)]) := by
  decide +kernel

theorem C125_claim_violated : ¬ C125_claim := by
  intro hc
  have h0 : (runDemux (Demuxer.new "ts" true) (restartRun ++ [(exOracle, .probeComplete)]) >>= fun s =>
      ok (s.completed, refusals 0 s.calls, s.bufferOf, (ofTrack 0 (delivered s.calls)).map (·.dts))) =
      ok (true, 0, [(0, 0)], [0, 9000, 2 ^ 33 - 18000, 2 ^ 33 - 9000]) := by decide +kernel
  obtain ⟨s, h1, h2⟩ := bind_eq_ok.1 h0
  simp only [Go.ok.injEq, Prod.mk.injEq] at h2
  obtain ⟨e1, e2, e3, e4⟩ := h2
  have hv : ∀ x ∈ restartRun ++ [(exOracle, DemuxOp.probeComplete)], x.1 = exOracle ∧ x.2.PacketOnly := by
    intro x hx
    simp only [restartRun, List.cons_append, List.nil_append, List.mem_cons, List.not_mem_nil, or_false] at hx
    rcases hx with rfl | rfl | rfl | rfl | rfl | rfl <;> exact ⟨rfl, trivial⟩
  have := (hc "ts" true _ s ⟨fun x hx => by rw [(hv x hx).1]; exact exOracle_valid, h1⟩ (fun x hx => (hv x hx).2)
    (fun x hx => by rw [(hv x hx).1]; rfl) e1 0 0 (by rw [e3]; simp) restartTimes
    (by unfold Stamped; rw [e2]; decide) (by decide)).1
  rw [e4] at this
  exact absurd this (by decide)

/-- The run is a case for the theorems. -/
example : ∃ s, Reached "ts" true (restartRun ++ [(exOracle, .probeComplete)]) s ∧ s.completed = true ∧ Stamped (2 ^ 33) 0
    (restartRun ++ [(exOracle, .probeComplete)]) s restartTimes ∧ restartsOver (2 ^ 33) restartTimes = 1 := by
  have h0 : (runDemux (Demuxer.new "ts" true) (restartRun ++ [(exOracle, .probeComplete)]) >>= fun s =>
      ok (s.completed, refusals 0 s.calls)) = ok (true, 0) := by decide +kernel
  obtain ⟨s, h1, h2⟩ := bind_eq_ok.1 h0
  simp only [Go.ok.injEq, Prod.mk.injEq] at h2
  refine ⟨s, ⟨fun x hx => ?_, h1⟩, h2.1, ?_, by decide⟩
  · rcases List.mem_append.1 hx with hx | hx
    · exact restartRun_valid x hx
    · rw [List.mem_singleton] at hx; subst hx; exact exOracle_valid
  · unfold Stamped; rw [h2.2]; decide

end Avf
