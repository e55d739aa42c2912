import Verif.Lemmas.ProbeTime
import Verif.Props.EndToEnd
import Verif.Props.DemuxerLoad
/-!
# C106: how long probing lasts, and what it keeps

`C65` says when probing ends in terms of the sum of the durations that the code computes; here in terms of the times of the packets that
the caller gives.
-/
namespace Avf
open Go

/-- **C106**, not later: let the packets of each buffer be at least `k` ms apart. While the demuxer probes, it has not taken more packets
of a buffer than that all but the first, counted as `k` ms each, are less than the time to probe. -/
theorem C106_while_probing {name : String} {a : Bool} {h : List (Oracle × DemuxOp)} {s : Demuxer} {k P : Nat} (hn : KnownName name)
    (hr : Reached name a h s) (hp : ∀ x ∈ h, x.2.PacketOnly) (hid : ∀ x ∈ h, x.1.preprocess = id) (hd : Paced k name h)
    (hP : ProbeAtMost P h) (hc : s.completed = false) (b : Int) : ((ofBuffer b (taken s.calls)).length - 1) * k < max P 200 := by
  have h1 := probing_short hn h hr hp hid hd hP hc b
  obtain ⟨t1, t2, t3⟩ := taken_paced hn hr hp hid hd b
  cases hl : ofBuffer b (taken s.calls) with
  | nil => simp
  | cons p l =>
    rw [hl] at h1 t1 t2 t3
    rw [msSum_eq 0 _ (timebaseOf_cases name) _ t1 t3] at h1
    have := (wholeMs_bounds (timebaseOf_cases name) k (l.map (·.dts)) p.dts (by
      rw [← List.map_cons (f := fun x : AVPacket => x.dts), List.isChain_map]; exact t3)).2.2.2.2 (by
      rw [← List.map_cons (f := fun x : AVPacket => x.dts), List.isChain_map]; exact t2)
    rw [List.length_map] at this
    rw [List.map_cons] at h1
    rw [List.length_cons, Nat.add_sub_cancel]
    have h2 : ((l.length * k : Nat) : Int) < ((max P 200 : Nat) : Int) := by push_cast at this h1 ⊢; omega
    exact_mod_cast h2

/-- **C106**, at most `probePackets k P` packets of each buffer. -/
theorem C106_packets {name : String} {a : Bool} {h : List (Oracle × DemuxOp)} {s : Demuxer} {k P : Nat} (hn : KnownName name) (hk : 0 < k)
    (hr : Reached name a h s) (hp : ∀ x ∈ h, x.2.PacketOnly) (hid : ∀ x ∈ h, x.1.preprocess = id) (hd : Paced k name h)
    (hP : ProbeAtMost P h) (hc : s.completed = false) (b : Int) : (ofBuffer b (taken s.calls)).length ≤ probePackets k P := by
  have h1 := C106_while_probing hn hr hp hid hd hP hc b
  unfold probePackets
  have : (ofBuffer b (taken s.calls)).length - 1 ≤ (max P 200 - 1) / k := (Nat.le_div_iff_mul_le hk).2 (by omega)
  omega

/-- **C106**, exactly: a packet ends probing if and only if the times between the packets of its buffer that were not refused, up to this
one, each cut to whole milliseconds, add up to the time to probe. -/
theorem C106_exact {name : String} {a : Bool} {h : List (Oracle × DemuxOp)} {s s' : Demuxer} {o : Oracle} {e : DemuxOp} (hn : KnownName name)
    (hr : Reached name a h s) (hp : ∀ x ∈ h ++ [(o, e)], x.2.PacketOnly) (hid : ∀ x ∈ h ++ [(o, e)], x.1.preprocess = id)
    (hd : Paced 0 name (h ++ [(o, e)])) (ho : o.Valid) (he : e.IsPacket) (h1 : e.run o s = ok s') (hc : s.completed = false)
    {b : Int} {g : Frame} (hg : e.frame b = some g) :
    s'.completed = true ↔ max s.probeDuration 200 ≤
      wholeMs (timebaseOf name) (((framesOf b (h ++ [(o, e)])).drop (refusals b s'.calls)).map (·.dts)) := by
  have hp0 : ∀ x ∈ h, x.2.PacketOnly := fun x hx => hp x (List.mem_append_left _ hx)
  have hr' : Reached name a (h ++ [(o, e)]) s' := Reached.append hr (by intro x hx; rw [List.mem_singleton] at hx; subst hx; exact ho) (by
    show (e.run o s >>= _) = _
    rw [h1]; rfl)
  have htime : ∀ b, ((framesOf b (h ++ [(o, e)])).drop (refusals b s'.calls)).map (·.dts) = (ofBuffer b (taken s'.calls)).map (·.dts) := by
    intro b
    have hm := (taken_frames hr' hp hid b).2
    clear * - hm
    generalize (framesOf b (h ++ [(o, e)])).drop (refusals b s'.calls) = l at hm
    generalize ofBuffer b (taken s'.calls) = l' at hm
    induction hm with
    | nil => rfl
    | cons hab _ ih => rw [List.map_cons, List.map_cons, ih, hab.dts]
  obtain ⟨b0, g0, k1, k2, k3⟩ := packet_op hr ho (hid (o, e) (by simp)) he h1
  have hbb : b = b0 := by
    by_contra hb
    rw [k2 b hb] at hg; cases hg
  subst hbb
  rw [htime]
  rcases C65_packet_input hr hp0 hc ho he h1 with ⟨e1, e2⟩ | ⟨p, e1, e2⟩
  · have hnil : ofBuffer b (taken s'.calls) = [] := by
      rcases k3 with ⟨_, k4⟩ | ⟨p', cs, g3, g4, _, _⟩
      · rw [e1]
        unfold ofBuffer
        rw [List.filter_eq_nil_iff]
        intro q hq hqb
        have := Demuxer.lookup_mem (Demuxer.Reached.takenKnown hr q hq)
        exact k4 (List.mem_map.2 ⟨_, this, by simpa using hqb⟩)
      · have : taken (Call.accepted p' :: cs) = [p'] := by
          have := g4.taken
          unfold taken at this ⊢
          rw [List.filterMap_cons, this]
        rw [g3, Demuxer.taken_append, this] at e1
        have := congrArg List.length e1
        simp at this
    rw [hnil, e2]
    have : wholeMs (timebaseOf name) (List.map (fun x : AVPacket => x.dts) []) = 0 := rfl
    rw [this]
    simp
  · have hb : p.bufferIndex = b := by
      rcases k3 with ⟨g3, _⟩ | ⟨p', cs, g3, g4, g5, g6⟩
      · rw [g3, Demuxer.taken_append] at e1
        simp [taken] at e1
      · have : taken (Call.accepted p' :: cs) = [p'] := by
          have := g4.taken
          unfold taken at this ⊢
          rw [List.filterMap_cons, this]
        rw [g3, Demuxer.taken_append, this] at e1
        have := List.append_cancel_left e1
        cases this
        exact g5
    have hpt : p ∈ taken s'.calls := by rw [e1]; simp
    have hk := Demuxer.lookup_mem (Demuxer.Reached.takenKnown hr' p hpt)
    obtain ⟨i, hi⟩ := Int.eq_ofNat_of_zero_le (taken_nonneg hr' p hpt)
    have htb := track_buffer hr' hp (i := i) (b := b) (by rw [← hb]; rw [hi] at hk; exact hk)
    rw [hi, Int.toNat_natCast, htb] at e2
    obtain ⟨t1, _, t3⟩ := taken_paced hn hr' hp hid hd b
    rw [msSum_small (timebaseOf_cases name) t1 t3, msSum_eq 0 _ (timebaseOf_cases name) _ t1 t3] at e2
    exact e2

/-- The frames of a buffer that were not refused, the last of them being the one that comes. -/
theorem frames_last {h : List (Oracle × DemuxOp)} {o : Oracle} {e : DemuxOp} {b : Int} {g f : Frame} {fs : List Frame} {n : Nat}
    (hg : e.frame b = some g) (hf : (framesOf b (h ++ [(o, e)])).drop n = f :: fs) (hne : (f :: fs).map (·.dts) ≠ []) :
    ((f :: fs).map (·.dts)).getLast hne = g.dts := by
  have e1 : framesOf b (h ++ [(o, e)]) = framesOf b h ++ [g] := by
    rw [framesOf_append]
    congr 1
    unfold framesOf
    simp [hg]
  have e2 : (f :: fs).getLast (by simp) = g := by
    have hx : (f :: fs).getLast? = some g := by
      rw [← hf, e1]
      have hlt : n < (framesOf b h ++ [g]).length := by
        by_contra hcon
        rw [e1, List.drop_eq_nil_iff.2 (by omega)] at hf; cases hf
      rw [List.length_append, List.length_singleton] at hlt
      rw [List.drop_append_of_le_length (by omega), List.getLast?_append]
      rfl
    rw [List.getLast?_eq_getLast_of_ne_nil (by simp)] at hx
    exact Option.some.inj hx
  rw [List.getLast_map, e2]

/-- **C106**, not earlier and not much later: let `f` be the first packet of a buffer that was not refused and let `n` packets have come
behind it. If the last of them ends probing, then it comes at least the time to probe after `f`; and if it comes the time to probe and `n`
times what can be cut off after `f`, then it ends probing. In a time base of milliseconds nothing is cut off. -/
theorem C106_not_early {name : String} {a : Bool} {h : List (Oracle × DemuxOp)} {s s' : Demuxer} {o : Oracle} {e : DemuxOp} (hn : KnownName name)
    (hr : Reached name a h s) (hp : ∀ x ∈ h ++ [(o, e)], x.2.PacketOnly) (hid : ∀ x ∈ h ++ [(o, e)], x.1.preprocess = id)
    (hd : Paced 0 name (h ++ [(o, e)])) (ho : o.Valid) (he : e.IsPacket) (h1 : e.run o s = ok s') (hc : s.completed = false)
    {b : Int} {f g : Frame} {fs : List Frame} (hg : e.frame b = some g)
    (hf : (framesOf b (h ++ [(o, e)])).drop (refusals b s'.calls) = f :: fs) :
    (s'.completed = true → max s.probeDuration 200 * timebaseOf name ≤ 1000 * (g.dts - f.dts)) ∧
    (max s.probeDuration 200 * timebaseOf name + fs.length * (timebaseOf name - 1000) ≤ 1000 * (g.dts - f.dts) → s'.completed = true) := by
  have hx := C106_exact hn hr hp hid hd ho he h1 hc hg
  rw [hf] at hx
  have hch : ((f :: fs).map (·.dts)).IsChain (fun x y => x ≤ y) := by
    rw [List.isChain_map, ← hf]
    refine ((hd.apart b).drop _).imp fun x y hxy => ?_
    simp only [Nat.cast_zero, Int.zero_mul] at hxy
    omega
  rw [List.map_cons] at hch hx
  obtain ⟨_, b2, b3, b4, _⟩ := wholeMs_bounds (timebaseOf_cases name) 0 (fs.map (·.dts)) f.dts hch
  have hl := frames_last hg hf (by simp)
  simp only [List.map_cons] at hl
  rw [hl] at b3 b4
  rw [List.length_map] at b4
  rw [hx]
  generalize wholeMs (timebaseOf name) (f.dts :: fs.map (·.dts)) = w at *
  generalize max s.probeDuration 200 = L at *
  rcases timebaseOf_cases name with e | e <;> rw [e] at b3 b4 ⊢ <;> constructor <;> intro _ <;> omega

/-- **C106** in full for FLV and JT1078, whose time base is the millisecond. -/
theorem C106_milliseconds {name : String} {a : Bool} {h : List (Oracle × DemuxOp)} {s s' : Demuxer} {o : Oracle} {e : DemuxOp}
    (hn : name = "flv" ∨ name = "jt1078")
    (hr : Reached name a h s) (hp : ∀ x ∈ h ++ [(o, e)], x.2.PacketOnly) (hid : ∀ x ∈ h ++ [(o, e)], x.1.preprocess = id)
    (hd : Paced 0 name (h ++ [(o, e)])) (ho : o.Valid) (he : e.IsPacket) (h1 : e.run o s = ok s') (hc : s.completed = false)
    {b : Int} {f g : Frame} {fs : List Frame} (hg : e.frame b = some g)
    (hf : (framesOf b (h ++ [(o, e)])).drop (refusals b s'.calls) = f :: fs) :
    s'.completed = true ↔ max s.probeDuration 200 ≤ g.dts - f.dts := by
  have hk : KnownName name := by rcases hn with e | e <;> simp [KnownName, e]
  have ht : timebaseOf name = 1000 := by rcases hn with e | e <;> rw [e] <;> decide
  obtain ⟨k1, k2⟩ := C106_not_early hk hr hp hid hd ho he h1 hc hg hf
  rw [ht] at k1 k2
  exact ⟨fun hx => by have := k1 hx; omega, fun hx => k2 (by omega)⟩

/-- An input that is paced and steady is light. -/
theorem steady_light {name : String} {h : List (Oracle × DemuxOp)} {s : Demuxer} {M : Nat → Nat} {k P : Nat} (hn : KnownName name) (hk : 0 < k)
    (hr : Reached name true h s) (hp : ∀ x ∈ h, x.2.PacketOnly) (hid : ∀ x ∈ h, x.1.preprocess = id) (hd : Paced k name h)
    (hP : ProbeAtMost P h) (hm : SteadyInput M (probePackets k P) h) : LightInput M [] (Demuxer.new name true) h := by
  have ho : Orderly s := Or.inl (C62_packet_input hr hp)
  have hinj := Demuxer.runDemux_injective (s := Demuxer.new name true) (Demuxer.Inv.new name true) hr.1 hp hr.2 List.nodup_nil
  have hkeep : KeepsData h := fun x hx p => by rw [hid x hx]; rfl
  refine light_of_room (fun i d hi => (hm.payload i d hi).1) ?_ h [] _ [] rfl rfl rfl hm.inOrder
  intro l1 x l2 s1 hh h1 i d hkx
  have hr1 : Reached name true l1 s1 := ⟨fun y hy => hr.1 y (by rw [hh]; exact List.mem_append_left _ hy), h1⟩
  have hpm : ((i : Int), d) ∈ payloads h := by
    rw [hh]; unfold payloads
    exact List.mem_filterMap.2 ⟨x, by simp, hkx⟩
  obtain ⟨hM, h4⟩ := hm.payload i d hpm
  have hq : queuedBytes i s1 ≤ probePackets k P * M i := by
    cases hc : s1.completed with
    | true =>
      have h5 := queued_after (M := M) hr1 (hh ▸ hr) ho hinj (hh ▸ hkeep) (fun j d' hj => (hm.payload j d' (hh ▸ hj)).1) hc i
      have : 1 * M i ≤ probePackets k P * M i := Nat.mul_le_mul_right _ (Nat.le_add_left 1 _)
      omega
    | false =>
      have hw : Waiting s1 := orderly_waiting hr1 (hh ▸ hr) ho hinj
      obtain ⟨_, q2⟩ := queued_le_input hr1 (fun y hy => hkeep y (by rw [hh]; exact List.mem_append_left _ hy)) hw i
      have hleft : ∀ y ∈ l1, y ∈ h := fun y hy => by rw [hh]; exact List.mem_append_left _ hy
      have hlen := C106_packets hn hk hr1 (fun y hy => hp y (hleft y hy)) (fun y hy => hid y (hleft y hy)) (by rw [hh] at hd; exact hd.prefix)
        (fun y hy => hP y (hleft y hy)) hc i
      refine queued_le_mul (fun p hp => (hm.payload i p.data (by rw [hh]; exact payloads_left (q2 p hp))).1) (Nat.le_trans ?_ hlen)
      have := congrArg List.length (hw i)
      simp only [List.length_map, List.length_drop] at this
      omega
  have e : (probePackets k P + 3) * M i = probePackets k P * M i + 3 * M i := Nat.add_mul ..
  omega

/-- **C106**, memory: if the packets of each buffer come at least `k` ms after one another, and each buffer has room for the packets that
probing keeps and three more, then the buffers keep the sizes that they were made with, no call panics, and the handler finds behind
every delivered packet the bytes of that packet. Nothing is assumed of the states of the demuxer. -/
theorem C106_memory {name : String} {h : List (Oracle × DemuxOp × List Bytes)} {s : Demuxer} {M : Nat → Nat} {k P : Nat} (m : Mem)
    (hn : KnownName name) (hk : 0 < k) (hr : Reached name true (operations h) s) (hp : ∀ x ∈ operations h, x.2.PacketOnly)
    (hid : ∀ x ∈ operations h, x.1.preprocess = id) (hd : Paced k name (operations h)) (hP : ProbeAtMost P (operations h))
    (hin : InPieces h) (hm : SteadyInput M (probePackets k P) (operations h)) :
    ∃ w, ({ dem := Demuxer.new name true, mem := m } : Wired).run h = ok w ∧ w.dem = s ∧
      w.got = (delivered s.calls).map (fun p => some p.data) ∧
      w.buf.buffers.map (·.data.len) = bufferSizes [] (operations h) := by
  obtain ⟨w, h1, h2, h3, _, h4⟩ := C78_orderly m hr (Or.inl (C62_packet_input hr hp))
    (Demuxer.runDemux_injective (s := Demuxer.new name true) (Demuxer.Inv.new name true) hr.1 hp hr.2 List.nodup_nil)
    (fun x hx p => by rw [hid x hx]; rfl) hin (steady_light hn hk hr hp hid hd hP hm)
  exact ⟨w, h1, h2, h3, h4⟩

/-- **C106**, files: under these conditions on the input the files are those of `C94_files`. -/
theorem C106_files {name : String} {h : List (Oracle × DemuxOp × List Bytes)} {s : Demuxer} {M : Nat → Nat} {k P : Nat} (m : Mem)
    (hn : name = "ps" ∨ name = "ts" ∨ name = "jt1078") (hk : 0 < k) (hr : Reached name true (operations h) s)
    (hp : ∀ x ∈ operations h, x.2.PacketOnly) (hid : ∀ x ∈ operations h, x.1.preprocess = id) (hkf : ∀ x ∈ operations h, x.2.KeyFramed)
    (hd : Paced k name (operations h)) (hP : ProbeAtMost P (operations h)) (hin : InPieces h)
    (hm : SteadyInput M (probePackets k P) (operations h)) (hc : s.completed = true) (path : List Char) (disk : Disk)
    (hnew : ∀ t ∈ s.tracks.tracks, ∀ n, FileHandler.fileName path t = ok n → disk.lookup n = none) :
    ∃ w o, ({ dem := Demuxer.new name true, mem := m } : Wired).run h = ok w ∧ w.dem = s ∧
      (FileHandler.new path disk).handleAll (asRead (toHandler w.dem.calls) w.got) = ok o ∧
      ∀ (i : Nat) t b, s.tracks.tracks[i]? = some t → ((i : Int), b) ∈ s.bufferOf → ∃ n, FileHandler.fileName path t = ok n ∧
        o.disk.lookup n = some ⟨132, ((framesOf b (operations h)).drop (refusals b s.calls)).dropLast.flatMap (inFile t)⟩ := by
  have hkn : KnownName name := by rcases hn with h | h | h <;> simp [KnownName, h]
  refine C94_files m hn hr hp hid hkf (fun b => ?_) hin (steady_light hkn hk hr hp hid hd hP hm) hc path disk hnew
  refine List.isChain_iff_pairwise.1 ((hd.apart b).imp fun f g hfg => ?_)
  have : (0 : Int) < (k : Int) * timebaseOf name := by
    rcases timebaseOf_cases name with e | e <;> rw [e] <;> omega
  omega

/-! ## A concrete case -/

/-- A sound packet each 100 ms. -/
def pacedRun : List (Oracle × DemuxOp × List Bytes) :=
  [(exOracle, .audioPacket 0 codecPCMS16LE [1, 2] 0, [[1, 2]]),
   (exOracle, .audioPacket 0 codecPCMS16LE [3, 4] 9000, [[3], [4]]),
   (exOracle, .audioPacket 0 codecPCMS16LE [5, 6] 18000, [[5, 6]]),
   (exOracle, .audioPacket 0 codecPCMS16LE [7, 8] 27000, [[7, 8]])]

theorem pacedRun_frames (b : Int) : framesOf b (operations pacedRun) =
    if b = 0 then [⟨false, false, [1, 2], 0⟩, ⟨false, false, [3, 4], 9000⟩, ⟨false, false, [5, 6], 18000⟩, ⟨false, false, [7, 8], 27000⟩] else [] := by
  by_cases h : b = 0
  · subst h; rfl
  · rw [if_neg h]
    simp [framesOf, operations, pacedRun, DemuxOp.frame, Ne.symm h]

theorem pacedRun_paced : Paced 100 "ts" (operations pacedRun) := by
  have htb : timebaseOf "ts" = 90000 := by decide
  refine ⟨fun b => ?_, fun b => ?_⟩ <;> rw [pacedRun_frames] <;> split
  · rw [htb]; simp
  · exact .nil
  · simp
  · simp

theorem pacedRun_steady : SteadyInput (fun _ => 2) (probePackets 100 0) (operations pacedRun) := by
  have hz : bufferSizes [] (operations pacedRun) = [576000] := by decide +kernel
  have hpl : payloads (operations pacedRun) = [(0, [1, 2]), (0, [3, 4]), (0, [5, 6]), (0, [7, 8])] := by decide +kernel
  refine ⟨by rw [hpl]; simp [UsedInOrder], fun i d hi => ?_⟩
  rw [hpl] at hi
  have : i = 0 ∧ d.length = 2 := by
    simp only [List.mem_cons, Prod.mk.injEq, List.not_mem_nil, or_false] at hi
    rcases hi with ⟨h1, rfl⟩ | ⟨h1, rfl⟩ | ⟨h1, rfl⟩ | ⟨h1, rfl⟩ <;> exact ⟨by omega, rfl⟩
  obtain ⟨rfl, hl⟩ := this
  rw [hz, hl]
  decide

theorem pacedRun_result : ∃ s, Reached "ts" true (operations pacedRun) s ∧ s.completed = true ∧
    (delivered s.calls).map (·.data) = [[1, 2], [3, 4], [5, 6]] := by
  have h : (runDemux (Demuxer.new "ts" true) (operations pacedRun) >>= fun s => ok (decide (s.completed = true ∧
      (delivered s.calls).map (·.data) = [[1, 2], [3, 4], [5, 6]]))) = ok true := by decide +kernel
  obtain ⟨s, h1, h2⟩ := bind_eq_ok.1 h
  simp only [Go.ok.injEq, decide_eq_true_eq] at h2
  refine ⟨s, ⟨fun x hx => ?_, h1⟩, h2.1, h2.2⟩
  have : x.1 = exOracle := by revert x; simp [operations, pacedRun]
  rw [this]; exact exOracle_valid

/-- The hypotheses of `C106_memory` hold of `pacedRun`; probing keeps at most two packets of a buffer. -/
example (m : Mem) : probePackets 100 0 = 2 ∧ ∃ w, ({ dem := Demuxer.new "ts" true, mem := m } : Wired).run pacedRun = ok w ∧
    w.got = [some [1, 2], some [3, 4], some [5, 6]] ∧ w.buf.buffers.map (·.data.len) = [576000] := by
  refine ⟨by decide, ?_⟩
  obtain ⟨s, hr, _, hdel⟩ := pacedRun_result
  have hx : ∀ x ∈ operations pacedRun, x.1 = exOracle := by simp [operations, pacedRun]
  obtain ⟨w, h1, _, h2, h3⟩ := C106_memory m (k := 100) (P := 0) (by simp [KnownName]) (by decide) hr (by simp [operations, pacedRun, DemuxOp.PacketOnly])
    (fun x h => by rw [hx x h]; rfl) pacedRun_paced (by simp [ProbeAtMost, operations, pacedRun])
    (by intro x hx b d hk
        simp only [pacedRun, List.mem_cons, List.not_mem_nil, or_false] at hx
        rcases hx with rfl | rfl | rfl | rfl <;> simp [DemuxOp.block] at hk ⊢ <;> simp [← hk.2])
    pacedRun_steady
  refine ⟨w, h1, ?_, by rw [h3]; decide +kernel⟩
  have := congrArg (List.map some) hdel
  rw [List.map_map] at this
  rw [h2]; exact this

/-! ## Probing lasts longer than the time to probe -/

/-- 100.99 ms and 99.99 ms are counted as 199 ms; a tick more and they are 200 ms. -/
example : wholeMs 90000 [0, 9089, 18088] = 199 ∧ wholeMs 90000 [0, 9089, 18089] = 200 ∧ wholeMs 1000 [0, 90, 199] = 199 := by decide

/-- `C106_exact` and `C106_not_early` of a third packet: it ends probing at tick 18089, not at 18088. -/
example (t : Int) (ht : 9089 ≤ t) (ht' : t ≤ 2 ^ 50) (s s' : Demuxer)
    (h1 : Reached "ts" true [(exOracle, .audioPacket 0 codecPCMS16LE [1] 0), (exOracle, .audioPacket 0 codecPCMS16LE [2] 9089)] s)
    (h2 : (DemuxOp.audioPacket 0 codecPCMS16LE [3] t).run exOracle s = ok s') (hc : s.completed = false) (hpr : s.probeDuration = 0)
    (hrf : refusals 0 s'.calls = 0) : s'.completed = true ↔ 18089 ≤ t := by
  have htb : timebaseOf "ts" = 90000 := by decide
  have hfr : ∀ b, framesOf b ([(exOracle, DemuxOp.audioPacket 0 codecPCMS16LE [1] 0), (exOracle, .audioPacket 0 codecPCMS16LE [2] 9089)] ++
      [(exOracle, .audioPacket 0 codecPCMS16LE [3] t)]) =
      if b = 0 then [⟨false, false, [1], 0⟩, ⟨false, false, [2], 9089⟩, ⟨false, false, [3], t⟩] else [] := by
    intro b
    by_cases hb : b = 0
    · subst hb; rfl
    · rw [if_neg hb]
      simp [framesOf, DemuxOp.frame, Ne.symm hb]
  have := C106_exact (by simp [KnownName]) h1 (by simp [DemuxOp.PacketOnly]) (by simp; rfl)
    ⟨fun b => by rw [hfr]; split <;> simp [ht], fun b => by
      rw [hfr]; split
      · simp only [List.mem_cons, List.not_mem_nil, or_false]
        rintro f (rfl | rfl | rfl) <;> constructor <;> dsimp only <;> omega
      · simp⟩
    exOracle_valid (e := .audioPacket 0 codecPCMS16LE [3] t) trivial h2 hc (b := 0) (g := ⟨false, false, [3], t⟩) rfl
  rw [this, hpr, hrf, hfr, if_pos rfl, htb, List.drop_zero]
  simp only [List.map_cons, List.map_nil, wholeMs]
  omega

/-- **C106** without the millisecond: a packet ends probing if and only if it comes the time to probe after the first packet of its buffer
that was not refused. -/
def C106_claim : Prop :=
  ∀ name a h s, Reached name a h s → (∀ x ∈ h, x.2.PacketOnly) → (∀ x ∈ h, x.1.preprocess = id) → s.completed = false → ∀ o : Oracle, o.Valid →
    o.preprocess = id → ∀ e : DemuxOp, e.IsPacket → Paced 0 name (h ++ [(o, e)]) → ∀ s', e.run o s = ok s' → ∀ b f g fs, e.frame b = some g →
    (framesOf b h).drop (refusals b s.calls) = f :: fs →
    (s'.completed = true ↔ max s.probeDuration 200 * timebaseOf name ≤ 1000 * (g.dts - f.dts))

/-- It is not so: each duration is cut to whole milliseconds before they are added. Here 100.99 ms and 99.99 ms are 199 ms. -/
theorem C106_claim_violated : ¬ C106_claim := by
  intro hcl
  let h : List (Oracle × DemuxOp) := [(exOracle, .audioPacket 0 codecPCMS16LE [1] 0), (exOracle, .audioPacket 0 codecPCMS16LE [2] 9089)]
  have hfr : ∀ b e, framesOf b (h ++ [(exOracle, .audioPacket 0 codecPCMS16LE [3] e)]) =
      if b = 0 then [⟨false, false, [1], 0⟩, ⟨false, false, [2], 9089⟩, ⟨false, false, [3], e⟩] else [] := by
    intro b e
    by_cases hb : b = 0
    · subst hb; rfl
    · rw [if_neg hb]
      simp [h, framesOf, DemuxOp.frame, Ne.symm hb]
  have hrun : (runDemux (Demuxer.new "ts" true) h >>= fun s => (DemuxOp.audioPacket 0 codecPCMS16LE [3] 18088).run exOracle s >>= fun s' =>
      ok (s.completed, s'.completed, s.probeDuration, refusals 0 s.calls)) = ok (false, false, 0, 0) := by decide +kernel
  obtain ⟨s, h1, hrun⟩ := bind_eq_ok.1 hrun
  obtain ⟨s', h2, hrun⟩ := bind_eq_ok.1 hrun
  simp only [Go.ok.injEq, Prod.mk.injEq] at hrun
  obtain ⟨e1, e2, e3, e4⟩ := hrun
  have hx : ∀ x ∈ h, x.1 = exOracle := by simp [h]
  have := hcl "ts" true h s ⟨fun x hm => by rw [hx x hm]; exact exOracle_valid, h1⟩ (by simp [h, DemuxOp.PacketOnly])
    (fun x hm => by rw [hx x hm]; rfl) e1 exOracle exOracle_valid rfl (.audioPacket 0 codecPCMS16LE [3] 18088) trivial
    ⟨fun b => by rw [hfr]; split <;> simp, fun b => by rw [hfr]; split <;> simp⟩ s' h2 0 ⟨false, false, [1], 0⟩ ⟨false, false, [3], 18088⟩
    [⟨false, false, [2], 9089⟩] rfl (by rw [e4]; rfl)
  rw [e2, e3] at this
  have htb : timebaseOf "ts" = 90000 := by decide
  rw [htb] at this
  revert this
  decide

end Avf
