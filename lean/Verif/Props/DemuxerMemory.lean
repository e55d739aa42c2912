import Verif.Lemmas.DemuxerMemory
import Verif.Props.DemuxerTotal
/-!
# C78: the demuxer on a real pipeline

What the handler reads behind the slice of a packet, at the moment of the delivery, is the payload that the caller wrote.
-/
namespace Avf
open Go

/-- **C78** For packet input under light load, any oracle that keeps the data, any DTS, any cutting of the payloads into pieces and
any memory to begin with: the demuxer on a `StreamsBuffer` does what the demuxer does on slices that never change, no call
panics, the handler finds behind every delivered packet the bytes of that packet, and the slices of the packets that wait are
intact. -/
theorem C78_delivered_bytes {name : String} {h : List (Oracle × DemuxOp × List Bytes)} {s : Demuxer} {M : Nat → Nat} (m : Mem)
    (hr : Reached name true (operations h) s) (hp : ∀ x ∈ operations h, x.2.PacketOnly) (hd : KeepsData (operations h)) (hin : InPieces h)
    (hl : LightInput M [] (Demuxer.new name true) (operations h)) :
    ∃ w, ({ dem := Demuxer.new name true, mem := m } : Wired).run h = ok w ∧ w.dem = s ∧
      w.got = (delivered s.calls).map (fun p => some p.data) ∧
      (∀ b, (w.refs.filter fun x => x.1.bufferIndex = b).map (fun x => w.mem.read x.2) = (ofBuffer b s.packets.flatten).map AVPacket.data) ∧
      w.buf.buffers.map (·.data.len) = bufferSizes [] (operations h) :=
  wired_all m hr (fun l1 l2 s1 e hr1 b => queue_suffix hr1 (fun x hx => hp x (by rw [e]; exact List.mem_append_left _ hx)) b) hd hin hl

/-! ## A concrete case -/

/-- `LightInput`, computed. -/
def lightInput (M : Nat → Nat) : List Nat → Demuxer → List (Oracle × DemuxOp) → Bool
  | _, _, [] => true
  | caps, s, (o, e) :: rest =>
    match e.block with
    | none => match e.run o s with
      | ok s' => lightInput M caps s' rest
      | _ => true
    | some (b, d) =>
      let caps' := if b.toNat < caps.length then caps else caps ++ [if e.isVideo then 2097152 else 576000]
      decide (0 ≤ b) && decide (b.toNat ≤ caps.length) && decide (d.length ≤ M b.toNat) &&
        decide (queuedBytes b s + d.length + 2 * M b.toNat ≤ caps'.getD b.toNat 0) &&
        match e.run o s with
        | ok s' => lightInput M caps' s' rest
        | _ => true

theorem lightInput_sound {M : Nat → Nat} {h : List (Oracle × DemuxOp)} : ∀ {caps : List Nat} {s : Demuxer}, lightInput M caps s h = true →
    LightInput M caps s h := by
  induction h with
  | nil => intros; trivial
  | cons x h ih =>
    intro caps s hl
    obtain ⟨o, e⟩ := x
    unfold lightInput at hl
    unfold LightInput
    cases hk : e.block with
    | none =>
      rw [hk] at hl
      intro s' hs
      simp only [hs] at hl
      exact ih hl
    | some x =>
      obtain ⟨b, d⟩ := x
      rw [hk] at hl
      simp only [Bool.and_eq_true, decide_eq_true_eq] at hl
      obtain ⟨⟨⟨⟨h1, h2⟩, h3⟩, h4⟩, h5⟩ := hl
      obtain ⟨i, rfl⟩ := Int.eq_ofNat_of_zero_le h1
      rw [Int.toNat_natCast] at h2 h3 h4 h5
      refine ⟨i, _, if i < caps.length then caps else caps ++ [if e.isVideo then 2097152 else 576000], rfl, ?_, ?_, h3, h4, ?_⟩
      · by_cases hi : i < caps.length
        · exact Or.inl ⟨hi, if_pos hi⟩
        · exact Or.inr ⟨by omega, if_neg hi⟩
      · have hlt : i < (if i < caps.length then caps else caps ++ [if e.isVideo then 2097152 else 576000]).length := by
          split_ifs with hi
          · exact hi
          · simp; omega
          · simp; omega
        rw [List.getD_eq_getElem?_getD, List.getElem?_eq_getElem hlt]
        rfl
      · intro s' hs
        simp only [hs] at h5
        exact ih h5

/-- A key frame in three pieces, sound, a packet that is given back, two frames with earlier DTS; then probing ends and another
frame comes. -/
def wiredRun : List (Oracle × DemuxOp × List Bytes) :=
  [(exOracle, .videoPacket 0 codecH264 (annexB exUnits) true 90 90, [(annexB exUnits).take 5, [], (annexB exUnits).drop 5]),
   (exOracle, .audioPacket 1 codecPCMS16LE [1, 2] 0, [[1, 2]]),
   (exOracle, .audioPacket 2 codecAAC [9] 0, [[9]]),
   (exOracle, .videoPacket 0 codecH264 [3, 4, 5] false 30 30, [[3], [4, 5]]),
   (exOracle, .videoPacket 0 codecH264 [7] false 60 60, [[7]]),
   (exOracle, .probeComplete, []),
   (exOracle, .videoPacket 0 codecH264 [6] false 130 130, [[6]])]

theorem wiredRun_exists : ∃ s, Reached "ts" true (operations wiredRun) s ∧
    (delivered s.calls).map AVPacket.data = [[3, 4, 5], annexB exUnits, [7]] ∧
    LightInput (fun _ => 40) [] (Demuxer.new "ts" true) (operations wiredRun) := by
  have h : (runDemux (Demuxer.new "ts" true) (operations wiredRun) >>= fun s => ok ((delivered s.calls).map AVPacket.data)) =
    ok [[3, 4, 5], annexB exUnits, [7]] := by decide +kernel
  obtain ⟨s, h1, h2⟩ := bind_eq_ok.1 h
  injection h2 with h2
  refine ⟨s, ⟨fun x hx => ?_, h1⟩, h2, lightInput_sound (by decide +kernel)⟩
  have : x.1 = exOracle := by revert x; simp [operations, wiredRun]
  rw [this]; exact exOracle_valid

/-- All hypotheses hold of `wiredRun`: the handler reads the three delivered payloads. -/
example (m : Mem) : ∃ w, ({ dem := Demuxer.new "ts" true, mem := m } : Wired).run wiredRun = ok w ∧
    w.got = [some [3, 4, 5], some (annexB exUnits), some [7]] := by
  obtain ⟨s, hr, hd, hl⟩ := wiredRun_exists
  obtain ⟨w, h1, _, h2, _⟩ := C78_delivered_bytes m hr (by simp [operations, wiredRun, DemuxOp.PacketOnly])
    (by intro x hx p; have : x.1 = exOracle := by { revert x; simp [operations, wiredRun] }
        rw [this]; rfl)
    (by intro x hx b d hk
        simp only [wiredRun, List.mem_cons, List.not_mem_nil, or_false] at hx
        rcases hx with rfl | rfl | rfl | rfl | rfl | rfl | rfl <;> simp [DemuxOp.block] at hk ⊢ <;> simp [← hk.2])
    hl
  refine ⟨w, h1, ?_⟩
  have := congrArg (List.map some) hd
  rw [List.map_map] at this
  rw [h2]; exact this

/-! ## The direct pipeline -/

/-- The same of `DirectDataPipeline`, without a bound on the load. -/
def C78_direct_claim : Prop :=
  ∀ (name : String) (h : List (Oracle × DemuxOp × List Bytes)) (s : Demuxer), Reached name true (operations h) s →
    (∀ x ∈ operations h, x.2.PacketOnly) → KeepsData (operations h) → InPieces h →
    ∃ w, ({ dem := Demuxer.new name true } : DirectWired).run h = ok w ∧ w.dem = s ∧
      w.got = (delivered s.calls).map (fun p => some p.data)

/-- Two packets. -/
def directRun : List (Oracle × DemuxOp × List Bytes) :=
  [(exOracle, .audioPacket 0 codecPCMS16LE [1, 2] 0, [[1, 2]]), (exOracle, .audioPacket 0 codecPCMS16LE [3, 4] 10, [[3, 4]]),
   (exOracle, .probeComplete, [])]

/-- With `DirectDataPipeline` it is false: a packet is delivered when the next one comes, and that was written over it. -/
theorem C78_direct_claim_violated : ¬ C78_direct_claim := by
  intro hc
  have h : (runDemux (Demuxer.new "ts" true) (operations directRun) >>= fun s => ok ((delivered s.calls).map AVPacket.data)) =
    ok [[1, 2]] := by decide +kernel
  obtain ⟨s, h1, h2⟩ := bind_eq_ok.1 h
  injection h2 with h2
  have hx : ∀ x ∈ operations directRun, x.1 = exOracle := by simp [operations, directRun]
  obtain ⟨w, h3, _, h4⟩ := hc "ts" directRun s ⟨fun x h => by rw [hx x h]; exact exOracle_valid, h1⟩
    (by simp [operations, directRun, DemuxOp.PacketOnly]) (fun x h p => by rw [hx x h]; rfl)
    (by intro x hx b d hk
        simp only [directRun, List.mem_cons, List.not_mem_nil, or_false] at hx
        rcases hx with rfl | rfl | rfl <;> simp [DemuxOp.block] at hk ⊢ <;> simp [← hk.2])
  have h5 : (({ dem := Demuxer.new "ts" true } : DirectWired).run directRun >>= fun w => ok w.got) = ok [some [3, 4]] := by decide +kernel
  rw [h3] at h5
  injection h5 with h5
  have := congrArg (List.map some) h2
  rw [List.map_map] at this
  rw [h4] at h5
  have : [some [1, 2]] = [some ([3, 4] : Bytes)] := this.symm.trans h5
  exact absurd this (by decide)

end Avf
