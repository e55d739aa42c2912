import Verif.Lemmas.PacketPool
/-! # C58: the packet pool -/
namespace Avf
open Go PacketPool

/-- **C58**: at any time the live packets are different objects. -/
theorem C58_distinct {s : PacketPool} {live : List Nat} (h : PoolRun s live) : live.Nodup := h.inv.distinct

/-- **C58**: a new video packet is an object that nobody owns, has exactly the requested fields and nothing else, and the
live packets do not change. -/
theorem C58_video {s : PacketPool} {live : List Nat} (h : PoolRun s live) (pick : Option Nat) (data : Bytes) (dts pts : Int)
    (key : Bool) (t : Byte) (id index timebase : Int) :
    let r := s.newVideoPacket pick data dts pts key t id index timebase
    r.1 ∉ live ∧
    r.2.objs[r.1]? = some
      { data := data, pts := pts, dts := dts, duration := 0, key := key, createdTime := 0, bufferIndex := 0, index := index,
        timebase := timebase, mediaType := 0, codecID := id, packetType := t, dataAVCC := none, dataAnnexB := none,
        onBufferAlloc := none } ∧
    ∀ q ∈ live, r.2.objs[q]? = s.objs[q]? := by
  obtain ⟨h1, ⟨x, hx, hb⟩, h3⟩ := modify_new h.inv pick fun x =>
    { x with data := data, dts := dts, pts := pts, key := key, packetType := t, codecID := id, index := index,
             timebase := timebase, mediaType := mediaVideo }
  refine ⟨(List.nodup_cons.1 h1.distinct).1, ?_, h3⟩
  refine hx.trans ?_
  rcases hb with rfl | rfl <;> rfl

/-- **C58**: the same for a new audio packet. Its packet type is 0 or `PacketTypeNONE`. -/
theorem C58_audio {s : PacketPool} {live : List Nat} (h : PoolRun s live) (pick : Option Nat) (data : Bytes)
    (ts id index timebase : Int) :
    let r := s.newAudioPacket pick data ts id index timebase
    r.1 ∉ live ∧
    (∃ t : Byte, (t = 0 ∨ t = 3) ∧ r.2.objs[r.1]? = some
      { data := data, pts := ts, dts := ts, duration := 0, key := false, createdTime := 0, bufferIndex := 0, index := index,
        timebase := timebase, mediaType := 1, codecID := id, packetType := t, dataAVCC := none, dataAnnexB := none,
        onBufferAlloc := none }) ∧
    ∀ q ∈ live, r.2.objs[q]? = s.objs[q]? := by
  obtain ⟨h1, ⟨x, hx, hb⟩, h3⟩ := modify_new h.inv pick fun x =>
    { x with data := data, dts := ts, pts := ts, codecID := id, index := index, timebase := timebase, mediaType := mediaAudio }
  refine ⟨(List.nodup_cons.1 h1.distinct).1, ?_, h3⟩
  rcases hb with rfl | rfl
  · exact ⟨0, Or.inl rfl, hx.trans rfl⟩
  · exact ⟨3, Or.inr rfl, hx.trans rfl⟩

/-- **C58**: freeing a packet changes no other. -/
theorem C58_free (s : PacketPool) (p q : Nat) (h : q ≠ p) : (s.freePacket p).objs[q]? = s.objs[q]? := by
  show (List.modify _ _ _)[q]? = _
  rw [modify_other _ (Ne.symm h)]

/-- **C58**: what `FreePacket` leaves of a packet: nothing, but the packet type is `PacketTypeNONE` (3) and the media type is
`AVMediaTypeUnknown` (-1). -/
theorem C58_freed (s : PacketPool) (p : Nat) (x : AVPacket) (h : s.objs[p]? = some x) :
    (s.freePacket p).objs[p]? = some
      { data := [], pts := 0, dts := 0, duration := 0, key := false, createdTime := 0, bufferIndex := 0, index := 0,
        timebase := 0, mediaType := -1, codecID := 0, packetType := 3, dataAVCC := none, dataAnnexB := none,
        onBufferAlloc := none } := by
  show (List.modify _ _ _)[p]? = _
  rw [List.getElem?_modify_eq, h]
  rfl

/-- A history: a video packet, freed, and its object used again for audio (packet type 3, not 0). -/
example : ∃ s live, PoolRun s live ∧ live = [0] ∧
    (s.objs.map fun x => (x.data, x.key, x.packetType, x.mediaType)) = [([7, 8], false, 3, 1)] :=
  ⟨_, _, .audio (some 0) [7, 8] 40 codecAAC 1 1000
    (.free 0 (.use 0 (fun x => { x with dataAVCC := some [1], bufferIndex := 9 })
      (.video none [1, 2] 3 4 true packAVCC codecH264 0 90000 .init) (by decide)) (by decide)), by decide, by decide⟩

/-- The hypothesis that packets are freed once is needed: after a double free the pool hands the same object out twice. -/
theorem C58_double_free : ∃ s : PacketPool, ∃ p, ∃ s' : PacketPool, PoolRun s [p] ∧ s' = (s.freePacket p).freePacket p ∧
    let r := s'.newAudioPacket (some 0) [1] 0 0 0 0
    (r.2.newAudioPacket (some 0) [2] 0 0 0 0).1 = r.1 :=
  ⟨_, _, _, .audio none [] 0 0 0 0 .init, rfl, by decide⟩

end Avf
