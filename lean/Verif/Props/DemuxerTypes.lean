import Mathlib.Data.List.NodupEquivFin
import Mathlib.Data.List.Perm.Subperm
import Verif.Lemmas.DemuxerPlaces
/-! # C75: one track of each type -/
namespace Avf
open Go

/-- **C75**, second part, in full: except in TS there is at most one track of each type. -/
def C75_claim : Prop := ∀ name a h s, Reached name a h s → name ≠ "ts" → OnePerType s

/-- **C75** when audio comes on one buffer and video on another, as with `FindBufferIndexByMediaType`. What is missing is packets on
more buffers: their tracks are made without looking at the type. -/
theorem C75_one_per_type_partial {name : String} {a : Bool} {h : List (Oracle × DemuxOp)} {s : Demuxer} (hr : Reached name a h s)
    (hn : name ≠ "ts") {ba bv : Int} (hb : ∀ x ∈ h, x.2.OnBuffers ba bv) : OnePerType s :=
  (Demuxer.runDemux_types (reached_new name a) (Demuxer.Types.new name a ba bv) hn hr.1 hb hr.2).one

/-- **C75** is false of the code: two audio packets on two buffers. -/
theorem C75_claim_violated : ¬ C75_claim := by
  intro hcl
  have h : (runDemux (Demuxer.new "ps" true) [(exOracle, .audioPacket 0 codecG726 [1] 0), (exOracle, .audioPacket 1 codecG726 [1] 0)] >>= fun s => do
      return (s.tracks.tracks.filter fun t => t.mediaType = mediaAudio).length) = ok 2 := by decide +kernel
  obtain ⟨s, h1, h⟩ := bind_eq_ok.1 h
  simp only [pure_def, Go.ok.injEq] at h
  have := hcl _ _ _ s ⟨by intro x hx; simp only [List.mem_cons, List.not_mem_nil, or_false] at hx; rcases hx with rfl | rfl <;> exact exOracle_valid, h1⟩
    (by decide) mediaAudio
  omega

/-- An FLV run: a second announcement of audio has no effect but the block that is given back; in TS it makes a second track. -/
example :
    (runDemux (Demuxer.new "flv" true) [(exOracle, .newAudioTrack 0 codecAAC 1000 (some [0x12, 0x10]) {})] >>= fun s =>
      s.onNewAudioTrack 0 codecG726 1000 (some [1]) {} >>= fun r => do
        return (s.tracks.tracks.map (fun t => (t.sampleRate, t.channels)), r.1.isNone, r.2.tracks.tracks.length, r.2.calls.length)) =
      ok ([(44100, 2)], true, 1, 2) ∧
    (runDemux (Demuxer.new "ts" true) [(exOracle, .newAudioTrack 0 codecAAC 1000 (some [0x12, 0x10]) {})] >>= fun s =>
      s.onNewAudioTrack 0 codecG726 1000 none {} >>= fun r => do
        return (r.1.isNone, r.2.tracks.tracks.length, r.2.calls.length)) = ok (false, 2, 1) := by
  constructor <;> decide +kernel

/-- **C75** for every history of a demuxer that is not TS, whatever the buffers: two tracks of one type are never on one buffer; every
track is of the type and on the buffer of an operation of the history, and if there is an earlier track of its type, then that
operation is a packet and not an announcement. -/
theorem C75_places {name : String} {a : Bool} {h : List (Oracle × DemuxOp)} {s : Demuxer} (hr : Reached name a h s) (hn : name ≠ "ts") :
    (places s).length = s.tracks.tracks.length ∧ (places s).Nodup ∧
    ∀ (j : Nat) (p : Int × Int), (places s)[j]? = some p → ∃ x ∈ h, x.2.place = some p ∧
      ((∃ (i : Nat) (q : Int × Int), i < j ∧ (places s)[i]? = some q ∧ q.1 = p.1) → x.2.PacketOnly) := by
  have := Demuxer.runDemux_placed (reached_new name a) (Demuxer.Placed.new name a) hn hr.1 hr.2
  exact ⟨Demuxer.places_length this.inv, this.nodup, this.source⟩

/-- **C75** for every history of a demuxer that is not TS: there are at most as many tracks of a type as buffers on which that type
has come; only one, if nothing but announcements has come. -/
theorem C75_count {name : String} {a : Bool} {h : List (Oracle × DemuxOp)} {s : Demuxer} (hr : Reached name a h s) (hn : name ≠ "ts")
    (m : Int) : (s.tracks.tracks.filter fun t => t.mediaType = m).length ≤ (buffersOf m (h.map Prod.snd)).length ∧
      ((∀ x ∈ h, x.2.place ≠ none → ¬ x.2.PacketOnly) → (s.tracks.tracks.filter fun t => t.mediaType = m).length ≤ 1) := by
  have hp := Demuxer.runDemux_placed (reached_new name a) (Demuxer.Placed.new name a) hn hr.1 hr.2
  rw [Demuxer.places_filter hp.inv]
  constructor
  · refine List.Subperm.length_le (List.subperm_of_subset ?_ ?_)
    · refine (List.nodup_map_iff_inj_on (hp.nodup.filter _)).2 ?_
      rintro ⟨x1, x2⟩ hx ⟨y1, y2⟩ hy e
      simp only [List.mem_filter, decide_eq_true_eq] at hx hy
      rw [Prod.mk.injEq]
      exact ⟨hx.2.trans hy.2.symm, e⟩
    · intro b hb
      obtain ⟨⟨k, b'⟩, hm, rfl⟩ := List.mem_map.1 hb
      simp only [List.mem_filter, decide_eq_true_eq] at hm
      obtain ⟨hm, rfl⟩ := hm
      obtain ⟨j, hj⟩ := List.mem_iff_getElem?.1 hm
      obtain ⟨x, hx, h1, _⟩ := hp.source j _ hj
      exact Demuxer.mem_buffersOf (List.mem_map_of_mem (f := Prod.snd) hx) h1
  · intro hann
    rw [List.length_map]
    by_contra hgt
    have hsub : List.Sublist ((places s).filter fun p => p.1 = m) (places s) := List.filter_sublist
    obtain ⟨f, hf⟩ := List.sublist_iff_exists_orderEmbedding_getElem?_eq.1 hsub
    have h0 : 0 < ((places s).filter fun p => p.1 = m).length := by omega
    have h1 : 1 < ((places s).filter fun p => p.1 = m).length := by omega
    have e0 := hf 0
    have e1 := hf 1
    rw [List.getElem?_eq_getElem h0] at e0
    rw [List.getElem?_eq_getElem h1] at e1
    have m0 := List.getElem_mem h0
    have m1 := List.getElem_mem h1
    simp only [List.mem_filter, decide_eq_true_eq] at m0 m1
    obtain ⟨x, hx, h2, h3⟩ := hp.source _ _ e1.symm
    exact hann x hx (by rw [h2]; simp) (h3 ⟨f 0, _, f.strictMono (by omega), e0.symm, by rw [m0.2, m1.2]⟩)

/-- A PS run with audio on two buffers: the second announcement does nothing, a packet on the second buffer makes a second track. -/
example : ∃ s, Reached "ps" true [(exOracle, .newAudioTrack 0 codecG726 90000 none {}), (exOracle, .newAudioTrack 1 codecG726 90000 none {}),
      (exOracle, .audioPacket 1 codecG726 [1] 0), (exOracle, .audioPacket 0 codecG726 [1] 0)] s ∧
    places s = [(mediaAudio, 0), (mediaAudio, 1)] ∧
    buffersOf mediaAudio [.newAudioTrack 0 codecG726 90000 none {}, .newAudioTrack 1 codecG726 90000 none {}, .audioPacket 1 codecG726 [1] 0,
      .audioPacket 0 codecG726 [1] 0] = [1, 0] := by
  have h : (runDemux (Demuxer.new "ps" true) [(exOracle, .newAudioTrack 0 codecG726 90000 none {}), (exOracle, .newAudioTrack 1 codecG726 90000 none {}),
      (exOracle, .audioPacket 1 codecG726 [1] 0), (exOracle, .audioPacket 0 codecG726 [1] 0)] >>= fun s => do return places s) =
      ok [(mediaAudio, 0), (mediaAudio, 1)] := by decide +kernel
  obtain ⟨s, h1, h⟩ := bind_eq_ok.1 h
  simp only [pure_def, Go.ok.injEq] at h
  refine ⟨s, ⟨?_, h1⟩, h, by decide +kernel⟩
  intro x hx
  simp only [List.mem_cons, List.not_mem_nil, or_false] at hx
  rcases hx with rfl | rfl | rfl | rfl <;> exact exOracle_valid

end Avf
