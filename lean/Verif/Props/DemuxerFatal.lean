import Verif.Lemmas.DemuxerFatal
import Verif.Props.DemuxerTotal
/-! # C30, C39, C40, C72: exactly which payloads make the code panic -/
namespace Avf
open Go

/-! ## Splitting and parameter sets -/

/-- **C30** in full: what `SplitNalU` hands out for any string of at least three bytes; for a shorter one see
`C30_short_panics`. -/
theorem C30_exact (p : Bytes) (ss : List Bytes) : splitNalU p = ok ss ↔ Pieces p ss := by
  constructor
  · intro h
    have hl : 3 ≤ p.length := by
      refine Decidable.by_contra fun hl => ?_
      rw [C30_short_panics p (by omega)] at h
      cases h
    obtain ⟨ts, ht⟩ := pieces_exists p hl
    rw [splitNalU_pieces ht] at h
    injection h with h
    rw [← h]; exact ht
  · exact splitNalU_pieces

/-- Every string of at least three bytes has pieces, and only in one way. -/
theorem pieces_existsUnique (p : Bytes) (hl : 3 ≤ p.length) : ∃ ss, Pieces p ss ∧ ∀ ts, Pieces p ts → ts = ss := by
  obtain ⟨ss, h⟩ := pieces_exists p hl
  exact ⟨ss, h, fun ts ht => pieces_unique ht h⟩

/-- **C39** for every payload, well framed or not: `ParseExtraDataFromKeyNALU` takes of each kind the last unit, unless some
piece has no unit. -/
theorem C39_exact (p : Bytes) (ss : List Bytes) (h : Pieces p ss) :
    avcParseExtraData p = if ∃ s ∈ ss, BadPiece s then Go.panic
      else match lastUnit avcUnitType 7 (ss.map unitIn), lastUnit avcUnitType 8 (ss.map unitIn) with
      | some sps, some pps => ok (sps, pps)
      | _, _ => err "not find extra data for H264" := avcParse_pieces h

/-- **C40** for every payload. -/
theorem C40_exact (p : Bytes) (ss : List Bytes) (h : Pieces p ss) :
    hevcParseExtraData p = if ∃ s ∈ ss, BadPiece s then Go.panic
      else match lastUnit hevcUnitType 32 (ss.map unitIn), lastUnit hevcUnitType 33 (ss.map unitIn), lastUnit hevcUnitType 34 (ss.map unitIn) with
      | some vps, some sps, some pps => ok (vps, sps, pps)
      | _, _, _ => err "not find extra data for H265" := hevcParse_pieces h

/-- **C39**, **C40**: the payloads that make the search panic. -/
theorem C39_panics_iff (p : Bytes) : avcParseExtraData p = Go.panic ↔ BadUnits p := by
  by_cases hl : p.length < 3
  · exact ⟨fun _ => Or.inl hl, fun _ => by rw [avcParseExtraData, C30_short_panics p hl]; rfl⟩
  · obtain ⟨ss, h⟩ := pieces_exists p (by omega)
    rw [badUnits_pieces h, avcParse_pieces h]
    by_cases hb : ∃ s ∈ ss, BadPiece s
    · rw [if_pos hb]; exact ⟨fun _ => hb, fun _ => rfl⟩
    · rw [if_neg hb]
      refine ⟨fun he => ?_, fun h => absurd h hb⟩
      revert he
      cases lastUnit avcUnitType 7 (ss.map unitIn) <;> cases lastUnit avcUnitType 8 (ss.map unitIn) <;> simp

theorem C40_panics_iff (p : Bytes) : hevcParseExtraData p = Go.panic ↔ BadUnits p := by
  by_cases hl : p.length < 3
  · exact ⟨fun _ => Or.inl hl, fun _ => by rw [hevcParseExtraData, C30_short_panics p hl]; rfl⟩
  · obtain ⟨ss, h⟩ := pieces_exists p (by omega)
    rw [badUnits_pieces h, hevcParse_pieces h]
    by_cases hb : ∃ s ∈ ss, BadPiece s
    · rw [if_pos hb]; exact ⟨fun _ => hb, fun _ => rfl⟩
    · rw [if_neg hb]
      refine ⟨fun he => ?_, fun h => absurd h hb⟩
      revert he
      cases lastUnit hevcUnitType 32 (ss.map unitIn) <;> cases lastUnit hevcUnitType 33 (ss.map unitIn) <;>
        cases lastUnit hevcUnitType 34 (ss.map unitIn) <;> simp

/-- A payload whose first unit has no start code, with a unit that ends in zeros and a bare start code at the end: the pieces,
and the parameter sets. -/
example : Pieces [0x67, 1, 0, 0, 0, 0, 1, 0x68, 2, 0, 0, 0, 0, 1, 0x65, 0, 0, 1]
      [[0x67, 1, 0], [0, 0, 0, 1, 0x68, 2, 0], [0, 0, 0, 1, 0x65, 0, 0, 1]] ∧
    avcParseExtraData [0x67, 1, 0, 0, 0, 0, 1, 0x68, 2, 0, 0, 0, 0, 1, 0x65, 0, 0, 1] =
      ok ([0, 0, 0, 1, 0x67, 1, 0], [0, 0, 0, 1, 0x68, 2, 0]) := by
  rw [← C30_exact]
  constructor <;> decide +kernel

/-- Start codes in the first three bytes of a piece are not seen. -/
example : Pieces [9, 0, 0, 1, 0x67, 5] [[9, 0, 0, 1, 0x67, 5]] := by rw [← C30_exact]; decide +kernel

/-- Each of the bad pieces. -/
example : BadUnits [0, 0, 0, 0, 0, 1, 0x67] ∧ BadUnits [0, 0, 1, 0, 0, 1, 0x67] ∧ BadUnits [1, 2, 3, 0, 0, 0, 1, 0, 0, 0, 1, 0x67] := by
  simp only [← C39_panics_iff]
  decide +kernel

/-! ## The demuxer -/

/-- **C72** in full, for histories of any operations: in a state that has been reached, an operation panics exactly if it is
fatal, otherwise it is carried out. -/
theorem C72_step {name : String} {a : Bool} {h : List (Oracle × DemuxOp)} {s : Demuxer} (hn : KnownName name) (hr : Reached name a h s)
    (hu : ∀ x ∈ h, x.2.Usual name) (o : Oracle) (ho : o.Valid) (e : DemuxOp) (he : e.Usual name) :
    (e.run o s = Go.panic ↔ e.Fatal s) ∧ ((∃ s', e.run o s = ok s') ↔ ¬ e.Fatal s) := by
  have key : ∀ (l : List (Oracle × DemuxOp)) (s0 : Demuxer), KnownName s0.name → s0.Splittable → (∀ x ∈ l, x.2.Usual s0.name) →
      runDemux s0 l = ok s → s.Splittable ∧ s.name = s0.name := by
    intro l
    induction l with
    | nil => intro s0 _ hs _ hr; cases hr; exact ⟨hs, rfl⟩
    | cons x l ih =>
      intro s0 hk hs hu hr
      obtain ⟨s1, h1, h2⟩ := bind_eq_ok.1 (show (x.2.run x.1 s0 >>= fun s => runDemux s l) = ok s from hr)
      have hname := (Demuxer.run_tracks h1).1
      obtain ⟨a1, a2⟩ := ih s1 (by rw [hname]; exact hk) (Demuxer.run_splittable hs hk (hu x (by simp)) h1)
        (fun y hy => by rw [hname]; exact hu y (by simp [hy])) h2
      exact ⟨a1, by rw [a2, hname]⟩
  obtain ⟨hs, hname⟩ := key h (Demuxer.new name a) hn (fun _ t ht => by cases ht) hu hr.2
  have hname : s.name = name := hname
  rcases Demuxer.run_cases ho (Demuxer.Reached.inv hr) (by rw [hname]; exact hn) hs (by rw [hname]; exact he) with ⟨hf, he⟩ | ⟨hf, s', he⟩
  · rw [he]
    exact ⟨⟨fun _ => hf, fun _ => rfl⟩, ⟨fun ⟨s', h⟩ => (by cases h), fun h => absurd hf h⟩⟩
  · rw [he]
    exact ⟨⟨fun h => (by cases h), fun h => absurd h hf⟩, ⟨fun _ => hf, fun _ => ⟨s', rfl⟩⟩⟩

/-- **C72** in full: a history ends in a panic exactly if it reaches an operation that is fatal in the state it meets; otherwise it
runs to its end. -/
theorem C72_exact (name : String) (a : Bool) (h : List (Oracle × DemuxOp)) (hn : KnownName name) (hv : ∀ x ∈ h, x.1.Valid)
    (hu : ∀ x ∈ h, x.2.Usual name) :
    (runDemux (Demuxer.new name a) h = Go.panic ↔ ∃ h1 o e h2 s, h = h1 ++ (o, e) :: h2 ∧ Reached name a h1 s ∧ e.Fatal s) ∧
    (runDemux (Demuxer.new name a) h ≠ Go.panic → ∃ s, Reached name a h s) := by
  have hiff : (∃ h1 o e h2 s, h = h1 ++ (o, e) :: h2 ∧ Reached name a h1 s ∧ e.Fatal s) ↔
      ∃ l1 o e l2 s1, h = l1 ++ (o, e) :: l2 ∧ runDemux (Demuxer.new name a) l1 = ok s1 ∧ e.Fatal s1 := by
    constructor
    · rintro ⟨h1, o, e, h2, s, hh, hr, hf⟩
      exact ⟨h1, o, e, h2, s, hh, hr.2, hf⟩
    · rintro ⟨h1, o, e, h2, s, hh, hr, hf⟩
      exact ⟨h1, o, e, h2, s, hh, ⟨fun x hx => hv x (by rw [hh]; simp [hx]), hr⟩, hf⟩
  rw [hiff]
  rcases Demuxer.runDemux_cases (s := Demuxer.new name a) (Demuxer.Inv.new name a) hn (fun _ t ht => by cases ht) hv hu with
    ⟨hf, he⟩ | ⟨hf, s', he⟩
  · exact ⟨⟨fun _ => hf, fun _ => he⟩, fun h => absurd he h⟩
  · rw [he]
    exact ⟨⟨fun h => (by cases h), fun h => absurd h hf⟩, fun _ => ⟨s', hv, he⟩⟩

/-- **C72**: packets alone. The first packet of a buffer, a key frame of H.264 or H.265 before probing is over, is the only one
that can make the demuxer panic. -/
theorem C72_packets_exact (name : String) (a : Bool) (h : List (Oracle × DemuxOp)) (hn : KnownName name) (hv : ∀ x ∈ h, x.1.Valid)
    (hp : ∀ x ∈ h, x.2.PacketOnly) :
    runDemux (Demuxer.new name a) h = Go.panic ↔
      ∃ h1 o b id d dts pts h2 s, h = h1 ++ (o, .videoPacket b id d true dts pts) :: h2 ∧ Reached name a h1 s ∧
        name ≠ "flv" ∧ s.completed = false ∧ b ∉ s.bufferOf.map Prod.snd ∧ HasSets id ∧ BadFrame id d := by
  have hu : ∀ x ∈ h, x.2.Usual name := by
    intro x hx
    have := hp x hx
    cases e : x.2 <;> rw [e] at this
    case newAudioTrack => exact absurd this id
    case newVideoTrack => exact absurd this id
    all_goals trivial
  rw [(C72_exact name a h hn hv hu).1]
  constructor
  · rintro ⟨h1, o, e, h2, s, hh, hr, hf⟩
    have hpe := hp (o, e) (by rw [hh]; simp)
    cases e with
    | videoPacket b id d k dts pts =>
      obtain ⟨f1, f2, f3, rfl, f5, f6⟩ := hf
      exact ⟨h1, o, b, id, d, dts, pts, h2, s, hh, hr, by rw [← Demuxer.Reached.name hr]; exact f1, f2, f3, f5, f6⟩
    | newAudioTrack => exact absurd hpe id
    | newVideoTrack => exact absurd hpe id
    | audioPacket => exact absurd hf id
    | findBufferIndex => exact absurd hf id
    | setProbeDuration => exact absurd hf id
    | probeComplete => exact absurd hf id
    | tryCompleteProbe => exact absurd hf id
  · rintro ⟨h1, o, b, id, d, dts, pts, h2, s, hh, hr, f1, f2, f3, f4, f5⟩
    exact ⟨h1, o, _, h2, s, hh, hr, by rw [Demuxer.Reached.name hr]; exact f1, f2, f3, rfl, f4, f5⟩

/-- Well framed payloads are good. -/
theorem wellFramed_good {d : Bytes} (h : WellFramed d) : ¬ BadUnits d ∧ ∀ id, ¬ BadFrame id d := by
  have good : ∀ {d : Bytes}, WellFramed d → ¬ BadUnits d := by
    rintro d ⟨xs, hne, hf, rfl⟩ hb
    have := (C39_panics_iff _).2 hb
    rw [C39_avc_parameter_sets xs hne hf] at this
    revert this
    cases lastUnit avcUnitType 7 (xs.map (·.2)) <;> cases lastUnit avcUnitType 8 (xs.map (·.2)) <;> simp
  refine ⟨good h, fun id hb => ?_⟩
  rcases hb with hb | ⟨ps, ⟨ss, hp, _, hs⟩, hb⟩
  · exact good h hb
  · obtain ⟨xs, hne, hf, rfl⟩ := h
    have h1 := C30_split_annexB xs hne hf
    rw [splitNalU_pieces hp] at h1
    injection h1 with h1
    subst h1
    have : (xs.map annexUnit).map unitIn = xs.map (·.2) := by
      rw [List.map_map]
      apply List.map_congr_left
      rintro ⟨b, u⟩ hx
      cases b <;> simp [annexUnit, code, unitIn]
    rw [this] at hs
    refine good (wellFramed_sets ?_ hs) hb
    intro u hu
    obtain ⟨x, hx, rfl⟩ := List.mem_map.1 hu
    exact hf x hx

/-- The bad key frames of `C72_bad_frames` are bad: in four the search fails, in two it fails in what it found. -/
example : BadUnits [0x67, 0x42] ∧ BadUnits [0, 0, 0, 1, 0x67, 0x42, 0, 30, 0, 0, 0, 1, 0, 0, 0, 1, 0x68, 0xce] ∧
    ¬ BadUnits [0, 0, 0, 1, 0x68, 0xce, 0, 0, 0, 1, 0x67, 0x42, 0, 30, 0, 0, 0, 1] ∧
    BadFrame codecH264 [0, 0, 0, 1, 0x68, 0xce, 0, 0, 0, 1, 0x67, 0x42, 0, 30, 0, 0, 0, 1] := by
  refine ⟨?_, ?_, ?_, Or.inr ⟨[[0x67, 0x42, 0, 30, 0, 0, 0, 1], [0x68, 0xce]], ⟨[[0, 0, 0, 1, 0x68, 0xce], [0, 0, 0, 1, 0x67, 0x42, 0, 30, 0, 0, 0, 1]], ?_, ?_, ?_⟩, ?_⟩⟩
  · rw [← C39_panics_iff]; decide +kernel
  · rw [← C39_panics_iff]; decide +kernel
  · rw [← C39_panics_iff]; decide +kernel
  · rw [← C30_exact]; decide +kernel
  · decide
  · decide +kernel
  · rw [← C39_panics_iff]; decide +kernel

/-- The same payload, later or without a key flag, is harmless: a history with it that runs to its end. -/
example : (runDemux (Demuxer.new "ts" true) (soundRun ++ [(exOracle, .videoPacket 0 codecH264 [0x67, 0x42] true 7200 7200),
    (exOracle, .videoPacket 5 codecH264 [0x67, 0x42] false 7200 7200)]) >>= fun s => ok s.tracks.tracks.length) = ok 4 := by
  decide +kernel

end Avf
