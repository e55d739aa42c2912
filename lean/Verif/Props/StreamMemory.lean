import Verif.Lemmas.StreamMemory
import Verif.Model.Demuxer
import Verif.Props.KeyFrameStream
/-!
# C90: streams own their memory

The extra data that a caller hands over lies in a buffer that the pipeline frees right after the call. So a stream that kept a slice of
it would change later. These theorems say it never does.
-/
namespace Avf
open Go

/-- **C90 (video tracks).** What `createVideoTrack` does with memory is what the demuxer model does with values. The memory that there
was stays as it is, and every slice of the new stream lies in memory that was not there before. -/
theorem C90_video (o : Oracle) (d : Demuxer) (bufferIndex id timebase : Int) (m : Mem) (e : SliceRef) (he : e.ValidIn m) :
    match videoStreamM o.undef o.grow d.getPackType id timebase d.tracks.size e m with
    | .panic => d.createVideoTrack o bufferIndex id timebase (some (m.read e)) = Go.panic
    | .err _ => False
    | .ok (.error _, m') => d.createVideoTrack o bufferIndex id timebase (some (m.read e)) = ok (none, d) ∧ m <+: m'
    | .ok (.ok s, m') => d.createVideoTrack o bufferIndex id timebase (some (m.read e)) = ok (d.register bufferIndex (s.read m')) ∧
        m <+: m' ∧ ∀ x ∈ s.slices, m.length ≤ x.arr ∧ x.ValidIn m' := by
  have h := videoStreamM_refines o.undef o.grow d.getPackType id timebase d.tracks.size (own_of_valid he)
  unfold videoStreamV at h
  unfold Demuxer.createVideoTrack
  simp only [Option.getD_some]
  cases hg : generateVideoCodecData o.undef o.grow d.getPackType id (m.read e) with
  | ok config =>
    rw [hg, ok_bind] at h
    obtain ⟨s, m', h1, h2, h3⟩ := h
    rw [h1]
    exact ⟨by rw [h3.read], h2, h3.slices⟩
  | err x =>
    rw [hg] at h
    obtain ⟨m', h1, h2⟩ := h
    rw [h1]
    exact ⟨rfl, h2⟩
  | panic =>
    rw [hg] at h
    have h : _ = Go.panic := h
    rw [h]

/-- **C90 (audio tracks).** The same for `createAudioTrack`, with extra data. -/
theorem C90_audio (d : Demuxer) (bufferIndex id timebase : Int) (config : AudioConfig) (m : Mem) (e : SliceRef) (he : e.ValidIn m) :
    match audioStreamM id timebase d.tracks.size (some e) config m with
    | .panic => d.createAudioTrack bufferIndex id timebase (some (m.read e)) config = Go.panic
    | .err _ => False
    | .ok (.error _, m') => d.createAudioTrack bufferIndex id timebase (some (m.read e)) config = ok (none, d) ∧ m <+: m'
    | .ok (.ok s, m') => d.createAudioTrack bufferIndex id timebase (some (m.read e)) config = ok (d.register bufferIndex (s.read m')) ∧
        m <+: m' ∧ ∀ x ∈ s.slices, m.length ≤ x.arr ∧ x.ValidIn m' := by
  have h := audioStreamM_refines id timebase d.tracks.size config (own_of_valid he)
  unfold audioStreamV at h
  unfold Demuxer.createAudioTrack
  by_cases hc : id = codecAAC ∧ ¬ config.hasADTSHeader
  · rw [if_pos hc] at h
    simp only [if_pos hc]
    cases hg : parseMpeg4AudioConfig (m.read e) with
    | ok c =>
      simp only [hg, ok_bind] at h
      obtain ⟨s, m', h1, h2, h3⟩ := h
      rw [h1]
      exact ⟨by rw [h3.read]; rfl, h2, h3.slices⟩
    | err x =>
      simp only [hg] at h
      obtain ⟨m', h1, h2⟩ := h
      rw [h1]
      exact ⟨rfl, h2⟩
    | panic =>
      simp only [hg] at h
      have h : _ = Go.panic := h
      rw [h]
  · rw [if_neg hc] at h
    simp only [if_neg hc]
    obtain ⟨s, m', h1, h2, h3⟩ := h
    rw [h1]
    exact ⟨by rw [h3.read]; rfl, h2, h3.slices⟩

/-- **C90 (audio tracks without extra data).** -/
theorem C90_audio_nil (d : Demuxer) (bufferIndex id timebase : Int) (config : AudioConfig) (m : Mem) :
    match audioStreamM id timebase d.tracks.size none config m with
    | .panic => d.createAudioTrack bufferIndex id timebase none config = Go.panic
    | .err _ => False
    | .ok (.error _, _) => False
    | .ok (.ok s, m') => d.createAudioTrack bufferIndex id timebase none config = ok (d.register bufferIndex (s.read m')) ∧
        m' = m ∧ s.slices = [] := by
  unfold audioStreamM Demuxer.createAudioTrack
  by_cases hc : id = codecAAC ∧ ¬ config.hasADTSHeader
  · simp only [if_pos hc]; exact trivial
  · simp only [if_neg hc]; exact ⟨rfl, rfl, rfl⟩

/-- **C90 (key frames).** The same for the streams made from a key frame. -/
theorem C90_avc_key_frame (undef index : Int) (m : Mem) (e : SliceRef) (he : e.ValidIn m) :
    match createAVCStreamFromKeyFrameM undef e index m with
    | .panic => createAVCStreamFromKeyFrame undef (m.read e) index = Go.panic
    | .err _ => False
    | .ok (.error x, m') => createAVCStreamFromKeyFrame undef (m.read e) index = err x ∧ m <+: m'
    | .ok (.ok s, m') => createAVCStreamFromKeyFrame undef (m.read e) index = ok (s.read m') ∧
        m <+: m' ∧ ∀ x ∈ s.slices, m.length ≤ x.arr ∧ x.ValidIn m' := by
  have h := createAVCStreamM_refines undef index (own_of_valid he)
  cases hg : createAVCStreamFromKeyFrame undef (m.read e) index with
  | ok v =>
    rw [hg] at h
    obtain ⟨s, m', h1, h2, h3⟩ := h
    rw [h1]
    exact ⟨by rw [h3.read], h2, h3.slices⟩
  | err x =>
    rw [hg] at h
    obtain ⟨m', h1, h2⟩ := h
    rw [h1]
    exact ⟨rfl, h2⟩
  | panic =>
    rw [hg] at h
    have h : _ = Go.panic := h
    rw [h]

theorem C90_hevc_key_frame (index : Int) (m : Mem) (e : SliceRef) (he : e.ValidIn m) :
    match createHevcStreamFromKeyFrameM e index m with
    | .panic => createHevcStreamFromKeyFrame (m.read e) index = Go.panic
    | .err _ => False
    | .ok (.error x, m') => createHevcStreamFromKeyFrame (m.read e) index = err x ∧ m <+: m'
    | .ok (.ok s, m') => createHevcStreamFromKeyFrame (m.read e) index = ok (s.read m') ∧
        m <+: m' ∧ ∀ x ∈ s.slices, m.length ≤ x.arr ∧ x.ValidIn m' := by
  have h := createHevcStreamM_refines index (own_of_valid he)
  cases hg : createHevcStreamFromKeyFrame (m.read e) index with
  | ok v =>
    rw [hg] at h
    obtain ⟨s, m', h1, h2, h3⟩ := h
    rw [h1]
    exact ⟨by rw [h3.read], h2, h3.slices⟩
  | err x =>
    rw [hg] at h
    obtain ⟨m', h1, h2⟩ := h
    rw [h1]
    exact ⟨rfl, h2⟩
  | panic =>
    rw [hg] at h
    have h : _ = Go.panic := h
    rw [h]

/-- **C90 (extra data).** `AnnexBExtraData` of codec data, also of codec data made from a record, gives the bytes that the value model gives; memory
that was there before is not changed, and what is put together from a record is in new memory. -/
theorem C90_extra_data (m : Mem) (c : CodecDataM) (hc : ∀ s ∈ c.slices, s.ValidIn m) :
    ∃ d m', c.annexBExtraData m = ok (.ok d, m') ∧ m <+: m' ∧ (d.map m'.read).getD [] = (c.read m).annexBExtraData ∧
      (c.annexB = none → ∀ r, d = some r → m.length ≤ r.arr ∧ r.ValidIn m') := by
  obtain ⟨w, h, a, v4, rec⟩ := c
  have own : ∀ l : List SliceRef, (∀ s ∈ l, s.ValidIn m) → List.Forall₂ (Own 0 m) l (l.map m.read) := by
    intro l hl
    induction l with
    | nil => exact .nil
    | cons s l ih => exact .cons (own_of_valid (hl s (by simp)) |>.le (Nat.zero_le _)) (ih fun x hx => hl x (by simp [hx]))
  cases a with
  | some d => exact ⟨some d, m, rfl, List.prefix_refl m, rfl, by intro h; cases h⟩
  | none =>
    have fin : ∀ (x : MemM (Option SliceRef)) (y : Bytes),
        Refines m x (ok y) (fun m' a y => (a = none ∧ y = []) ∨ ∃ r, a = some r ∧ Own m.length m' r y) →
        ∃ d m', x m = ok (.ok d, m') ∧ m <+: m' ∧ (d.map m'.read).getD [] = y ∧
          (∀ r, d = some r → m.length ≤ r.arr ∧ r.ValidIn m') := by
      rintro x y ⟨d, m', h1, h2, h3⟩
      refine ⟨d, m', h1, h2, ?_⟩
      rcases h3 with ⟨rfl, rfl⟩ | ⟨r, rfl, hr⟩
      · exact ⟨rfl, by intro r h; cases h⟩
      · exact ⟨hr.read, by intro r' h; cases h; exact ⟨hr.new, hr.valid⟩⟩
    cases rec with
    | avc r =>
      obtain ⟨d, m', h1, h2, h3, h4⟩ := fin _ _ (mixM_refines (n := m.length) (Nat.le_refl _)
        (.cons (own r.spsList fun s hs => hc s (by simp [CodecDataM.slices, hs])) (.cons (own r.ppsList fun s hs => hc s (by simp [CodecDataM.slices, hs])) .nil)))
      exact ⟨d, m', h1, h2, h3, fun _ => h4⟩
    | hevc r =>
      obtain ⟨d, m', h1, h2, h3, h4⟩ := fin _ _ (mixM_refines (n := m.length) (Nat.le_refl _)
        (.cons (own r.vpsList fun s hs => hc s (by simp [CodecDataM.slices, hs])) (.cons (own r.spsList fun s hs => hc s (by simp [CodecDataM.slices, hs]))
          (.cons (own r.ppsList fun s hs => hc s (by simp [CodecDataM.slices, hs])) .nil))))
      exact ⟨d, m', h1, h2, h3, fun _ => h4⟩

/-- Codec data from a record with one SPS and one PPS. -/
example :
    let m : Mem := [[103, 66, 104, 206]]
    let c : CodecDataM := { width := 0, height := 0, annexB := none, m4vc := none, record := .avc { spsList := [⟨0, 0, 2⟩], ppsList := [⟨0, 2, 2⟩] } }
    (match c.annexBExtraData m with
      | .ok (.ok (some r), m') => decide (m'.read r = [103, 66, 104, 206] ∧ r.arr = 2)
      | _ => false) = true := by decide +kernel

/-- **C90 (streams never change).** Start with any memory, all of it held by the rest of the program, and no streams. Whatever the
program then writes to memory that it holds, and whatever streams are made in between, every stream reads what it read when it was made;
and no two streams share an array. -/
theorem C90_streams_keep (m : Mem) (w : World) (h : World.Steps ⟨m, List.range m.length, []⟩ w) :
    (∀ p ∈ w.streams, p.1.read w.mem = p.2) ∧ (∀ p ∈ w.streams, ∀ x ∈ p.1.slices, x.arr ∉ w.outside) ∧
      w.streams.Pairwise fun p q => ∀ x ∈ p.1.slices, ∀ y ∈ q.1.slices, x.arr ≠ y.arr := by
  have key : w.Sound := by
    generalize hw : (⟨m, List.range m.length, []⟩ : World) = w0 at h
    induction h with
    | refl =>
      subst hw
      exact ⟨fun a ha => List.mem_range.1 ha, (fun p hp => by cases hp), (fun p hp => by cases hp),
        (fun p hp => by cases hp), .nil⟩
    | step _ hs ih => exact ih.step hs
  exact ⟨key.reads, key.own, key.apart⟩

/-! ## A concrete run -/

/-- A slice with three parameter sets in the middle of an array. -/
def exKeyMem : Mem := [[9, 9] ++ exHevcKey ++ [7], [1, 2, 3]]
def exKeySlice : SliceRef := ⟨0, 2, exHevcKey.length⟩

theorem madeCheck {x : Go (Except String AVStreamM × Mem)} {P : AVStreamM → Mem → Bool}
    (h : (match x with | .ok (.ok s, m) => P s m | _ => false) = true) : ∃ s m, x = ok (.ok s, m) ∧ P s m = true := by
  split at h
  · exact ⟨_, _, rfl, h⟩
  · cases h

example : exKeySlice.ValidIn exKeyMem ∧ exKeyMem.read exKeySlice = exHevcKey :=
  ⟨⟨[9, 9] ++ exHevcKey ++ [7], by decide +kernel, by decide +kernel⟩, by decide +kernel⟩

/-- The program makes a video track of the slice and then overwrites its buffer: the stream still has the bytes, and five slices in all. -/
example : ∃ w p, World.Steps ⟨exKeyMem, List.range 2, []⟩ w ∧ w.streams = [p] ∧ w.mem[0]? = some [] ∧ p.2.data = exHevcKey ∧
    (p.1.read w.mem).data = exHevcKey ∧ p.1.slices.length = 5 := by
  obtain ⟨s, m, h, hp⟩ := madeCheck (x := videoStreamM 0 (fun n => n) 0 173 90000 0 exKeySlice exKeyMem)
    (P := fun s m => decide ((s.read m).data = exHevcKey ∧ (s.read (m.set 0 [])).data = exHevcKey ∧ s.slices.length = 5 ∧ 0 < m.length))
    (by decide +kernel)
  have hp := of_decide_eq_true hp
  refine ⟨⟨m.set 0 [], List.range 2, [(s, s.read m)]⟩, (s, s.read m),
    .step (.step (.refl _) (.made _ exKeySlice _ (by decide +kernel) ⟨[9, 9] ++ exHevcKey ++ [7], by decide +kernel, by decide +kernel⟩
      (.video 0 (fun n => n) 0 173 90000 0) s m h)) (.write _ 0 [] (List.mem_range.2 (by decide))),
    rfl, ?_, hp.1, hp.2.1, hp.2.2.1⟩
  simp [hp.2.2.2]

/-- An AAC track keeps its two bytes. -/
example : ∃ s m, audioStreamM codecAAC 1000 0 (some ⟨1, 0, 2⟩) {} [[], [0x12, 0x10, 3]] = ok (.ok s, m) ∧
    decide ((s.read (m.set 1 [])).data = [0x12, 0x10] ∧ s.sampleRate = 44100 ∧ s.channels = 2 ∧ s.slices.map (·.arr) = [2]) = true :=
  madeCheck (by decide +kernel)

end Avf
