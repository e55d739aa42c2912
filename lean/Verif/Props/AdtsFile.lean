import Verif.Lemmas.AdtsFile
import Verif.Props.FlvFiles
/-! # C109: the files of AAC tracks -/
namespace Avf
open Go

/-- **C109**, reading: cutting a byte string with `ReadADtsFixedHeader` and `FrameLength` succeeds exactly if it is a sequence of ADTS
frames, and finds these frames. -/
theorem C109_cut (data : Bytes) (fs : List Bytes) : cutAdts data = ok fs ↔ data = fs.flatten ∧ ∀ f ∈ fs, AdtsFrame f :=
  ⟨cutAdts_ok, fun ⟨h1, h2⟩ => by rw [h1]; exact cutAdts_flatten h2⟩

/-- **C109**: so a byte string is a sequence of ADTS frames in one way at most. -/
theorem C109_unique {fs gs : List Bytes} (hf : ∀ f ∈ fs, AdtsFrame f) (hg : ∀ g ∈ gs, AdtsFrame g) (h : fs.flatten = gs.flatten) : fs = gs := by
  have h1 := cutAdts_flatten hf
  rw [h, cutAdts_flatten hg] at h1
  injection h1 with h1
  exact h1.symm

/-- **C109**, writing: a buffer with room for the header in front of a raw frame becomes an ADTS frame with `SetADtsHeader` exactly if the
size given is, modulo 8192, that of the whole: never, if the whole has 8192 bytes or more. -/
theorem C109_written (room raw : Bytes) (mpegId aot index ch size : BitVec 64) (hr : room.length = 7) :
    ∃ d, setADtsHeader (room ++ raw) mpegId aot index ch size = ok d ∧ d.length = 7 + raw.length ∧ d.drop 7 = raw ∧
      (AdtsFrame d ↔ size.toNat % 8192 = 7 + raw.length) ∧
      bitField d 16 2 = aot.toNat % 4 ∧ bitField d 18 4 = index.toNat % 16 ∧ bitField d 23 3 = ch.toNat % 8 := by
  obtain ⟨out, a, h1, h2, h3, h4, h5, _, _, _, h9, h10, h11, h12, _⟩ := C53_round_trip (room ++ raw) mpegId aot index ch size (by simp [hr])
  have hl : out.length = 7 + raw.length := by rw [h2, List.length_append, hr]
  obtain ⟨g1, g2, g3⟩ := readADts_ok h4
  have hlong := h4
  rw [readADts_long out g1 (by rw [← bitField_sync (by omega), g2])] at hlong
  cases hlong
  have f1 : adtsProfile (BitVec.ofNat 64 (beNat (out.take 7))) = (bitField out 16 2 : Nat) := adtsField_at g1 16 2 0x3 rfl (by omega) (by omega)
  have f2 : adtsFrequency (BitVec.ofNat 64 (beNat (out.take 7))) = (bitField out 18 4 : Nat) := adtsField_at g1 18 4 0xF rfl (by omega) (by omega)
  have f3 : adtsChannel (BitVec.ofNat 64 (beNat (out.take 7))) = (bitField out 23 3 : Nat) := adtsField_at g1 23 3 0x7 rfl (by omega) (by omega)
  refine ⟨out, h1, hl, by rw [h3, ← hr, List.drop_left], ?_, by omega, by omega, by omega⟩
  have : bitField out 30 13 = size.toNat % 8192 := by rw [← g3, h12]; rfl
  unfold AdtsFrame
  rw [this, hl]
  exact ⟨fun h => h.2.2, fun h => ⟨by omega, g2, h⟩⟩

/-- **C109**: under the conditions of C94, if the packets of an AAC track are ADTS frames, one or more each, a reader of its file finds
these frames (of the packets from the first that was not refused to the last but one), in this order, and there is no other way to cut the
file into ADTS frames. The track is described by the header of an AAC packet `d` that was given. -/
theorem C109_adts {name : String} {h : List (Oracle × DemuxOp × List Bytes)} {s : Demuxer} {M : Nat → Nat} (m : Mem)
    (hn : name = "ps" ∨ name = "ts" ∨ name = "jt1078") (hr : Reached name true (operations h) s)
    (hp : ∀ x ∈ operations h, x.2.PacketOnly) (hid : ∀ x ∈ operations h, x.1.preprocess = id) (hk : ∀ x ∈ operations h, x.2.KeyFramed)
    (hd : ∀ b, (framesOf b (operations h)).Pairwise fun f g => f.dts < g.dts)
    (hin : InPieces h) (hl : LightInput M [] (Demuxer.new name true) (operations h))
    (hc : s.completed = true) (path : List Char) (disk : Disk)
    (hnew : ∀ t ∈ s.tracks.tracks, ∀ n, FileHandler.fileName path t = ok n → disk.lookup n = none) :
    ∃ w o, ({ dem := Demuxer.new name true, mem := m } : Wired).run h = ok w ∧ w.dem = s ∧
      (FileHandler.new path disk).handleAll (asRead (toHandler w.dem.calls) w.got) = ok o ∧
      ∀ (i : Nat) t b, s.tracks.tracks[i]? = some t → ((i : Int), b) ∈ s.bufferOf → t.mediaType = mediaAudio → t.codecID = codecAAC →
        (∃ b' ts d, .audioPacket b' codecAAC d ts ∈ (operations h).map Prod.snd ∧ FromAudio name d t) ∧
        ∀ fss, List.Forall₂ (fun f fs => f.data = fs.flatten ∧ ∀ x ∈ fs, AdtsFrame x)
          ((framesOf b (operations h)).drop (refusals b s.calls)).dropLast fss →
        ∃ n file, FileHandler.fileName path t = ok n ∧ o.disk.lookup n = some ⟨132, file⟩ ∧ cutAdts file = ok fss.flatten ∧
          ∀ gs, (∀ g ∈ gs, AdtsFrame g) → gs.flatten = file → gs = fss.flatten := by
  obtain ⟨w, o, h1, rfl, h2, h3⟩ := C94_files m hn hr hp hid hk hd hin hl hc path disk hnew
  refine ⟨w, o, h1, rfl, h2, fun i t b ht hb hm haac => ⟨?_, fun fss hfs => ?_⟩⟩
  · have hkn : KnownName name := by rcases hn with h | h | h <;> simp [KnownName, h]
    have hsound : ∀ x ∈ operations h, x.2.Sound name := by
      intro x hx
      have h1 := hk x hx
      have h2 := hp x hx
      obtain ⟨o, e⟩ := x
      cases e with
      | videoPacket b id d k dts pts => exact fun _ h3 _ => h1 h3
      | newAudioTrack => exact absurd h2 id
      | newVideoTrack => exact absurd h2 id
      | _ => trivial
    cases C73_source hr hkn hp hsound t (List.mem_of_getElem? ht) with
    | video b' dts pts xs hm' hf htr => rw [htr.media] at hm; exact absurd hm (by decide)
    | audio b' ts d hm' htr => exact ⟨b', ts, d, by rw [← haac]; exact hm', htr⟩
    | odd hm' hc' => rw [hm'] at hm; exact absurd hm (by decide)
  · obtain ⟨n, hname, hfile⟩ := h3 i t b ht hb
    generalize ((framesOf b (operations h)).drop (refusals b w.dem.calls)).dropLast = fs at hfile hfs
    have hin : ∀ f, inFile t f = f.data := by
      intro f
      unfold inFile
      rw [if_neg]
      rintro ⟨_, _, h3, _⟩
      rw [hm] at h3
      exact absurd h3 (by decide)
    have hflat : fs.flatMap (inFile t) = fss.flatten.flatten ∧ ∀ x ∈ fss.flatten, AdtsFrame x := by
      clear hfile
      induction hfs with
      | nil => exact ⟨rfl, by simp⟩
      | @cons f xs fs fss hx _ ih =>
        refine ⟨by rw [List.flatMap_cons, ih.1, hin, hx.1, List.flatten_cons, List.flatten_append], ?_⟩
        intro x hm
        rw [List.flatten_cons, List.mem_append] at hm
        exact hm.elim (hx.2 x) (ih.2 x)
    refine ⟨n, _, hname, hfile, by rw [hflat.1]; exact cutAdts_flatten hflat.2, fun gs hg e => ?_⟩
    rw [hflat.1] at e
    exact C109_unique hg hflat.2 e

/-- The claim: the frames of an AAC track can be told from its file, by some reader. -/
def C109_claim : Prop := ∃ cut : Bytes → List Bytes, ∀ (name : String) (a : Bool) (h : List (Oracle × DemuxOp)) (s : Demuxer) (o : FileHandler)
  (path : List Char), KnownName name → Reached name a h s → (∀ x ∈ h, x.1.preprocess = id) → (s.bufferOf.map Prod.snd).Nodup → Orderly s →
  (∀ b, (givenOf b h).Pairwise fun f g => f.dts < g.dts) → s.completed = true → (FileHandler.new path []).handleAll (toHandler s.calls) = ok o →
  ∀ (i : Nat) t b n file, s.tracks.tracks[i]? = some t → ((i : Int), b) ∈ s.bufferOf → t.mediaType = mediaAudio → t.codecID = codecAAC →
  FileHandler.fileName path t = ok n → o.disk.lookup n = some ⟨132, file⟩ → cut file = (givenOf b h).dropLast.map (·.data)

/-- Raw AAC frames in FLV, of these bytes. -/
def rawRun (ds : List Bytes) : List (Oracle × DemuxOp) :=
  (exOracle, .newAudioTrack 0 codecAAC 1000 (some [0x12, 0x10]) {}) ::
    ds.zipIdx.map (fun x => (exOracle, .audioPacket 0 codecAAC x.1 (x.2 * 23))) ++ [(exOracle, .probeComplete)]

/-- What is to be computed of such a run: probing has ended, there is one AAC track, on buffer 0, a packet of it came before, and its file. -/
def rawCheck (ds : List Bytes) : Go Bool := do
  let s ← runDemux (Demuxer.new "flv" true) (rawRun ds)
  let o ← (FileHandler.new ['o'] []).handleAll (toHandler s.calls)
  return decide (s.completed = true ∧ s.bufferOf = [(0, 0)] ∧ s.tracks.tracks.map (fun t => (t.mediaType, t.codecID)) = [(mediaAudio, codecAAC)] ∧
    0 ∈ (taken (beforeComplete s.calls)).map (·.index) ∧
    s.tracks.tracks.all fun t => match FileHandler.fileName ['o'] t with | .ok n => decide (o.disk.lookup n = some ⟨132, [1, 2, 3]⟩) | _ => false)

theorem rawRun_cut {cut : Bytes → List Bytes} {ds : List Bytes} (hck : rawCheck ds = ok true)
    (hpw : (givenOf 0 (rawRun ds)).Pairwise fun f g => f.dts < g.dts) (hg0 : ∀ b, b ≠ 0 → givenOf b (rawRun ds) = [])
    (hcut : ∀ (name : String) (a : Bool) (h : List (Oracle × DemuxOp)) (s : Demuxer) (o : FileHandler)
      (path : List Char), KnownName name → Reached name a h s → (∀ x ∈ h, x.1.preprocess = id) → (s.bufferOf.map Prod.snd).Nodup → Orderly s →
      (∀ b, (givenOf b h).Pairwise fun f g => f.dts < g.dts) → s.completed = true → (FileHandler.new path []).handleAll (toHandler s.calls) = ok o →
      ∀ (i : Nat) t b n file, s.tracks.tracks[i]? = some t → ((i : Int), b) ∈ s.bufferOf → t.mediaType = mediaAudio → t.codecID = codecAAC →
      FileHandler.fileName path t = ok n → o.disk.lookup n = some ⟨132, file⟩ → cut file = (givenOf b h).dropLast.map (·.data)) :
    cut [1, 2, 3] = (givenOf 0 (rawRun ds)).dropLast.map (·.data) := by
  obtain ⟨s, h1, h2⟩ := bind_eq_ok.1 hck
  obtain ⟨o, h3, h4⟩ := bind_eq_ok.1 h2
  simp only [Go.pure_def, Go.ok.injEq, decide_eq_true_eq] at h4
  obtain ⟨e1, e2, e3, e4, e5⟩ := h4
  have hx : ∀ x ∈ rawRun ds, x.1 = exOracle := by
    intro x hx
    simp only [rawRun, List.cons_append, List.mem_cons, List.mem_append, List.mem_map, List.not_mem_nil, or_false] at hx
    rcases hx with rfl | ⟨y, _, rfl⟩ | rfl <;> rfl
  have hon : ∀ x ∈ rawRun ds, x.2.OnBuffers 0 1 := by
    intro x hx
    simp only [rawRun, List.cons_append, List.mem_cons, List.mem_append, List.mem_map, List.not_mem_nil, or_false] at hx
    rcases hx with rfl | ⟨y, _, rfl⟩ | rfl <;> simp [DemuxOp.OnBuffers]
  have hr : Reached "flv" true (rawRun ds) s := ⟨fun x h => by rw [hx x h]; exact exOracle_valid, h1⟩
  obtain ⟨t, l, hts, ha, hl⟩ := List.map_eq_cons_iff.1 e3
  simp only [Prod.mk.injEq] at ha
  have hl : l = [] := List.map_eq_nil_iff.1 hl
  subst hl
  rw [hts] at e5
  simp only [List.all_cons, List.all_nil, Bool.and_true] at e5
  split at e5
  · next n hname =>
    simp only [decide_eq_true_eq] at e5
    refine hcut "flv" true (rawRun ds) s o ['o'] (by simp [KnownName]) hr (fun x h => by rw [hx x h]; rfl) (by rw [e2]; decide)
      (C99_flv_orderly hr (by decide) hon fun i hi => ?_) (fun b => ?_) e1 h3 0 t 0 n _ (by rw [hts]; rfl) (by rw [e2]; decide) ha.1 ha.2 hname e5
    · rw [hts] at hi
      obtain rfl : i = 0 := by simpa using hi
      obtain ⟨p, hp, e⟩ := List.mem_map.1 e4
      exact ⟨p, hp, e⟩
    · by_cases hb : b = 0
      · subst hb; exact hpw
      · rw [hg0 b hb]; exact .nil
  · cases e5

/-- In FLV, frames have no headers: the frames `1 2` and `3` make the same file as `1` and `2 3`. -/
theorem C109_claim_violated : ¬ C109_claim := by
  rintro ⟨cut, hcut⟩
  have h1 := rawRun_cut (ds := [[1, 2], [3], [9]]) (by decide +kernel) (by simp [givenOf, rawRun, DemuxOp.given])
    (fun b hb => by simp [givenOf, rawRun, DemuxOp.given, Ne.symm hb]) hcut
  have h2 := rawRun_cut (ds := [[1], [2, 3], [9]]) (by decide +kernel) (by simp [givenOf, rawRun, DemuxOp.given])
    (fun b hb => by simp [givenOf, rawRun, DemuxOp.given, Ne.symm hb]) hcut
  rw [h1] at h2
  simp [givenOf, rawRun, DemuxOp.given] at h2

/-! ## Concrete cases -/

/-- Frames of 10 and 8 bytes, and one of 7, as `SetADtsHeader` writes their headers. -/
def frame10 : Bytes := [0xFF, 0xF1, 0x50, 0x80, 0x01, 0x5F, 0xFC, 1, 2, 3]
def frame8 : Bytes := [0xFF, 0xF1, 0x50, 0x80, 0x01, 0x1F, 0xFC, 4]
def frame7 : Bytes := [0xFF, 0xF1, 0x50, 0x80, 0x00, 0xFF, 0xFC]

example : AdtsFrame frame10 ∧ AdtsFrame frame8 ∧ AdtsFrame frame7 ∧ ¬ AdtsFrame (frame8 ++ [0]) := by decide +kernel
example : setADtsHeader (List.replicate 7 0 ++ [1, 2, 3]) 0 1 4 2 10 = ok frame10 := by decide +kernel
example : cutAdts (frame10 ++ frame8 ++ frame7) = ok [frame10, frame8, frame7] := by decide +kernel

/-- A TS demuxer with two sound packets of one frame, one of two frames, and a last one. -/
def adtsRun : List (Oracle × DemuxOp × List Bytes) :=
  [(exOracle, .audioPacket 0 codecAAC frame10 0, [frame10.take 5, frame10.drop 5]),
   (exOracle, .audioPacket 0 codecAAC frame8 10, [frame8]),
   (exOracle, .probeComplete, []),
   (exOracle, .audioPacket 0 codecAAC (frame7 ++ frame8) 20, [frame7, frame8]),
   (exOracle, .audioPacket 0 codecAAC frame7 30, [frame7])]

/-- All hypotheses of `C109_adts` hold of it. -/
example : ∃ s t, Reached "ts" true (operations adtsRun) s ∧ s.completed = true ∧ s.tracks.tracks = [t] ∧ t.mediaType = mediaAudio ∧
    t.codecID = codecAAC ∧ t.data = [0x12, 0x10] ∧ s.bufferOf = [(0, 0)] ∧
    LightInput (fun _ => 40) [] (Demuxer.new "ts" true) (operations adtsRun) ∧
    (∀ x ∈ operations adtsRun, x.2.PacketOnly ∧ x.1.preprocess = id ∧ x.2.KeyFramed) ∧ InPieces adtsRun ∧
    (∀ b, (framesOf b (operations adtsRun)).Pairwise fun f g => f.dts < g.dts) ∧
    List.Forall₂ (fun f fs => f.data = fs.flatten ∧ ∀ x ∈ fs, AdtsFrame x)
      ((framesOf 0 (operations adtsRun)).drop (refusals 0 s.calls)).dropLast [[frame10], [frame8], [frame7, frame8]] := by
  have h : (runDemux (Demuxer.new "ts" true) (operations adtsRun) >>= fun s => ok (decide (s.completed = true ∧
      s.tracks.tracks.map (fun t => (t.mediaType, t.codecID, t.data)) = [(mediaAudio, codecAAC, [0x12, 0x10])] ∧
      s.bufferOf = [(0, 0)] ∧ refusals 0 s.calls = 0))) = ok true := by decide +kernel
  obtain ⟨s, h1, h2⟩ := bind_eq_ok.1 h
  simp only [Go.ok.injEq, decide_eq_true_eq] at h2
  obtain ⟨e1, e2, e3, e4⟩ := h2
  obtain ⟨t, l, hts, ha, hl⟩ := List.map_eq_cons_iff.1 e2
  simp only [Prod.mk.injEq] at ha
  have hl : l = [] := List.map_eq_nil_iff.1 hl
  subst hl
  have hx : ∀ x ∈ operations adtsRun, x.1 = exOracle := by simp [operations, adtsRun]
  refine ⟨s, t, ⟨fun x h => by rw [hx x h]; exact exOracle_valid, h1⟩, e1, hts, ha.1, ha.2.1, ha.2.2, e3,
    lightInput_sound (by decide +kernel), ?_, ?_, ?_, ?_⟩
  · intro x h
    refine ⟨?_, by rw [hx x h]; rfl, ?_⟩
    · revert x; simp [operations, adtsRun, DemuxOp.PacketOnly]
    · revert x; simp [operations, adtsRun, DemuxOp.KeyFramed]
  · intro x hx b d hk
    simp only [adtsRun, List.mem_cons, List.not_mem_nil, or_false] at hx
    rcases hx with rfl | rfl | rfl | rfl | rfl <;> simp [DemuxOp.block] at hk ⊢ <;> simp [← hk.2]
  · intro b
    by_cases h0 : b = 0
    · subst h0; decide
    · have : framesOf b (operations adtsRun) = [] := by
        simp [framesOf, operations, adtsRun, DemuxOp.frame, Ne.symm h0]
      rw [this]; exact .nil
  · rw [e4]
    exact .cons (by decide +kernel) (.cons (by decide +kernel) (.cons (by decide +kernel) .nil))

end Avf
