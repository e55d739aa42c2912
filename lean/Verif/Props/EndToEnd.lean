import Verif.Lemmas.EndToEnd
/-!
# C94: from packets to files

The caller writes frames in pieces to a `StreamsBuffer`, fetches the block and gives it to a PS, TS or JT1078 demuxer; the handler is
`OnUnpackStream2FileHandler`. All parts are the models of the code: pipeline and memory (C78), demuxer (C61 to C66, C73), packet
conversion (C68) and file handler (C77).
-/
namespace Avf
open Go

/-- **C94**, packets: those taken for a buffer are the frames given for it, in this order and unchanged, from the first one that is
not refused on. -/
theorem C94_taken {name : String} {a : Bool} {h : List (Oracle × DemuxOp)} {s : Demuxer} (hr : Reached name a h s)
    (hp : ∀ x ∈ h, x.2.PacketOnly) (hid : ∀ x ∈ h, x.1.preprocess = id) (b : Int) :
    refusals b s.calls ≤ (framesOf b h).length ∧
    (ofBuffer b (taken s.calls)).map (fun p => (⟨p.mediaType = mediaVideo, p.key, p.data, p.dts⟩ : Frame)) =
      (framesOf b h).drop (refusals b s.calls) := by
  obtain ⟨h1, h2⟩ := taken_frames hr hp hid b
  refine ⟨h1, ?_⟩
  generalize (framesOf b h).drop (refusals b s.calls) = fs at h2
  generalize ofBuffer b (taken s.calls) = l at h2
  induction h2 with
  | nil => rfl
  | @cons f p fs l hm _ ih =>
    rw [List.map_cons, ih]
    congr 1
    obtain ⟨v, k, d, t⟩ := f
    have h1 : (decide (p.mediaType = mediaVideo)) = v := by
      rw [hm.media]
      cases v <;> rfl
    rw [hm.key, hm.data, hm.dts, h1]

/-- The files, when it is known of which frames the packets of each track are made. -/
theorem files_of_lanes {name : String} {h : List (Oracle × DemuxOp × List Bytes)} {s : Demuxer} {M : Nat → Nat} (m : Mem)
    (hn : name = "ps" ∨ name = "ts" ∨ name = "jt1078") (hr : Reached name true (operations h) s)
    (hp : ∀ x ∈ operations h, x.2.PacketOnly) (hid : ∀ x ∈ operations h, x.1.preprocess = id) (hk : ∀ x ∈ operations h, x.2.KeyFramed)
    (hin : InPieces h) (hl : LightInput M [] (Demuxer.new name true) (operations h))
    (hc : s.completed = true) (path : List Char) (disk : Disk)
    (hnew : ∀ t ∈ s.tracks.tracks, ∀ n, FileHandler.fileName path t = ok n → disk.lookup n = none)
    (F : Nat → Int → List Frame) (hF : ∀ i b, F i b ⊆ framesOf b (operations h))
    (hlane : ∀ (i : Nat) b, ((i : Int), b) ∈ s.bufferOf → List.Forall₂ (MadeOf name) (F i b) (ofTrack i (delivered s.calls))) :
    ∃ w o, ({ dem := Demuxer.new name true, mem := m } : Wired).run h = ok w ∧ w.dem = s ∧
      (FileHandler.new path disk).handleAll (asRead (toHandler w.dem.calls) w.got) = ok o ∧
      ∀ (i : Nat) t b, s.tracks.tracks[i]? = some t → ((i : Int), b) ∈ s.bufferOf → ∃ n, FileHandler.fileName path t = ok n ∧
        o.disk.lookup n = some ⟨132, (F i b).flatMap (inFile t)⟩ := by
  have hkeep : KeepsData (operations h) := fun x hx p => by rw [hid x hx]; rfl
  have hkn : KnownName name := by rcases hn with h | h | h <;> simp [KnownName, h]
  have hsound : ∀ x ∈ operations h, x.2.Sound name := by
    intro x hx
    have h1 := hk x hx
    have h2 := hp x hx
    obtain ⟨o, e⟩ := x
    cases e with
    | videoPacket b id d k dts pts => exact fun _ h3 _ => h1 h3
    | newAudioTrack => exact absurd h2 id
    | newVideoTrack => exact absurd h2 id
    | _ => trivial
  obtain ⟨w, hw, rfl, hgot, _⟩ := C78_delivered_bytes m hr hp hkeep hin hl
  have hsrc := C73_source hr hkn hp hsound
  have hi := Demuxer.Reached.inv hr
  -- the calls of the handler
  have hread : asRead (toHandler w.dem.calls) w.got = toHandler w.dem.calls := by
    rw [hgot, ← delivered_toHandler]
    exact asRead_same _
  by_cases hts : w.dem.tracks.tracks = []
  · refine ⟨w, FileHandler.new path disk, hw, rfl, ?_, ?_⟩
    · rw [hread, (C61_when hr).2.1 hc hts]; rfl
    · intro i t b ht; rw [hts] at ht; cases ht
  obtain ⟨cs, hcs⟩ := (C61_when hr).2.2 hc hts
  rcases C77_demuxer hr with (h0 | h0) | ⟨ts, ps, hses, hS, hps⟩
  · rw [h0] at hcs; simp at hcs
  · rw [h0] at hcs
    cases ht : w.dem.tracks.tracks with
    | nil => exact absurd ht hts
    | cons t l => rw [ht] at hcs; cases hcs
  have hteq : ts = w.dem.tracks.tracks := by
    have e := hses.symm.trans hcs
    unfold sessionCalls at e
    have key : ∀ (l l' : List AVStream) (x y : List Call), l.map Call.newTrack ++ .trackComplete :: x = l'.map .newTrack ++ .trackComplete :: y →
        l = l' := by
      intro l
      induction l with
      | nil =>
        intro l' x y e
        cases l' with
        | nil => rfl
        | cons t l' => cases e
      | cons t l ih =>
        intro l' x y e
        cases l' with
        | nil => cases e
        | cons t' l' =>
          simp only [List.map_cons, List.cons_append, List.cons.injEq, Call.newTrack.injEq] at e
          rw [e.1, ih l' x y e.2]
    exact key _ _ _ _ e
  subst hteq
  rw [← hps] at hlane
  have hframed : ∀ b, ∀ f ∈ framesOf b (operations h), f.video = true → f.key = true → WellFramed f.data := by
    intro b f hf hv hkey
    obtain ⟨⟨o, e⟩, hx, he⟩ := List.mem_filterMap.1 hf
    have := hk _ hx
    cases e with
    | videoPacket b' id d k dts pts =>
      simp only [DemuxOp.frame] at he
      split at he
      · cases he; exact this hkey
      · cases he
    | audioPacket b' id d ts =>
      simp only [DemuxOp.frame] at he
      split at he
      · cases he; cases hv
      · cases he
    | _ => cases he
  have hpacket : ∀ (i : Nat) t b, w.dem.tracks.tracks[i]? = some t → ((i : Int), b) ∈ w.dem.bufferOf → ∀ p ∈ ofTrack i ps,
      ∀ f ∈ F i b, MadeOf name f p →
      elementary t p = inFile t f ∧ doubled t p = [] ∧ NamedType p.mediaType ∧ (p.mediaType = mediaVideo → ∃ r, avccPacket2AnnexB t p = ok r) :=
    fun i t b ht hb p _ f hf hm => elementary_frame hn (hsrc t (List.mem_of_getElem? ht)) hm
      (hframed b f (hF i b hf))
  have hbuf : ∀ (i : Nat), i < w.dem.tracks.tracks.length → ∃ b, ((i : Int), b) ∈ w.dem.bufferOf := by
    intro i hlt
    have : (i : Int) ∈ w.dem.bufferOf.map Prod.fst := by
      rw [hi.keys]
      exact List.mem_map.2 ⟨i, List.mem_range.2 hlt, rfl⟩
    obtain ⟨⟨k, b⟩, h1, h2⟩ := List.mem_map.1 this
    cases h2
    exact ⟨b, h1⟩
  obtain ⟨o, ho⟩ := (C77_total path disk _ ps hS).2 ⟨fun t ht => by
      cases hsrc t ht with
      | video b dts pts xs hm hf htr => rw [htr.media]; exact ⟨by decide, by decide⟩
      | audio b ts d hm htr => rw [htr.media]; exact ⟨by decide, by decide⟩
      | odd hm _ => rw [hm]; exact ⟨by decide, by decide⟩, fun p hpm t ht hpt => by
    obtain ⟨i, hlt, rfl⟩ := List.mem_iff_getElem.1 ht
    have hti := hi.index i _ (List.getElem?_eq_getElem hlt)
    obtain ⟨b, hb⟩ := hbuf i hlt
    have hpo : p ∈ ofTrack i ps := by
      unfold ofTrack
      rw [List.mem_filter]
      exact ⟨hpm, by rw [hpt, hti]; simp⟩
    obtain ⟨f, hf, hm⟩ := forall₂_mem (hlane i b hb) hpo
    exact (hpacket i _ b (List.getElem?_eq_getElem hlt) hb p hpo f hf hm).2.2⟩
  refine ⟨w, o, hw, rfl, by rw [hread, hses]; exact ho, ?_⟩
  intro i t b ht hb
  obtain ⟨n, hname, hfile⟩ := (C77_contents path disk _ ps o hS ho).1 i t ht
  refine ⟨n, hname, ?_⟩
  dsimp only at hfile
  rw [hnew t (List.mem_of_getElem? ht) n hname] at hfile
  rw [hfile]
  simp only [Option.getD_none, List.drop_nil, List.append_nil]
  congr 2
  have hl := hlane i b hb
  have hpk := hpacket i t b ht hb
  generalize F i b = fs at hl hpk ⊢
  generalize ofTrack i ps = l at hl hpk ⊢
  induction hl with
  | nil => rfl
  | @cons f p fs l hm hs ih =>
    obtain ⟨h1, h2, _⟩ := hpk p (List.mem_cons_self ..) f (List.mem_cons_self ..) hm
    rw [List.flatMap_cons, List.flatMap_cons, h1, h2, List.nil_append,
      ih fun q hq g hg => hpk q (List.mem_cons_of_mem _ hq) g (List.mem_cons_of_mem _ hg)]

/-- **C94**: when probing has ended, the file of a track holds the frames given for its buffer, from the first one that was not
refused to the last but one, in this order, each as `inFile` says. For: packet input to a PS, TS or JT1078 demuxer without a
preprocess callback; key frames made of NAL units; DTS that increase in each buffer; a load that fits the rings; any cutting of the
frames into pieces; any order of the map of buffers; any sort; no files of these names before. -/
theorem C94_files {name : String} {h : List (Oracle × DemuxOp × List Bytes)} {s : Demuxer} {M : Nat → Nat} (m : Mem)
    (hn : name = "ps" ∨ name = "ts" ∨ name = "jt1078") (hr : Reached name true (operations h) s)
    (hp : ∀ x ∈ operations h, x.2.PacketOnly) (hid : ∀ x ∈ operations h, x.1.preprocess = id) (hk : ∀ x ∈ operations h, x.2.KeyFramed)
    (hd : ∀ b, (framesOf b (operations h)).Pairwise fun f g => f.dts < g.dts)
    (hin : InPieces h) (hl : LightInput M [] (Demuxer.new name true) (operations h))
    (hc : s.completed = true) (path : List Char) (disk : Disk)
    (hnew : ∀ t ∈ s.tracks.tracks, ∀ n, FileHandler.fileName path t = ok n → disk.lookup n = none) :
    ∃ w o, ({ dem := Demuxer.new name true, mem := m } : Wired).run h = ok w ∧ w.dem = s ∧
      (FileHandler.new path disk).handleAll (asRead (toHandler w.dem.calls) w.got) = ok o ∧
      ∀ (i : Nat) t b, s.tracks.tracks[i]? = some t → ((i : Int), b) ∈ s.bufferOf → ∃ n, FileHandler.fileName path t = ok n ∧
        o.disk.lookup n = some ⟨132, ((framesOf b (operations h)).drop (refusals b s.calls)).dropLast.flatMap (inFile t)⟩ := by
  refine files_of_lanes m hn hr hp hid hk hin hl hc path disk hnew
    (fun _ b => ((framesOf b (operations h)).drop (refusals b s.calls)).dropLast)
    (fun _ b f hf => List.mem_of_mem_drop ((List.dropLast_sublist _).subset hf)) ?_
  intro i b hb
  obtain ⟨_, h2⟩ := taken_frames hr hp hid b
  have htb := track_buffer hr hp hb
  rw [C63_input_order hr hp hc i, htb]
  · exact timed_made _ h2
  · rw [htb]
    have h3 := (hd b).sublist (List.drop_sublist (refusals b s.calls) _)
    generalize (framesOf b (operations h)).drop (refusals b s.calls) = fs at h2 h3
    generalize ofBuffer b (taken s.calls) = l at h2
    induction h2 with
    | nil => exact .nil
    | @cons f p fs l hm hs ih =>
      rw [List.pairwise_cons] at h3 ⊢
      refine ⟨fun q hq => ?_, ih h3.2⟩
      obtain ⟨g, hg, hgm⟩ := forall₂_mem hs hq
      rw [hm.dts, hgm.dts]
      exact h3.1 g hg

/-- **C94** without a condition on the DTS: the frames that came before probing ended, but the last of them, are in the file in an
order of increasing DTS; all later ones follow in the order in which they were given. -/
theorem C94_files_any {name : String} {h : List (Oracle × DemuxOp × List Bytes)} {s : Demuxer} {M : Nat → Nat} (m : Mem)
    (hn : name = "ps" ∨ name = "ts" ∨ name = "jt1078") (hr : Reached name true (operations h) s)
    (hp : ∀ x ∈ operations h, x.2.PacketOnly) (hid : ∀ x ∈ operations h, x.1.preprocess = id) (hk : ∀ x ∈ operations h, x.2.KeyFramed)
    (hin : InPieces h) (hl : LightInput M [] (Demuxer.new name true) (operations h))
    (hc : s.completed = true) (path : List Char) (disk : Disk)
    (hnew : ∀ t ∈ s.tracks.tracks, ∀ n, FileHandler.fileName path t = ok n → disk.lookup n = none) :
    ∃ w o, ({ dem := Demuxer.new name true, mem := m } : Wired).run h = ok w ∧ w.dem = s ∧
      (FileHandler.new path disk).handleAll (asRead (toHandler w.dem.calls) w.got) = ok o ∧
      ∀ (i : Nat) t b, s.tracks.tracks[i]? = some t → ((i : Int), b) ∈ s.bufferOf → ∃ n, ∃ early : List Frame, FileHandler.fileName path t = ok n ∧
        let fs := ((framesOf b (operations h)).drop (refusals b s.calls)).dropLast
        let k := (ofBuffer b (taken (beforeComplete s.calls))).length - 1
        early.Perm (fs.take k) ∧ (early.Pairwise fun f g => f.dts ≤ g.dts) ∧
        o.disk.lookup n = some ⟨132, (early ++ fs.drop k).flatMap (inFile t)⟩ := by
  obtain ⟨early, late, h1, h2, h3, h4⟩ := C62_in_order_partial hr (C62_packet_input hr hp) hc
  have key : ∀ (i : Nat) b, ∃ F : List Frame, F ⊆ framesOf b (operations h) ∧ (((i : Int), b) ∈ s.bufferOf →
      List.Forall₂ (MadeOf name) F (ofTrack i (delivered s.calls)) ∧
      ∃ es : List Frame, F = es ++ (((framesOf b (operations h)).drop (refusals b s.calls)).dropLast).drop ((ofBuffer b (taken (beforeComplete s.calls))).length - 1) ∧
        es.Perm ((((framesOf b (operations h)).drop (refusals b s.calls)).dropLast).take ((ofBuffer b (taken (beforeComplete s.calls))).length - 1)) ∧
        es.Pairwise fun f g => f.dts ≤ g.dts) := by
    intro i b
    by_cases hb : ((i : Int), b) ∈ s.bufferOf
    swap
    · exact ⟨[], List.nil_subset _, fun h => absurd h hb⟩
    obtain ⟨_, h5⟩ := taken_frames hr hp hid b
    have h6 := timed_made _ h5
    rw [← track_buffer hr hp hb, h4 i] at h6
    have hlen : (timed (ofTrack i (taken (beforeComplete s.calls)))).length = (ofBuffer b (taken (beforeComplete s.calls))).length - 1 := by
      have hall := track_buffer hr hp hb
      have e : ofTrack i (taken (beforeComplete s.calls)) = ofBuffer b (taken (beforeComplete s.calls)) := by
        unfold ofTrack ofBuffer at hall ⊢
        refine List.filter_congr fun p hpm => ?_
        have hmem : p ∈ taken s.calls := by
          unfold taken at hpm ⊢
          exact ((List.takeWhile_prefix _).sublist.filterMap _).subset hpm
        have hiff : p ∈ (taken s.calls).filter (fun p => decide (p.index = (i : Int))) ↔ p ∈ (taken s.calls).filter (fun p => decide (p.bufferIndex = b)) := by
          rw [hall]
        rw [List.mem_filter, List.mem_filter] at hiff
        rw [Bool.eq_iff_iff]
        constructor
        · exact fun hx => (hiff.1 ⟨hmem, hx⟩).2
        · exact fun hx => (hiff.2 ⟨hmem, hx⟩).2
      rw [timed_length, e]
    have h7 := List.forall₂_take_append _ _ _ h6
    have h8 := List.forall₂_drop_append _ _ _ h6
    rw [hlen] at h7 h8
    have h9 : List.Forall₂ (fun p f => MadeOf name f p) (timed (ofTrack i (taken (beforeComplete s.calls)))) _ := h7.flip
    obtain ⟨es, hes, hperm⟩ := List.perm_comp_forall₂ (h3 i) h9
    have hes' : List.Forall₂ (MadeOf name) es (ofTrack i early) := hes.flip
    refine ⟨_, ?_, fun _ => ⟨?_, es, rfl, hperm, ?_⟩⟩
    · intro f hf
      have hsub : f ∈ ((framesOf b (operations h)).drop (refusals b s.calls)).dropLast := by
        rcases List.mem_append.1 hf with hf | hf
        · exact List.mem_of_mem_take (hperm.subset hf)
        · exact List.mem_of_mem_drop hf
      exact List.mem_of_mem_drop ((List.dropLast_sublist _).subset hsub)
    · rw [h1, ofTrack_append]
      exact List.rel_append hes' h8
    · have hs2 : (ofTrack i early).Pairwise fun a b => ¬ b.dts < a.dts := h2.sublist List.filter_sublist
      clear hperm h7 h8 h9 h6 hes
      generalize ofTrack i early = l at hes' hs2
      induction hes' with
      | nil => exact .nil
      | @cons f p fs l hm hs ih =>
        rw [List.pairwise_cons] at hs2 ⊢
        refine ⟨fun g hg => ?_, ih hs2.2⟩
        obtain ⟨q, hq, hgm⟩ := forall₂_mem (R := fun p f => MadeOf name f p) hs.flip hg
        have := hs2.1 q hq
        rw [hm.dts, hgm.dts] at this
        omega
  choose F hF hF' using key
  obtain ⟨w, o, hw, hs, ho, hfile⟩ := files_of_lanes m hn hr hp hid hk hin hl hc path disk hnew F hF (fun i b hb => (hF' i b hb).1)
  refine ⟨w, o, hw, hs, ho, fun i t b ht hb => ?_⟩
  obtain ⟨n, hn, he⟩ := hfile i t b ht hb
  obtain ⟨_, es, hFe, hperm, hsort⟩ := hF' i b hb
  exact ⟨n, es, hn, hperm, hsort, by rw [he, hFe]⟩

/-! ## A concrete case -/

/-- A key frame with parameter sets, sound, an AAC packet without header on a third buffer, frames with and without parameter sets,
sound; probing ends; more frames. -/
def filmRun : List (Oracle × DemuxOp × List Bytes) :=
  [(exOracle, .audioPacket 0 codecPCMS16LE [1, 2] 0, [[1, 2]]),
   (exOracle, .videoPacket 1 codecH264 [0, 0, 1, 0x41, 9] false 0 0, [[0, 0, 1, 0x41, 9]]),
   (exOracle, .videoPacket 1 codecH264 (annexB exUnits) true 30 30, [(annexB exUnits).take 5, [], (annexB exUnits).drop 5]),
   (exOracle, .audioPacket 2 codecAAC [9] 0, [[9]]),
   (exOracle, .videoPacket 1 codecH264 [0, 0, 1, 0x41, 8] false 60 60, [[0, 0, 1], [0x41, 8]]),
   (exOracle, .audioPacket 0 codecPCMS16LE [3, 4] 40, [[3, 4]]),
   (exOracle, .probeComplete, []),
   (exOracle, .videoPacket 1 codecH264 [0, 0, 1, 0x65, 7] true 90 90, [[0, 0, 1, 0x65, 7]]),
   (exOracle, .videoPacket 1 codecH264 [0, 0, 1, 0x41, 6] false 120 120, [[0, 0, 1, 0x41, 6]])]


def filmSets : Bytes := withCodes [[103, 66, 0, 31, 218, 1, 64, 22, 228], [104, 206]]

theorem filmRun_result : ∃ s, Reached "ts" true (operations filmRun) s ∧ s.completed = true ∧
    s.tracks.tracks.map (fun t => (t.mediaType, t.index, t.codecID, t.data)) = [(mediaAudio, 0, codecPCMS16LE, []), (mediaVideo, 1, codecH264, filmSets)] ∧
    s.bufferOf = [(0, 0), (1, 1)] ∧ [0, 1, 2].map (fun b => refusals b s.calls) = [0, 1, 1] ∧
    LightInput (fun _ => 40) [] (Demuxer.new "ts" true) (operations filmRun) := by
  have h : (runDemux (Demuxer.new "ts" true) (operations filmRun) >>= fun s => ok (decide (s.completed = true ∧
      s.tracks.tracks.map (fun t => (t.mediaType, t.index, t.codecID, t.data)) =
        [(mediaAudio, 0, codecPCMS16LE, []), (mediaVideo, 1, codecH264, filmSets)] ∧
      s.bufferOf = [(0, 0), (1, 1)] ∧ [0, 1, 2].map (fun b => refusals b s.calls) = [0, 1, 1]))) = ok true := by decide +kernel
  obtain ⟨s, h1, h2⟩ := bind_eq_ok.1 h
  simp only [Go.ok.injEq, decide_eq_true_eq] at h2
  refine ⟨s, ⟨fun x hx => ?_, h1⟩, h2.1, h2.2.1, h2.2.2.1, h2.2.2.2, lightInput_sound (by decide +kernel)⟩
  have : x.1 = exOracle := by revert x; simp [operations, filmRun]
  rw [this]; exact exOracle_valid

/-- All hypotheses hold of `filmRun`. The sound file has the first packet, and not the one that is held back; the video file begins
with the key frame, and the second key frame, which has none, gets its parameter sets. -/
example (m : Mem) : ∃ w o, ({ dem := Demuxer.new "ts" true, mem := m } : Wired).run filmRun = ok w ∧
    (FileHandler.new ['o'] []).handleAll (asRead (toHandler w.dem.calls) w.got) = ok o ∧
    o.disk.lookup "o.audio.0.PCMS16LE".toList = some ⟨132, [1, 2]⟩ ∧
    o.disk.lookup "o.video.1.H264".toList =
      some ⟨132, annexB exUnits ++ [0, 0, 1, 0x41, 8] ++ filmSets ++ [0, 0, 1, 0x65, 7]⟩ := by
  obtain ⟨s, hr, hc, ht, hb, hn, hl⟩ := filmRun_result
  have hx : ∀ x ∈ operations filmRun, x.1 = exOracle := by simp [operations, filmRun]
  obtain ⟨w, o, h1, rfl, h2, h3⟩ := C94_files m (Or.inr (Or.inl rfl)) hr (by simp [operations, filmRun, DemuxOp.PacketOnly])
    (fun x h => by rw [hx x h]; rfl)
    (by
      intro x hx
      simp only [operations, filmRun, List.map_cons, List.map_nil, List.mem_cons, List.not_mem_nil, or_false] at hx
      rcases hx with rfl | rfl | rfl | rfl | rfl | rfl | rfl | rfl | rfl <;> simp only [DemuxOp.KeyFramed, Bool.false_eq_true, false_implies]
      · exact fun _ => ⟨exUnits, by decide, by decide, rfl⟩
      · exact fun _ => ⟨[(false, [0x65, 7])], by decide, by decide, rfl⟩)
    (by
      intro b
      have e : operations filmRun = filmRun.map fun x => (x.1, x.2.1) := rfl
      by_cases h0 : b = 0
      · subst h0; decide
      · by_cases h1 : b = 1
        · subst h1; decide
        · by_cases h2 : b = 2
          · subst h2; decide
          · have : framesOf b (operations filmRun) = [] := by
              simp [framesOf, operations, filmRun, DemuxOp.frame, Ne.symm h0, Ne.symm h1, Ne.symm h2]
            rw [this]; exact .nil)
    (by intro x hx b d hk
        simp only [filmRun, List.mem_cons, List.not_mem_nil, or_false] at hx
        rcases hx with rfl | rfl | rfl | rfl | rfl | rfl | rfl | rfl | rfl <;> simp [DemuxOp.block] at hk ⊢ <;> simp [← hk.2])
    hl hc ['o'] [] (fun _ _ _ _ => rfl)
  refine ⟨w, o, h1, h2, ?_⟩
  simp only [List.map_cons, List.map_nil, List.cons.injEq, and_true] at hn
  obtain ⟨n0, n1, _⟩ := hn
  obtain ⟨t0, l, hts, ha, ht⟩ := List.map_eq_cons_iff.1 ht
  obtain ⟨t1, l, rfl, hb1, ht⟩ := List.map_eq_cons_iff.1 ht
  simp only [Prod.mk.injEq] at ha hb1
  obtain ⟨a1, a2, a3, a4⟩ := ha
  obtain ⟨b1, b2, b3, b4⟩ := hb1
  obtain ⟨f0, g0, g1⟩ := h3 0 t0 0 (by rw [hts]; rfl) (by rw [hb]; decide)
  obtain ⟨f1, k0, k1⟩ := h3 1 t1 1 (by rw [hts]; rfl) (by rw [hb]; decide)
  have e0 : FileHandler.fileName ['o'] t0 = ok "o.audio.0.PCMS16LE".toList := by
    unfold FileHandler.fileName
    rw [a1, a2, a3]; decide +kernel
  have e1 : FileHandler.fileName ['o'] t1 = ok "o.video.1.H264".toList := by
    unfold FileHandler.fileName
    rw [b1, b2, b3]; decide +kernel
  rw [e0] at g0; cases g0
  rw [e1] at k0; cases k0
  refine ⟨?_, ?_⟩
  · rw [g1, n0]
    unfold inFile
    rw [a1, a3, a4]
    decide +kernel
  · rw [k1, n1]
    unfold inFile
    rw [b1, b3, b4]
    decide +kernel

/-- Two sound packets with swapped time stamps while probing and two after it. -/
def swappedRun : List (Oracle × DemuxOp × List Bytes) :=
  [(exOracle, .audioPacket 0 codecPCMS16LE [1] 20, [[1]]), (exOracle, .audioPacket 0 codecPCMS16LE [2] 10, [[2]]),
   (exOracle, .audioPacket 0 codecPCMS16LE [3] 50, [[3]]), (exOracle, .probeComplete, []),
   (exOracle, .audioPacket 0 codecPCMS16LE [4] 40, [[4]]), (exOracle, .audioPacket 0 codecPCMS16LE [5] 30, [[5]])]

theorem swappedRun_result : ∃ s, Reached "ts" true (operations swappedRun) s ∧ s.completed = true ∧
    s.tracks.tracks.map (fun t => (t.mediaType, t.index, t.codecID, t.data)) = [(mediaAudio, 0, codecPCMS16LE, [])] ∧
    s.bufferOf = [(0, 0)] ∧ refusals 0 s.calls = 0 ∧ (ofBuffer 0 (taken (beforeComplete s.calls))).length = 3 ∧
    LightInput (fun _ => 40) [] (Demuxer.new "ts" true) (operations swappedRun) := by
  have h : (runDemux (Demuxer.new "ts" true) (operations swappedRun) >>= fun s => ok (decide (s.completed = true ∧
      s.tracks.tracks.map (fun t => (t.mediaType, t.index, t.codecID, t.data)) = [(mediaAudio, 0, codecPCMS16LE, [])] ∧
      s.bufferOf = [(0, 0)] ∧ refusals 0 s.calls = 0 ∧ (ofBuffer 0 (taken (beforeComplete s.calls))).length = 3))) = ok true := by
    decide +kernel
  obtain ⟨s, h1, h2⟩ := bind_eq_ok.1 h
  simp only [Go.ok.injEq, decide_eq_true_eq] at h2
  refine ⟨s, ⟨fun x hx => ?_, h1⟩, h2.1, h2.2.1, h2.2.2.1, h2.2.2.2.1, h2.2.2.2.2, lightInput_sound (by decide +kernel)⟩
  have : x.1 = exOracle := by revert x; simp [operations, swappedRun]
  rw [this]; exact exOracle_valid

/-- The first two are sorted by DTS; the later ones are as given; the last is held back. -/
example (m : Mem) : ∃ w o, ({ dem := Demuxer.new "ts" true, mem := m } : Wired).run swappedRun = ok w ∧
    (FileHandler.new ['o'] []).handleAll (asRead (toHandler w.dem.calls) w.got) = ok o ∧
    o.disk.lookup "o.audio.0.PCMS16LE".toList = some ⟨132, [2, 1, 3, 4]⟩ := by
  obtain ⟨s, hr, hc, ht, hb, hn, hb4, hl⟩ := swappedRun_result
  have hx : ∀ x ∈ operations swappedRun, x.1 = exOracle := by simp [operations, swappedRun]
  obtain ⟨w, o, h1, rfl, h2, h3⟩ := C94_files_any m (Or.inr (Or.inl rfl)) hr (by simp [operations, swappedRun, DemuxOp.PacketOnly])
    (fun x h => by rw [hx x h]; rfl) (by simp [operations, swappedRun, DemuxOp.KeyFramed])
    (by intro x hx b d hk
        simp only [swappedRun, List.mem_cons, List.not_mem_nil, or_false] at hx
        rcases hx with rfl | rfl | rfl | rfl | rfl | rfl <;> simp [DemuxOp.block] at hk ⊢ <;> simp [← hk.2])
    hl hc ['o'] [] (fun _ _ _ _ => rfl)
  refine ⟨w, o, h1, h2, ?_⟩
  obtain ⟨t0, l, hts, ha, ht⟩ := List.map_eq_cons_iff.1 ht
  simp only [Prod.mk.injEq] at ha
  obtain ⟨a1, a2, a3, a4⟩ := ha
  obtain ⟨f0, es, g0, hperm, hsort, g1⟩ := h3 0 t0 0 (by rw [hts]; rfl) (by rw [hb]; decide)
  have e0 : FileHandler.fileName ['o'] t0 = ok "o.audio.0.PCMS16LE".toList := by
    unfold FileHandler.fileName
    rw [a1, a2, a3]; decide +kernel
  rw [e0] at g0; cases g0
  have hes : es = [⟨false, false, [2], 10⟩, ⟨false, false, [1], 20⟩] := by
    rw [hn, hb4] at hperm
    have hp2 : es.Perm [(⟨false, false, [1], 20⟩ : Frame), ⟨false, false, [2], 10⟩] := hperm
    have hlen := hp2.length_eq
    match es, hlen, hp2, hsort with
    | [x, y], _, hp2, hsort =>
      have hxm := hp2.subset (List.mem_cons_self ..)
      have hym := hp2.subset (List.mem_cons_of_mem _ (List.mem_cons_self ..))
      have hnd := hp2.nodup_iff.2 (by decide)
      have hxy := (List.pairwise_cons.1 hsort).1 y (List.mem_cons_self ..)
      simp only [List.mem_cons, List.not_mem_nil, or_false] at hxm hym
      rcases hxm with rfl | rfl <;> rcases hym with rfl | rfl
      · simp at hnd
      · simp at hxy
      · rfl
      · simp at hnd
  rw [g1, hn, hb4, hes]
  unfold inFile
  rw [a1, a3, a4]
  decide +kernel

end Avf
