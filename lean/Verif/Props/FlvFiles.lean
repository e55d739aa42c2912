import Verif.Lemmas.FlvFiles
import Verif.Props.RepoTests
/-!
# C99: from announced tracks and packets to files

As C94, for tracks that are announced (`OnNewAudioTrack`, `OnNewVideoTrack`) as well, in every format, and then for FLV. Packets are
values here: what the pipeline does with memory is C64 and C78.
-/
namespace Avf
open Go

/-- **C99**, packets: in every history those taken for a buffer are what was given for it since some moment when it had no track, in
this order, unchanged and without a gap. -/
theorem C99_taken {name : String} {a : Bool} {h : List (Oracle × DemuxOp)} {s : Demuxer} (hr : Reached name a h s)
    (hid : ∀ x ∈ h, x.1.preprocess = id) (b : Int) :
    ∃ h1 h2 s1, h = h1 ++ h2 ∧ Reached name a h1 s1 ∧ b ∉ s1.bufferOf.map Prod.snd ∧
      List.Forall₂ (MadeFrom name) (givenOf b h2) (ofBuffer b (taken s.calls)) := taken_since hr hid b

/-- The files, when it is known that the packets of each track are made of what was given for its buffer. -/
theorem given_files {name : String} {a : Bool} {h : List (Oracle × DemuxOp)} {s : Demuxer} (hr : Reached name a h s) (hc : s.completed = true)
    (hconv : ∀ (i : Nat) t b, s.tracks.tracks[i]? = some t → ((i : Int), b) ∈ s.bufferOf → ∀ g ∈ givenOf b h, g.video = true →
      ∀ p, MadeFrom name g p → ∃ r, avccPacket2AnnexB t p = ok r)
    (path : List Char) (disk : Disk) (hnew : ∀ t ∈ s.tracks.tracks, ∀ n, FileHandler.fileName path t = ok n → disk.lookup n = none)
    (hlane : ∀ (i : Nat) b, ((i : Int), b) ∈ s.bufferOf → ∃ fs : List Given, fs ⊆ givenOf b h ∧
      List.Forall₂ (MadeFrom name) fs (ofTrack i (delivered s.calls))) :
    ∃ o, (FileHandler.new path disk).handleAll (toHandler s.calls) = ok o ∧
      ∀ (i : Nat) t, s.tracks.tracks[i]? = some t → ∃ n, FileHandler.fileName path t = ok n ∧
        o.disk.lookup n = some ⟨132, (ofTrack i (delivered s.calls)).flatMap fun p => doubled t p ++ elementary t p⟩ := by
  have hi := Demuxer.Reached.inv hr
  by_cases hts : s.tracks.tracks = []
  · refine ⟨FileHandler.new path disk, ?_, ?_⟩
    · rw [(C61_when hr).2.1 hc hts]; rfl
    · intro i t ht; rw [hts] at ht; cases ht
  obtain ⟨cs, hcs⟩ := (C61_when hr).2.2 hc hts
  rcases C77_demuxer hr with (h0 | h0) | ⟨ts, ps, hses, hS, hps⟩
  · rw [h0] at hcs; simp at hcs
  · rw [h0] at hcs
    cases ht : s.tracks.tracks with
    | nil => exact absurd ht hts
    | cons t l => rw [ht] at hcs; cases hcs
  have hteq : ts = s.tracks.tracks := session_tracks (hses.symm.trans hcs)
  subst hteq
  rw [← hps] at hlane ⊢
  have hbuf : ∀ (i : Nat), i < s.tracks.tracks.length → ∃ b, ((i : Int), b) ∈ s.bufferOf := by
    intro i hlt
    have : (i : Int) ∈ s.bufferOf.map Prod.fst := by
      rw [hi.keys]
      exact List.mem_map.2 ⟨i, List.mem_range.2 hlt, rfl⟩
    obtain ⟨⟨k, b⟩, h1, h2⟩ := List.mem_map.1 this
    cases h2
    exact ⟨b, h1⟩
  have hnamed : ∀ m, m = mediaAudio ∨ m = mediaVideo → NamedType m := by
    rintro m (rfl | rfl) <;> exact ⟨by decide, by decide⟩
  obtain ⟨o, ho⟩ := (C77_total path disk _ ps hS).2 ⟨fun t ht => hnamed _ (track_types hr t ht), fun p hpm t ht hpt => by
    obtain ⟨i, hlt, rfl⟩ := List.mem_iff_getElem.1 ht
    have hti := hi.index i _ (List.getElem?_eq_getElem hlt)
    obtain ⟨b, hb⟩ := hbuf i hlt
    have hpo : p ∈ ofTrack i ps := by
      unfold ofTrack
      rw [List.mem_filter]
      exact ⟨hpm, by rw [hpt, hti]; simp⟩
    obtain ⟨fs, hsub, hl⟩ := hlane i b hb
    obtain ⟨g, hg, hm⟩ := forall₂_mem hl hpo
    have hgh : g ∈ givenOf b h := hsub hg
    refine ⟨hnamed _ ?_, fun hv => ?_⟩
    · rw [hm.media]
      cases g.video
      · exact Or.inl rfl
      · exact Or.inr rfl
    · refine hconv i _ b (List.getElem?_eq_getElem hlt) hb g hgh ?_ p hm
      have := hm.media
      cases hgv : g.video with
      | true => rfl
      | false => rw [hv, hgv] at this; exact absurd this (by decide)⟩
  refine ⟨o, by rw [hses]; exact ho, ?_⟩
  intro i t ht
  obtain ⟨n, hname, hfile⟩ := (C77_contents path disk _ ps o hS ho).1 i t ht
  refine ⟨n, hname, ?_⟩
  dsimp only at hfile
  rw [hnew t (List.mem_of_getElem? ht) n hname] at hfile
  rw [hfile]
  simp

/-- **C99**, every format: when probing has ended, the file of a track holds what the packets stand for (C77) that were given for its
buffer since it had a track, but the last (a single one may be there). For: no preprocess callback; no two tracks with the same buffer;
an orderly history (the first packets in the order of the tracks, or two tracks that both have packets before probing ends); DTS that
increase in each buffer; packets that can be converted; no files of these names before. -/
theorem C99_files {name : String} {a : Bool} {h : List (Oracle × DemuxOp)} {s : Demuxer} (hr : Reached name a h s)
    (hid : ∀ x ∈ h, x.1.preprocess = id) (hinj : (s.bufferOf.map Prod.snd).Nodup) (hf : Orderly s)
    (hd : ∀ b, (givenOf b h).Pairwise fun f g => f.dts < g.dts) (hc : s.completed = true)
    (hconv : ∀ (i : Nat) t b, s.tracks.tracks[i]? = some t → ((i : Int), b) ∈ s.bufferOf → ∀ g ∈ givenOf b h, g.video = true →
      ∀ p, MadeFrom name g p → ∃ r, avccPacket2AnnexB t p = ok r)
    (path : List Char) (disk : Disk) (hnew : ∀ t ∈ s.tracks.tracks, ∀ n, FileHandler.fileName path t = ok n → disk.lookup n = none) :
    ∃ o, (FileHandler.new path disk).handleAll (toHandler s.calls) = ok o ∧
      ∀ (i : Nat) t b, s.tracks.tracks[i]? = some t → ((i : Int), b) ∈ s.bufferOf → ∃ n h1 h2 s1 fs ps, FileHandler.fileName path t = ok n ∧
        h = h1 ++ h2 ∧ Reached name a h1 s1 ∧ b ∉ s1.bufferOf.map Prod.snd ∧ ButLast (givenOf b h2) fs ∧
        (FirstsInOrder (taken s.calls) → fs = (givenOf b h2).dropLast) ∧ List.Forall₂ (MadeFrom name) fs ps ∧
        o.disk.lookup n = some ⟨132, ps.flatMap fun p => doubled t p ++ elementary t p⟩ := by
  have hlane : ∀ (i : Nat) b, ((i : Int), b) ∈ s.bufferOf → ∃ h1 h2 s1, h = h1 ++ h2 ∧ Reached name a h1 s1 ∧
      b ∉ s1.bufferOf.map Prod.snd ∧ ∃ fs, ButLast (givenOf b h2) fs ∧ (FirstsInOrder (taken s.calls) → fs = (givenOf b h2).dropLast) ∧
      List.Forall₂ (MadeFrom name) fs (ofTrack i (delivered s.calls)) := by
    intro i b hb
    obtain ⟨h1, h2, s1, e, hr1, hb1, hm⟩ := taken_since hr hid b
    refine ⟨h1, h2, s1, e, hr1, hb1, ?_⟩
    have htb := track_lane hr hinj hb
    refine delivered_given hr hc hf ?_ (by rw [htb]; exact hm)
    · rw [htb]
      have h3 : (givenOf b h2).Pairwise fun f g => f.dts < g.dts := by
        have := hd b
        rw [e, givenOf_append] at this
        exact (List.pairwise_append.1 this).2.1
      generalize givenOf b h2 = fs at hm h3
      generalize ofBuffer b (taken s.calls) = l at hm
      induction hm with
      | nil => exact .nil
      | @cons f p fs l hm hs ih =>
        rw [List.pairwise_cons] at h3 ⊢
        refine ⟨fun q hq => ?_, ih h3.2⟩
        obtain ⟨g, hg, hgm⟩ := forall₂_mem hs hq
        rw [hm.dts, hgm.dts]
        exact h3.1 g hg
  obtain ⟨o, ho, hfile⟩ := given_files hr hc hconv path disk hnew fun i b hb => by
    obtain ⟨h1, h2, s1, e, _, _, fs, hbl, _, hl⟩ := hlane i b hb
    refine ⟨fs, fun g hg => ?_, hl⟩
    rw [e, givenOf_append]
    exact List.mem_append_right _ (hbl.mem hg)
  refine ⟨o, ho, fun i t b ht hb => ?_⟩
  obtain ⟨n, hname, hfile⟩ := hfile i t ht
  obtain ⟨h1, h2, s1, e, hr1, hb1, fs, hbl, hfs, hl⟩ := hlane i b hb
  exact ⟨n, h1, h2, s1, fs, ofTrack i (delivered s.calls), hname, e, hr1, hb1, hbl, hfs, hl, hfile⟩

/-- **C99**, every format, with any DTS, if the first packets come in the order of the tracks: what came before probing ended, but the
last of it, is in the file in an order of increasing DTS; the rest follows in the order in which it was given. -/
theorem C99_files_any {name : String} {a : Bool} {h : List (Oracle × DemuxOp)} {s : Demuxer} (hr : Reached name a h s)
    (hid : ∀ x ∈ h, x.1.preprocess = id) (hinj : (s.bufferOf.map Prod.snd).Nodup) (hf : FirstsInOrder (taken s.calls)) (hc : s.completed = true)
    (hconv : ∀ (i : Nat) t b, s.tracks.tracks[i]? = some t → ((i : Int), b) ∈ s.bufferOf → ∀ g ∈ givenOf b h, g.video = true →
      ∀ p, MadeFrom name g p → ∃ r, avccPacket2AnnexB t p = ok r)
    (path : List Char) (disk : Disk) (hnew : ∀ t ∈ s.tracks.tracks, ∀ n, FileHandler.fileName path t = ok n → disk.lookup n = none) :
    ∃ o, (FileHandler.new path disk).handleAll (toHandler s.calls) = ok o ∧
      ∀ (i : Nat) t b, s.tracks.tracks[i]? = some t → ((i : Int), b) ∈ s.bufferOf → ∃ n h1 h2 s1 ps, ∃ early : List Given,
        FileHandler.fileName path t = ok n ∧ h = h1 ++ h2 ∧ Reached name a h1 s1 ∧ b ∉ s1.bufferOf.map Prod.snd ∧
        let fs := (givenOf b h2).dropLast
        let k := (ofTrack i (taken (beforeComplete s.calls))).length - 1
        early.Perm (fs.take k) ∧ (early.Pairwise fun f g => f.dts ≤ g.dts) ∧ List.Forall₂ (MadeFrom name) (early ++ fs.drop k) ps ∧
        o.disk.lookup n = some ⟨132, ps.flatMap fun p => doubled t p ++ elementary t p⟩ := by
  obtain ⟨early, late, e1, e2, e3, e4⟩ := C62_in_order_partial hr hf hc
  have hlane : ∀ (i : Nat) b, ((i : Int), b) ∈ s.bufferOf → ∃ h1 h2 s1, ∃ es : List Given, h = h1 ++ h2 ∧ Reached name a h1 s1 ∧
      b ∉ s1.bufferOf.map Prod.snd ∧ es.Perm ((givenOf b h2).dropLast.take ((ofTrack i (taken (beforeComplete s.calls))).length - 1)) ∧
      (es.Pairwise fun f g => f.dts ≤ g.dts) ∧
      List.Forall₂ (MadeFrom name) (es ++ (givenOf b h2).dropLast.drop ((ofTrack i (taken (beforeComplete s.calls))).length - 1))
        (ofTrack i (delivered s.calls)) := by
    intro i b hb
    obtain ⟨h1, h2, s1, e, hr1, hb1, hm⟩ := taken_since hr hid b
    rw [← track_lane hr hinj hb] at hm
    have h6 := timed_given _ hm
    rw [e4 i] at h6
    have h7 := List.forall₂_take_append _ _ _ h6
    have h8 := List.forall₂_drop_append _ _ _ h6
    rw [timed_length] at h7 h8
    have h9 : List.Forall₂ (fun p f => MadeFrom name f p) (timed (ofTrack i (taken (beforeComplete s.calls)))) _ := h7.flip
    obtain ⟨es, hes, hperm⟩ := List.perm_comp_forall₂ (e3 i) h9
    have hes' : List.Forall₂ (MadeFrom name) es (ofTrack i early) := hes.flip
    refine ⟨h1, h2, s1, es, e, hr1, hb1, hperm, ?_, by rw [e1, ofTrack_append]; exact List.rel_append hes' h8⟩
    have hs2 : (ofTrack i early).Pairwise fun a b => ¬ b.dts < a.dts := e2.sublist List.filter_sublist
    clear hperm h7 h8 h9 h6 hes
    generalize ofTrack i early = l at hes' hs2
    induction hes' with
    | nil => exact .nil
    | @cons f p fs l hm hs ih =>
      rw [List.pairwise_cons] at hs2 ⊢
      refine ⟨fun g hg => ?_, ih hs2.2⟩
      obtain ⟨q, hq, hgm⟩ := forall₂_mem (R := fun p f => MadeFrom name f p) hs.flip hg
      have := hs2.1 q hq
      rw [hm.dts, hgm.dts] at this
      omega
  obtain ⟨o, ho, hfile⟩ := given_files hr hc hconv path disk hnew fun i b hb => by
    obtain ⟨h1, h2, s1, es, e, _, _, hperm, _, hl⟩ := hlane i b hb
    refine ⟨_, fun g hg => ?_, hl⟩
    rw [e, givenOf_append]
    refine List.mem_append_right _ ((List.dropLast_sublist _).subset ?_)
    rcases List.mem_append.1 hg with hg | hg
    · exact List.mem_of_mem_take (hperm.subset hg)
    · exact List.mem_of_mem_drop hg
  refine ⟨o, ho, fun i t b ht hb => ?_⟩
  obtain ⟨n, hname, hfile⟩ := hfile i t ht
  obtain ⟨h1, h2, s1, es, e, hr1, hb1, hperm, hsort, hl⟩ := hlane i b hb
  exact ⟨n, h1, h2, s1, _, es, hname, e, hr1, hb1, hperm, hsort, hl, hfile⟩

/-- **C99**, every format, every history: whatever the DTS and in whatever order tracks get their packets, nothing is in a file twice
and nothing is missing in it, but at most as much as there are tracks: what is held back. -/
theorem C99_conserved {name : String} {a : Bool} {h : List (Oracle × DemuxOp)} {s : Demuxer} (hr : Reached name a h s)
    (hid : ∀ x ∈ h, x.1.preprocess = id) (hinj : (s.bufferOf.map Prod.snd).Nodup) (hc : s.completed = true)
    (hconv : ∀ (i : Nat) t b, s.tracks.tracks[i]? = some t → ((i : Int), b) ∈ s.bufferOf → ∀ g ∈ givenOf b h, g.video = true →
      ∀ p, MadeFrom name g p → ∃ r, avccPacket2AnnexB t p = ok r)
    (path : List Char) (disk : Disk) (hnew : ∀ t ∈ s.tracks.tracks, ∀ n, FileHandler.fileName path t = ok n → disk.lookup n = none) :
    ∃ o, (FileHandler.new path disk).handleAll (toHandler s.calls) = ok o ∧ s.packets.flatten.length ≤ s.tracks.tracks.length ∧
      ∀ (i : Nat) t b, s.tracks.tracks[i]? = some t → ((i : Int), b) ∈ s.bufferOf → ∃ n h1 h2 s1 ps, ∃ fs held : List Given,
        FileHandler.fileName path t = ok n ∧ h = h1 ++ h2 ∧ Reached name a h1 s1 ∧ b ∉ s1.bufferOf.map Prod.snd ∧
        (fs ++ held).Perm (givenOf b h2) ∧ held.length = (ofTrack i s.packets.flatten).length ∧ List.Forall₂ (MadeFrom name) fs ps ∧
        o.disk.lookup n = some ⟨132, ps.flatMap fun p => doubled t p ++ elementary t p⟩ := by
  have hlane : ∀ (i : Nat) b, ((i : Int), b) ∈ s.bufferOf → ∃ h1 h2 s1, ∃ fs held : List Given, h = h1 ++ h2 ∧ Reached name a h1 s1 ∧
      b ∉ s1.bufferOf.map Prod.snd ∧ (fs ++ held).Perm (givenOf b h2) ∧ held.length = (ofTrack i s.packets.flatten).length ∧
      List.Forall₂ (MadeFrom name) fs (ofTrack i (delivered s.calls)) := by
    intro i b hb
    obtain ⟨h1, h2, s1, e, hr1, hb1, hm⟩ := taken_since hr hid b
    rw [← track_lane hr hinj hb] at hm
    have hcons := (C62_conserved hr).filter fun p => decide (p.index = (i : Int))
    rw [List.filter_map, List.filter_map, List.filter_append] at hcons
    have hcons' : ((ofTrack i (delivered s.calls) ++ ofTrack i s.packets.flatten).map bare).Perm ((ofTrack i (taken s.calls)).map bare) := hcons
    have hm2 : List.Forall₂ (fun p f => MadeFrom name f p) ((ofTrack i (taken s.calls)).map bare) (givenOf b h2) :=
      (given_bare hm (by rw [List.map_map]; rfl)).flip
    obtain ⟨gs, hgs, hperm⟩ := List.perm_comp_forall₂ hcons' hm2
    have hgs' : List.Forall₂ (MadeFrom name) gs (ofTrack i (delivered s.calls) ++ ofTrack i s.packets.flatten) :=
      given_bare (l := (ofTrack i (delivered s.calls) ++ ofTrack i s.packets.flatten).map bare) hgs.flip (by rw [List.map_map]; rfl)
    obtain ⟨fs, held, rfl, h4, h5⟩ := given_split hgs'
    exact ⟨h1, h2, s1, fs, held, e, hr1, hb1, hperm, h5, h4⟩
  obtain ⟨o, ho, hfile⟩ := given_files hr hc hconv path disk hnew fun i b hb => by
    obtain ⟨h1, h2, s1, fs, held, e, _, _, hperm, _, hl⟩ := hlane i b hb
    refine ⟨_, fun g hg => ?_, hl⟩
    rw [e, givenOf_append]
    exact List.mem_append_right _ (hperm.subset (List.mem_append_left _ hg))
  refine ⟨o, ho, held_le hr hc, fun i t b ht hb => ?_⟩
  obtain ⟨n, hname, hfile⟩ := hfile i t ht
  obtain ⟨h1, h2, s1, fs, held, e, hr1, hb1, hperm, hlen, hl⟩ := hlane i b hb
  exact ⟨n, h1, h2, s1, _, fs, held, hname, e, hr1, hb1, hperm, hlen, hl, hfile⟩

/-- **C99**, FLV with H.264: when probing has ended, the file of a track holds the frames given for its buffer since it had a track,
but the last, each as `AvcInFile` says; the payloads of the frames may be anything. For: sound on one buffer and video on another; no
preprocess callback; an orderly history; DTS that increase in each buffer; no files of these names before. -/
theorem C99_flv {a : Bool} {h : List (Oracle × DemuxOp)} {s : Demuxer} (hr : Reached "flv" a h s) (hid : ∀ x ∈ h, x.1.preprocess = id)
    {ba bv : Int} (hne : ba ≠ bv) (hb : ∀ x ∈ h, x.2.OnBuffers ba bv) (hv : ∀ x ∈ h, x.2.VideoIs codecH264)
    (hf : Orderly s) (hd : ∀ b, (givenOf b h).Pairwise fun f g => f.dts < g.dts) (hc : s.completed = true)
    (path : List Char) (disk : Disk) (hnew : ∀ t ∈ s.tracks.tracks, ∀ n, FileHandler.fileName path t = ok n → disk.lookup n = none) :
    ∃ o, (FileHandler.new path disk).handleAll (toHandler s.calls) = ok o ∧
      ∀ (i : Nat) t b, s.tracks.tracks[i]? = some t → ((i : Int), b) ∈ s.bufferOf → ∃ n h1 h2 s1 fs out, FileHandler.fileName path t = ok n ∧
        h = h1 ++ h2 ∧ Reached "flv" a h1 s1 ∧ b ∉ s1.bufferOf.map Prod.snd ∧ ButLast (givenOf b h2) fs ∧
        (FirstsInOrder (taken s.calls) → fs = (givenOf b h2).dropLast) ∧ List.Forall₂ (AvcInFile t) fs out ∧
        o.disk.lookup n = some ⟨132, out.flatten⟩ := by
  have hty := Demuxer.runDemux_types (reached_new "flv" a) (Demuxer.Types.new "flv" a ba bv) (by decide) hr.1 hb hr.2
  obtain ⟨o, ho, hfiles⟩ := C99_files hr hid (hty.nodup hne) hf hd hc
    (fun i t b ht hib g hg hgv p hm => (flv_avc_packet hr hne hb hv ht hib hg hm).2 hgv) path disk hnew
  refine ⟨o, ho, fun i t b ht hib => ?_⟩
  obtain ⟨n, h1, h2, s1, fs, ps, hn, e, hr1, hb1, hbl, hfs, hm, hfile⟩ := hfiles i t b ht hib
  exact ⟨n, h1, h2, s1, fs, ps.map fun p => doubled t p ++ elementary t p, hn, e, hr1, hb1, hbl, hfs,
    flv_outputs e hbl hm fun g hg p hgp => (flv_avc_packet hr hne hb hv ht hib hg hgp).1, by rw [hfile]; rfl⟩

/-- **C99**, FLV with H.264, every history: whatever the DTS and the order of the packets, each frame given for a track is in its file
once, as it is when all is in order, but those that are held back, at most as many as there are tracks. -/
theorem C99_flv_conserved {a : Bool} {h : List (Oracle × DemuxOp)} {s : Demuxer} (hr : Reached "flv" a h s) (hid : ∀ x ∈ h, x.1.preprocess = id)
    {ba bv : Int} (hne : ba ≠ bv) (hb : ∀ x ∈ h, x.2.OnBuffers ba bv) (hv : ∀ x ∈ h, x.2.VideoIs codecH264) (hc : s.completed = true)
    (path : List Char) (disk : Disk) (hnew : ∀ t ∈ s.tracks.tracks, ∀ n, FileHandler.fileName path t = ok n → disk.lookup n = none) :
    ∃ o, (FileHandler.new path disk).handleAll (toHandler s.calls) = ok o ∧
      ∀ (i : Nat) t b, s.tracks.tracks[i]? = some t → ((i : Int), b) ∈ s.bufferOf → ∃ n h1 h2 s1 out, ∃ fs held : List Given,
        FileHandler.fileName path t = ok n ∧ h = h1 ++ h2 ∧ Reached "flv" a h1 s1 ∧ b ∉ s1.bufferOf.map Prod.snd ∧
        (fs ++ held).Perm (givenOf b h2) ∧ held.length ≤ s.tracks.tracks.length ∧ List.Forall₂ (AvcInFile t) fs out ∧
        o.disk.lookup n = some ⟨132, out.flatten⟩ := by
  have hty := Demuxer.runDemux_types (reached_new "flv" a) (Demuxer.Types.new "flv" a ba bv) (by decide) hr.1 hb hr.2
  obtain ⟨o, ho, hle, hfiles⟩ := C99_conserved hr hid (hty.nodup hne) hc
    (fun i t b ht hib g hg hgv p hm => (flv_avc_packet hr hne hb hv ht hib hg hm).2 hgv) path disk hnew
  refine ⟨o, ho, fun i t b ht hib => ?_⟩
  obtain ⟨n, h1, h2, s1, ps, fs, held, hn, e, hr1, hb1, hperm, hlen, hm, hfile⟩ := hfiles i t b ht hib
  refine ⟨n, h1, h2, s1, ps.map fun p => doubled t p ++ elementary t p, fs, held, hn, e, hr1, hb1, hperm, ?_, ?_, by rw [hfile]; rfl⟩
  · have : (ofTrack i s.packets.flatten).length ≤ s.packets.flatten.length := List.length_filter_le ..
    omega
  · have hsub : ∀ g ∈ fs, g ∈ givenOf b h := by
      intro g hg
      rw [e, givenOf_append]
      exact List.mem_append_right _ (hperm.subset (List.mem_append_left _ hg))
    clear hperm hfile
    induction hm with
    | nil => exact .nil
    | @cons g p gs ps hgp _ ih =>
      exact .cons (flv_avc_packet hr hne hb hv ht hib (hsub g (List.mem_cons_self ..)) hgp).1 (ih fun g hg => hsub g (List.mem_cons_of_mem _ hg))

/-- **C99**, FLV with H.265 and lengths of `k` bytes, for payloads that are units with such lengths. -/
theorem C99_flv_hevc {a : Bool} {h : List (Oracle × DemuxOp)} {s : Demuxer} (hr : Reached "flv" a h s) (hid : ∀ x ∈ h, x.1.preprocess = id)
    {ba bv : Int} (hne : ba ≠ bv) (hb : ∀ x ∈ h, x.2.OnBuffers ba bv) (hv : ∀ x ∈ h, x.2.VideoIs codecH265) {k : Nat}
    (hk : ∀ x ∈ h, x.2.HevcBy k)
    (hf : Orderly s) (hd : ∀ b, (givenOf b h).Pairwise fun f g => f.dts < g.dts) (hc : s.completed = true)
    (path : List Char) (disk : Disk) (hnew : ∀ t ∈ s.tracks.tracks, ∀ n, FileHandler.fileName path t = ok n → disk.lookup n = none) :
    ∃ o, (FileHandler.new path disk).handleAll (toHandler s.calls) = ok o ∧
      ∀ (i : Nat) t b, s.tracks.tracks[i]? = some t → ((i : Int), b) ∈ s.bufferOf → ∃ n h1 h2 s1 fs out, FileHandler.fileName path t = ok n ∧
        h = h1 ++ h2 ∧ Reached "flv" a h1 s1 ∧ b ∉ s1.bufferOf.map Prod.snd ∧ ButLast (givenOf b h2) fs ∧
        (FirstsInOrder (taken s.calls) → fs = (givenOf b h2).dropLast) ∧ List.Forall₂ (HevcInFile k t) fs out ∧
        o.disk.lookup n = some ⟨132, out.flatten⟩ := by
  have hty := Demuxer.runDemux_types (reached_new "flv" a) (Demuxer.Types.new "flv" a ba bv) (by decide) hr.1 hb hr.2
  obtain ⟨o, ho, hfiles⟩ := C99_files hr hid (hty.nodup hne) hf hd hc
    (fun i t b ht hib g hg hgv p hm => (flv_hevc_packet hr hne hb hv hk ht hib hg hm).2 hgv) path disk hnew
  refine ⟨o, ho, fun i t b ht hib => ?_⟩
  obtain ⟨n, h1, h2, s1, fs, ps, hn, e, hr1, hb1, hbl, hfs, hm, hfile⟩ := hfiles i t b ht hib
  exact ⟨n, h1, h2, s1, fs, ps.map fun p => doubled t p ++ elementary t p, hn, e, hr1, hb1, hbl, hfs,
    flv_outputs e hbl hm fun g hg p hgp => (flv_hevc_packet hr hne hb hv hk ht hib hg hgp).1, by rw [hfile]; rfl⟩

/-- **C99**: in FLV with sound on one buffer and video on another, a history is orderly if each track has a packet before probing ends. -/
theorem C99_flv_orderly {a : Bool} {h : List (Oracle × DemuxOp)} {s : Demuxer} (hr : Reached "flv" a h s)
    {ba bv : Int} (hne : ba ≠ bv) (hb : ∀ x ∈ h, x.2.OnBuffers ba bv)
    (hs : ∀ i : Nat, i < s.tracks.tracks.length → ∃ p ∈ taken (beforeComplete s.calls), p.index = i) : Orderly s := by
  have hty := Demuxer.runDemux_types (reached_new "flv" a) (Demuxer.Types.new "flv" a ba bv) (by decide) hr.1 hb hr.2
  refine Or.inr ⟨?_, hs⟩
  have h1 := hty.nodup hne
  have h2 : (s.bufferOf.map Prod.snd).length = s.tracks.tracks.length := by rw [hty.placed]; simp
  have h3 : ∀ x ∈ s.bufferOf.map Prod.snd, x ∈ [ba, bv] := by
    rw [hty.placed]
    intro x hx
    obtain ⟨m, _, rfl⟩ := List.mem_map.1 hx
    split <;> simp
  rw [← h2]
  exact (List.subperm_of_subset h1 h3).length_le

/-! ## Concrete cases -/

/-- Sound and then H.264 is announced; video comes first, a key frame with SEI and two slices, then a frame with garbage at its end;
sound; probing ends; more of both. -/
def flvRun : List (Oracle × DemuxOp) :=
  [(exOracle, .newAudioTrack 0 codecPCMS16LE 1000 none {}),
   (exOracle, .newVideoTrack 1 codecH264 1000 (some (avcRecord [1, 66, 0, 31, 0xff] 0xE1 [[103, 66, 0, 31, 218, 1, 64, 22, 228]] [[104, 206]]))),
   (exOracle, .videoPacket 1 codecH264 (avcc [[6, 5], [0x65, 7], [0x65, 8]]) true 0 40),
   (exOracle, .audioPacket 0 codecPCMS16LE [1, 2] 0),
   (exOracle, .videoPacket 1 codecH264 (avcc [[0x41, 9]] ++ [0, 0]) false 40 80),
   (exOracle, .probeComplete),
   (exOracle, .audioPacket 0 codecPCMS16LE [3, 4] 20),
   (exOracle, .videoPacket 1 codecH264 (avcc [[0x65, 1]]) true 80 80),
   (exOracle, .videoPacket 1 codecH264 (avcc [[0x41, 2]]) false 120 120)]

/-- Parameter sets of `flvRun`. -/
def flvSets : Bytes := startCoded [103, 66, 0, 31, 218, 1, 64, 22, 228] ++ startCoded [104, 206]

/-- The files that a run leaves on an empty disk. -/
def flvFiles (h : List (Oracle × DemuxOp)) : Go (List (String × Bytes)) := do
  let s ← runDemux (Demuxer.new "flv" true) h
  let o ← (FileHandler.new ['o'] []).handleAll (toHandler s.calls)
  return o.disk.map fun x => (String.ofList x.1, x.2.data)

/-- The files of `flvRun`. -/
example : flvFiles flvRun = ok [("o.audio.0.PCMS16LE", [1, 2]),
    ("o.video.1.H264", flvSets ++ flvSets ++ [0, 0, 0, 1, 0x65, 7] ++ [0, 0, 1, 0x65, 8] ++ [0, 0, 0, 1, 0x41, 9] ++
      flvSets ++ flvSets ++ [0, 0, 0, 1, 0x65, 1])] := by decide +kernel

/-- All hypotheses of `C99_flv` hold of `flvRun`. -/
example : ∃ s, Reached "flv" true flvRun s ∧ (∀ x ∈ flvRun, x.1.preprocess = id) ∧ (∀ x ∈ flvRun, x.2.OnBuffers 0 1) ∧
    (∀ x ∈ flvRun, x.2.VideoIs codecH264) ∧ Orderly s ∧ (∀ b, (givenOf b flvRun).Pairwise fun f g => f.dts < g.dts) ∧ s.completed = true ∧
    s.tracks.tracks.length = 2 ∧ s.bufferOf = [(0, 0), (1, 1)] := by
  have h : (runDemux (Demuxer.new "flv" true) flvRun >>= fun s => ok (decide (s.completed = true ∧ s.tracks.tracks.length = 2 ∧
      (taken (beforeComplete s.calls)).map (·.index) = [1, 0, 1] ∧ s.bufferOf = [(0, 0), (1, 1)]))) = ok true := by decide +kernel
  obtain ⟨s, h1, h2⟩ := bind_eq_ok.1 h
  simp only [Go.ok.injEq, decide_eq_true_eq] at h2
  obtain ⟨hc, hl, hb, hbo⟩ := h2
  have hx : ∀ x ∈ flvRun, x.1 = exOracle := by simp [flvRun]
  have hr : Reached "flv" true flvRun s := ⟨fun x h => by rw [hx x h]; exact exOracle_valid, h1⟩
  have hon : ∀ x ∈ flvRun, x.2.OnBuffers 0 1 := by simp [flvRun, DemuxOp.OnBuffers]
  refine ⟨s, hr, fun x h => by rw [hx x h]; rfl, hon, ?_, C99_flv_orderly hr (by decide) hon fun i hi => ?_, fun b => ?_, hc, hl, hbo⟩
  · simp [flvRun, DemuxOp.VideoIs, avcRecord, unit16]
  · have : (i : Int) ∈ (taken (beforeComplete s.calls)).map (·.index) := by
      rw [hb]
      obtain rfl | rfl : i = 0 ∨ i = 1 := by omega
      · decide
      · decide
    obtain ⟨p, hp, e⟩ := List.mem_map.1 this
    exact ⟨p, hp, e⟩
  · by_cases h0 : b = 0
    · subst h0; simp [givenOf, flvRun, DemuxOp.given]
    · by_cases h1 : b = 1
      · subst h1; simp [givenOf, flvRun, DemuxOp.given]
      · simp [givenOf, flvRun, DemuxOp.given, Ne.symm h0, Ne.symm h1]

/-- **C99**: when sound that was announced first only comes late, frames are in the wrong order in the file: the key frame with DTS 0 comes
last. -/
theorem C99_order_lost : flvFiles (((flvRun.eraseIdx 3).eraseIdx 5) ++ [(exOracle, .audioPacket 0 codecPCMS16LE [3, 4] 100)]) =
    ok [("o.audio.0.PCMS16LE", []), ("o.video.1.H264", [0, 0, 0, 1, 0x41, 9] ++ flvSets ++ flvSets ++ [0, 0, 0, 1, 0x65, 1] ++
      flvSets ++ flvSets ++ [0, 0, 0, 1, 0x65, 7] ++ [0, 0, 1, 0x65, 8])] := by decide +kernel

/-- All hypotheses of `C99_flv_conserved` hold of that run; it is not orderly. -/
example : ∃ s, Reached "flv" true (((flvRun.eraseIdx 3).eraseIdx 5) ++ [(exOracle, .audioPacket 0 codecPCMS16LE [3, 4] 100)]) s ∧
    (∀ x ∈ ((flvRun.eraseIdx 3).eraseIdx 5) ++ [(exOracle, DemuxOp.audioPacket 0 codecPCMS16LE [3, 4] 100)],
      x.1.preprocess = id ∧ x.2.OnBuffers 0 1 ∧ x.2.VideoIs codecH264) ∧ s.completed = true ∧
    (taken s.calls).map (·.index) = [1, 1, 1, 1, 0] ∧ s.packets.flatten.length = 2 := by
  have h : (runDemux (Demuxer.new "flv" true) (((flvRun.eraseIdx 3).eraseIdx 5) ++ [(exOracle, .audioPacket 0 codecPCMS16LE [3, 4] 100)]) >>=
      fun s => ok (decide (s.completed = true ∧ (taken s.calls).map (·.index) = [1, 1, 1, 1, 0] ∧ s.packets.flatten.length = 2))) = ok true := by
    decide +kernel
  obtain ⟨s, h1, h2⟩ := bind_eq_ok.1 h
  simp only [Go.ok.injEq, decide_eq_true_eq] at h2
  have hx : ∀ x ∈ ((flvRun.eraseIdx 3).eraseIdx 5) ++ [(exOracle, DemuxOp.audioPacket 0 codecPCMS16LE [3, 4] 100)], x.1 = exOracle := by
    simp [flvRun]
  refine ⟨s, ⟨fun x h => by rw [hx x h]; exact exOracle_valid, h1⟩, fun x h => ⟨by rw [hx x h]; rfl, ?_⟩, h2⟩
  revert x
  simp [flvRun, DemuxOp.OnBuffers, DemuxOp.VideoIs, avcRecord, unit16]

/-- Two sound packets with swapped time stamps while probing, two after it. -/
def swappedFlv : List (Oracle × DemuxOp) :=
  [(exOracle, .audioPacket 0 codecPCMS16LE [1] 20), (exOracle, .audioPacket 0 codecPCMS16LE [2] 10), (exOracle, .audioPacket 0 codecPCMS16LE [3] 50),
   (exOracle, .probeComplete), (exOracle, .audioPacket 0 codecPCMS16LE [4] 40), (exOracle, .audioPacket 0 codecPCMS16LE [5] 30)]

/-- `C99_files_any`: the first two are sorted, the later ones are as given. -/
example : flvFiles swappedFlv = ok [("o.audio.0.PCMS16LE", [2, 1, 3, 4])] := by decide +kernel

/-- All hypotheses of `C99_files_any` hold of it. -/
example : ∃ s, Reached "flv" true swappedFlv s ∧ (∀ x ∈ swappedFlv, x.1.preprocess = id) ∧ (s.bufferOf.map Prod.snd).Nodup ∧
    FirstsInOrder (taken s.calls) ∧ s.completed = true ∧ (ofTrack 0 (taken (beforeComplete s.calls))).length = 3 := by
  have h : (runDemux (Demuxer.new "flv" true) swappedFlv >>= fun s => ok (decide (s.completed = true ∧ s.bufferOf = [(0, 0)] ∧
      (ofTrack 0 (taken (beforeComplete s.calls))).length = 3))) = ok true := by decide +kernel
  obtain ⟨s, h1, h2⟩ := bind_eq_ok.1 h
  simp only [Go.ok.injEq, decide_eq_true_eq] at h2
  have hx : ∀ x ∈ swappedFlv, x.1 = exOracle := by simp [swappedFlv]
  have hr : Reached "flv" true swappedFlv s := ⟨fun x h => by rw [hx x h]; exact exOracle_valid, h1⟩
  exact ⟨s, hr, fun x h => by rw [hx x h]; rfl, by rw [h2.2.1]; decide, C62_packet_input hr (by simp [swappedFlv, DemuxOp.PacketOnly]), h2.1, h2.2.2⟩

/-- H.265, with the record of the repository's tests. -/
def flvRun265 : List (Oracle × DemuxOp) :=
  [(exOracle, .newVideoTrack 1 codecH265 1000 (some RepoTests.hevcRecordBytes)),
   (exOracle, .videoPacket 1 codecH265 (lengthPrefixed 4 [[38, 1, 7], [40, 1]]) true 0 40),
   (exOracle, .audioPacket 0 codecPCMS16LE [1, 2] 0),
   (exOracle, .videoPacket 1 codecH265 (lengthPrefixed 4 [[2, 1, 9]]) false 40 40),
   (exOracle, .probeComplete),
   (exOracle, .audioPacket 0 codecPCMS16LE [3, 4] 20),
   (exOracle, .videoPacket 1 codecH265 (lengthPrefixed 4 [[2, 1, 8]]) false 80 80)]

/-- Parameter sets of `flvRun265`. -/
def flvSets265 : Bytes := startCoded ((RepoTests.hevcRecordBytes.drop 28).take 24) ++ startCoded ((RepoTests.hevcRecordBytes.drop 57).take 45) ++
  startCoded (RepoTests.hevcRecordBytes.drop 107)

/-- The files of `flvRun265`. -/
example : flvFiles flvRun265 = ok [("o.video.0.H265", flvSets265 ++ flvSets265 ++ [0, 0, 0, 1, 38, 1, 7] ++ [0, 0, 0, 1, 40, 1] ++ [0, 0, 0, 1, 2, 1, 9]),
    ("o.audio.1.PCMS16LE", [1, 2])] := by decide +kernel

/-- All hypotheses of `C99_flv_hevc` hold of `flvRun265`. -/
example : ∃ s, Reached "flv" true flvRun265 s ∧ (∀ x ∈ flvRun265, x.1.preprocess = id) ∧ (∀ x ∈ flvRun265, x.2.OnBuffers 0 1) ∧
    (∀ x ∈ flvRun265, x.2.VideoIs codecH265) ∧ (∀ x ∈ flvRun265, x.2.HevcBy 4) ∧ Orderly s ∧
    (∀ b, (givenOf b flvRun265).Pairwise fun f g => f.dts < g.dts) ∧ s.completed = true ∧
    s.tracks.tracks.length = 2 ∧ s.bufferOf = [(0, 1), (1, 0)] := by
  have h : (runDemux (Demuxer.new "flv" true) flvRun265 >>= fun s => ok (decide (s.completed = true ∧ s.tracks.tracks.length = 2 ∧
      (taken (beforeComplete s.calls)).map (·.index) = [0, 1, 0] ∧ s.bufferOf = [(0, 1), (1, 0)]))) = ok true := by decide +kernel
  obtain ⟨s, h1, h2⟩ := bind_eq_ok.1 h
  simp only [Go.ok.injEq, decide_eq_true_eq] at h2
  obtain ⟨hc, hl, hb, hbo⟩ := h2
  have hx : ∀ x ∈ flvRun265, x.1 = exOracle := by simp [flvRun265]
  have hr : Reached "flv" true flvRun265 s := ⟨fun x h => by rw [hx x h]; exact exOracle_valid, h1⟩
  have hon : ∀ x ∈ flvRun265, x.2.OnBuffers 0 1 := by simp [flvRun265, DemuxOp.OnBuffers]
  refine ⟨s, hr, fun x h => by rw [hx x h]; rfl, hon, ?_, ?_, C99_flv_orderly hr (by decide) hon fun i hi => ?_, fun b => ?_, hc, hl, hbo⟩
  · simp [flvRun265, DemuxOp.VideoIs, RepoTests.hevcRecordBytes]
  · intro x hx
    simp only [flvRun265, List.mem_cons, List.not_mem_nil, or_false] at hx
    rcases hx with rfl | rfl | rfl | rfl | rfl | rfl | rfl <;> simp only [DemuxOp.HevcBy]
    · decide +kernel
    · exact ⟨_, rfl, by decide, by decide⟩
    · exact ⟨_, rfl, by decide, by decide⟩
    · exact ⟨_, rfl, by decide, by decide⟩
  · have : (i : Int) ∈ (taken (beforeComplete s.calls)).map (·.index) := by
      rw [hb]
      obtain rfl | rfl : i = 0 ∨ i = 1 := by omega
      · decide
      · decide
    obtain ⟨p, hp, e⟩ := List.mem_map.1 this
    exact ⟨p, hp, e⟩
  · by_cases h0 : b = 0
    · subst h0; simp [givenOf, flvRun265, DemuxOp.given]
    · by_cases h1 : b = 1
      · subst h1; simp [givenOf, flvRun265, DemuxOp.given]
      · simp [givenOf, flvRun265, DemuxOp.given, Ne.symm h0, Ne.symm h1]

end Avf
