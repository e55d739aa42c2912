import Verif.Lemmas.Handler
import Verif.Props.Demuxer
/-!
# C76, C77: names and contents of the files that the file handler writes
-/
namespace Avf
open Go

/-! ## C76 -/

/-- **C76**: the name of a media type exists exactly for the seven types of the enumeration; for any other number making it
panics. -/
theorem C76_type_total (m : Int) : (NamedType m → ∃ s, mediaTypeString m = ok s) ∧ (¬ NamedType m → mediaTypeString m = Go.panic) := by
  refine ⟨(mediaTypeString_ok m).2, fun h => ?_⟩
  unfold NamedType at h
  unfold mediaTypeString mediaUnknown mediaVideo mediaAudio
  rw [if_neg (by omega), if_neg (by omega), if_neg (by omega), if_neg (by omega), if_neg (by omega), if_neg (by omega), if_neg (by omega)]

/-- **C76**: different media types have different names. -/
theorem C76_type_injective (m k : Int) (s : List Char) (h : mediaTypeString m = ok s) (h' : mediaTypeString k = ok s) : m = k := by
  have hm := (mediaTypeString_ok m).1 ⟨s, h⟩
  have hk := (mediaTypeString_ok k).1 ⟨s, h'⟩
  exact mediaTypeString_inj hm hk (h.trans h'.symm)

/-- **C76**: different codec numbers have different names, also numbers without a name of their own. -/
theorem C76_codec_injective (a b : Int) (h : codecIDString a = codecIDString b) : a = b := codecIDString_inj h

/-- **C76**: which names; a codec without a name of its own is called by its number. -/
theorem C76_codec_table (a : Int) : codecIDString a = ((standardCodecNames.lookup a).getD (toString a)).toList := by
  by_cases h : a ∈ standardCodecNames.map Prod.fst
  · revert a
    decide +kernel
  · have e : standardCodecNames.lookup a = none := by
      rw [List.lookup_eq_none_iff]
      intro p hp
      refine bne_iff_ne.2 fun e => h (List.mem_map.2 ⟨p, hp, e.symm⟩)
    rw [e, Option.getD_none, ← itoa_toString]
    simp only [standardCodecNames, List.map_cons, List.map_nil, List.mem_cons, List.not_mem_nil, or_false, not_or] at h
    unfold codecIDString codecH264 codecH265 codecAAC codecG726 codecPCMS16LE
    simp [h]

/-- **C76**: which names, for media types. -/
theorem C76_type_table (m : Int) :
    mediaTypeString m = (match standardTypeNames.lookup m with | some s => ok s.toList | none => Go.panic) := by
  by_cases h : m ∈ standardTypeNames.map Prod.fst
  · revert m
    decide +kernel
  · have e : standardTypeNames.lookup m = none := by
      rw [List.lookup_eq_none_iff]
      intro p hp
      refine bne_iff_ne.2 fun e => h (List.mem_map.2 ⟨p, hp, e.symm⟩)
    rw [e]
    simp only [standardTypeNames, List.map_cons, List.map_nil, List.mem_cons, List.not_mem_nil, or_false, not_or] at h
    unfold mediaTypeString mediaUnknown mediaVideo mediaAudio
    simp [h]

/-- **C76**: the file name tells the path, the media type, the index and the codec of the track. -/
theorem C76_file_injective (path path' n : List Char) (t u : AVStream) (h : FileHandler.fileName path t = ok n)
    (h' : FileHandler.fileName path' u = ok n) :
    path = path' ∧ t.mediaType = u.mediaType ∧ t.index = u.index ∧ t.codecID = u.codecID := by
  obtain ⟨m, hm, e⟩ := fileName_parts h
  obtain ⟨m', hm', e'⟩ := fileName_parts h'
  have e1 : ((path ++ '.' :: m) ++ '.' :: itoa t.index) ++ '.' :: codecIDString t.codecID =
      ((path' ++ '.' :: m') ++ '.' :: itoa u.index) ++ '.' :: codecIDString u.codecID := by
    simpa using e.symm.trans e'
  obtain ⟨e2, e3⟩ := append_dot_inj_right codecIDString_no_dot codecIDString_no_dot e1
  obtain ⟨e4, e5⟩ := append_dot_inj_right itoa_no_dot itoa_no_dot e2
  obtain ⟨e6, rfl⟩ := append_dot_inj_right (mediaTypeString_no_dot hm) (mediaTypeString_no_dot hm') e4
  exact ⟨e6, C76_type_injective _ _ _ hm hm', itoa_inj e5, codecIDString_inj e3⟩

example : FileHandler.fileName ['o', 'u', 't'] { mediaType := mediaVideo, index := 12, codecID := codecH264, timebase := 1000 } =
    ok "out.video.12.H264".toList := by decide +kernel
example : FileHandler.fileName ['o', 'u', 't'] { mediaType := mediaAudio, index := 0, codecID := 99, timebase := 1000 } =
    ok "out.audio.0.99".toList := by decide +kernel
example : mediaTypeString 6 = Go.panic := by decide +kernel

/-! ## C77 -/

/-- The claim: when a session has been written, the file of each track holds what its packets stand for, one after the other. -/
def C77_claim : Prop := ∀ (path : List Char) (disk : Disk) (ts : List AVStream) (ps : List AVPacket) (o : FileHandler), Session ts ps →
  (FileHandler.new path disk).handleAll (sessionCalls ts ps) = ok o →
  ∀ (i : Nat) t, ts[i]? = some t → ∃ n x, FileHandler.fileName path t = ok n ∧ o.disk.lookup n = some x ∧
    x.data = (ofTrack i ps).flatMap (elementary t)

/-- **C77**, exactly: what the packets of a track stand for, with the parameter sets of AVCC key packets written once more
before each of them, replaces the beginning of the file; a file that was longer keeps its end and its permissions, and all
other files stay as they were. -/
theorem C77_contents (path : List Char) (disk : Disk) (ts : List AVStream) (ps : List AVPacket) (o : FileHandler) (hs : Session ts ps)
    (hr : (FileHandler.new path disk).handleAll (sessionCalls ts ps) = ok o) :
    (∀ (i : Nat) t, ts[i]? = some t → ∃ n, FileHandler.fileName path t = ok n ∧
      let w := (ofTrack i ps).flatMap fun p => doubled t p ++ elementary t p
      let old := (disk.lookup n).getD ⟨132, []⟩
      o.disk.lookup n = some ⟨old.mode, w ++ old.data.drop w.length⟩) ∧
    ∀ n, (∀ t ∈ ts, FileHandler.fileName path t ≠ ok n) → o.disk.lookup n = disk.lookup n := by
  obtain ⟨names, hst, _⟩ := FileHandler.session_state hs hr
  constructor
  · intro i t ht
    rcases FileHandler.names_at hst.named i with ⟨h0, _⟩ | ⟨u, n, h1, h2, h3⟩
    · rw [h0] at ht; cases ht
    rw [h1] at ht; cases ht
    refine ⟨n, h3, ?_⟩
    have := hst.own i n h2
    unfold FileHandler.total FileHandler.before at this
    rw [h1] at this
    exact this
  · intro n hn
    refine hst.others n fun hm => ?_
    obtain ⟨j, hj⟩ := List.mem_iff_getElem?.1 hm
    rcases FileHandler.names_at hst.named j with ⟨_, h0⟩ | ⟨u, k, h1, h2, h3⟩
    · rw [hj] at h0; cases h0
    · rw [hj] at h2; cases h2
      exact hn u (List.mem_of_getElem? h1) h3

/-- **C77** when the files are new or not longer than what is written, and no video key packet in AVCC form comes for a track
with codec parameters. Missing for the full claim: `C77_claim_violated` and `C77_old_file_violated`. -/
theorem C77_contents_partial (path : List Char) (disk : Disk) (ts : List AVStream) (ps : List AVPacket) (o : FileHandler) (hs : Session ts ps)
    (hr : (FileHandler.new path disk).handleAll (sessionCalls ts ps) = ok o)
    (hk : ∀ p ∈ ps, ∀ t ∈ ts, p.index = t.index → p.mediaType = mediaVideo → p.key = true → p.packetType = packAVCC → t.codecParameters = none)
    (i : Nat) (t : AVStream) (ht : ts[i]? = some t)
    (hd : ∀ n x, FileHandler.fileName path t = ok n → disk.lookup n = some x → x.data.length ≤ ((ofTrack i ps).flatMap (elementary t)).length) :
    ∃ n x, FileHandler.fileName path t = ok n ∧ o.disk.lookup n = some x ∧ x.data = (ofTrack i ps).flatMap (elementary t) := by
  obtain ⟨n, hn, hx⟩ := (C77_contents path disk ts ps o hs hr).1 i t ht
  have hw : ((ofTrack i ps).flatMap fun p => doubled t p ++ elementary t p) = (ofTrack i ps).flatMap (elementary t) := by
    apply List.flatMap_congr
    intro p hp
    rw [ofTrack, List.mem_filter] at hp
    have hpi : p.index = i := by simpa using hp.2
    unfold doubled
    split
    · rename_i hc
      rw [hk p hp.1 t (List.mem_of_getElem? ht) (by rw [hpi, hs.index i t ht]) hc.1 hc.2.1 hc.2.2]
      rfl
    · rfl
  dsimp only at hx
  rw [hw] at hx
  refine ⟨n, _, hn, hx, ?_⟩
  dsimp only
  rw [List.drop_eq_nil_of_le, List.append_nil]
  cases hl : disk.lookup n with
  | none => exact Nat.zero_le _
  | some x => exact hd n x hn hl

/-- **C77**: the handler gets through exactly when every track and every packet has a media type with a name and every video
packet can be turned into Annex B (C68). -/
theorem C77_total (path : List Char) (disk : Disk) (ts : List AVStream) (ps : List AVPacket) (hs : Session ts ps) :
    (∃ o, (FileHandler.new path disk).handleAll (sessionCalls ts ps) = ok o) ↔
      (∀ t ∈ ts, NamedType t.mediaType) ∧
      ∀ p ∈ ps, ∀ t ∈ ts, p.index = t.index → NamedType p.mediaType ∧ (p.mediaType = mediaVideo → ∃ r, avccPacket2AnnexB t p = ok r) := by
  constructor
  · rintro ⟨o, hr⟩
    obtain ⟨names, hst, hc⟩ := FileHandler.session_state hs hr
    refine ⟨fun t ht => ?_, hc⟩
    obtain ⟨j, hj⟩ := List.mem_iff_getElem?.1 ht
    rcases FileHandler.names_at hst.named j with ⟨h0, _⟩ | ⟨u, k, h1, _, h3⟩
    · rw [hj] at h0; cases h0
    · rw [hj] at h1; cases h1
      obtain ⟨m, hm, _⟩ := fileName_parts h3
      exact (mediaTypeString_ok _).1 ⟨m, hm⟩
  · rintro ⟨h1, h2⟩
    obtain ⟨o1, e1⟩ := FileHandler.newTracks_ok (o := FileHandler.new path disk) h1
    obtain ⟨names, hst⟩ := FileHandler.newTracks_state (FileHandler.new_state path disk) (by simpa using hs.index) e1
    rw [List.nil_append] at hst
    rw [← FileHandler.total_nil ts] at hst
    obtain ⟨o2, e2⟩ := (FileHandler.packets_state hst hs.index hs.packets).1 h2
    refine ⟨o2, ?_⟩
    unfold sessionCalls
    rw [FileHandler.handleAll_append, e1, ok_bind]
    exact e2

/-- **C77**, together with C61: what any demuxer calls is such a session, or has no packets at all. -/
theorem C77_demuxer {name : String} {a : Bool} {h : List (Oracle × DemuxOp)} {s : Demuxer} (hr : Reached name a h s) :
    (toHandler s.calls = [] ∨ toHandler s.calls = [.trackNotFound]) ∨
    ∃ ts ps, toHandler s.calls = sessionCalls ts ps ∧ Session ts ps ∧ ps = delivered s.calls := by
  rcases C61_order hr with h | h | ⟨ts, ps, h, _, h1, h2⟩
  · exact Or.inl (Or.inl h)
  · exact Or.inl (Or.inr h)
  · refine Or.inr ⟨ts, ps, h, ⟨h1, h2⟩, ?_⟩
    rw [← delivered_toHandler, h]
    unfold delivered
    rw [List.filterMap_append, List.filterMap_cons]
    simp [List.filterMap_map]

/-! Examples and disagreements. -/

def exAudioTrack : AVStream := { mediaType := mediaAudio, index := 1, codecID := codecAAC, timebase := 1000 }
def exSessionTracks : List AVStream := [exStream264, exAudioTrack]
def exAvccKey : AVPacket := { data := [0, 0, 0, 2, 0x65, 1], key := true, packetType := packAVCC, codecID := codecH264, index := 0, mediaType := mediaVideo }
def exAvccNonKey : AVPacket := { data := [0, 0, 0, 2, 0x41, 7], packetType := packAVCC, codecID := codecH264, index := 0, mediaType := mediaVideo }
def exAudio (b : Byte) : AVPacket := { data := [b], codecID := codecAAC, index := 1, mediaType := mediaAudio }

theorem exSession (ps : List AVPacket) (h : ∀ p ∈ ps, p.index = 0 ∨ p.index = 1) : Session exSessionTracks ps := by
  constructor
  · intro i t ht
    match i with
    | 0 => cases ht; rfl
    | 1 => cases ht; rfl
    | i + 2 => cases ht
  · intro p hp
    rcases h p hp with e | e
    · exact ⟨exStream264, by simp [exSessionTracks], e⟩
    · exact ⟨exAudioTrack, by simp [exSessionTracks], e⟩

/-- Two tracks, packets mixed: each file gets its own bytes in order. -/
example : FileHandler.disk <$> (FileHandler.new ['o'] []).handleAll (sessionCalls exSessionTracks [exAudio 1, exAvccNonKey, exAudio 2]) =
    ok [("o.video.0.H264".toList, ⟨132, [0, 0, 0, 1, 0x41, 7]⟩), ("o.audio.1.AAC".toList, ⟨132, [1, 2]⟩)] := by decide +kernel

/-- The claim fails: the parameter sets of an AVCC key packet are written twice. -/
theorem C77_claim_violated : ¬ C77_claim := by
  intro h
  have hs : Session exSessionTracks [exAvccKey] := exSession _ (by simp [exAvccKey])
  obtain ⟨o, ho⟩ := (C77_total ['o'] [] exSessionTracks [exAvccKey] hs).2 ⟨by
    intro t ht
    simp only [exSessionTracks, List.mem_cons, List.not_mem_nil, or_false] at ht
    rcases ht with rfl | rfl <;> exact ⟨by decide, by decide⟩, by
    intro p hp t ht hpt
    rw [List.mem_singleton] at hp
    subst hp
    simp only [exSessionTracks, List.mem_cons, List.not_mem_nil, or_false] at ht
    rcases ht with rfl | rfl
    · refine ⟨⟨by decide, by decide⟩, fun _ => ?_⟩
      obtain ⟨out, e⟩ := C68_h264_total exStream264 exAvccKey exCodecData ⟨rfl, rfl, Or.inl rfl, rfl⟩ rfl rfl rfl
      exact ⟨_, e⟩
    · cases hpt⟩
  obtain ⟨n, x, h1, h2, h3⟩ := h ['o'] [] exSessionTracks [exAvccKey] o hs ho 0 exStream264 rfl
  obtain ⟨n', h1', h2'⟩ := (C77_contents ['o'] [] exSessionTracks [exAvccKey] o hs ho).1 0 exStream264 rfl
  rw [h1] at h1'; cases h1'
  dsimp only at h2'
  rw [h2] at h2'
  have e := (Option.some.inj h2')
  rw [e] at h3
  dsimp only [List.lookup_nil, Option.getD_none] at h3
  rw [List.drop_nil, List.append_nil] at h3
  exact absurd h3 (by decide +kernel)

/-- The end of an older, longer file stays behind what is written. -/
theorem C77_old_file_violated :
    FileHandler.disk <$> (FileHandler.new ['o'] [("o.audio.0.AAC".toList, ⟨420, [9, 9, 9, 9]⟩)]).handleAll
      (sessionCalls [{ exAudioTrack with index := 0 }] [{ exAudio 1 with index := 0 }]) =
    ok [("o.audio.0.AAC".toList, ⟨420, [1, 9, 9, 9]⟩)] := by decide +kernel

/-- The bit of the permissions that lets the owner of a file read it. -/
def OwnerMayRead (mode : Nat) : Prop := mode.testBit 8 = true

/-- The owner of a new file may not read it: the permissions are given as 132, which is 0o204. -/
theorem C77_mode_violated (path : List Char) (disk : Disk) (ts : List AVStream) (ps : List AVPacket) (o : FileHandler) (hs : Session ts ps)
    (hr : (FileHandler.new path disk).handleAll (sessionCalls ts ps) = ok o) (i : Nat) (t : AVStream) (ht : ts[i]? = some t)
    (n : List Char) (hn : FileHandler.fileName path t = ok n) (hd : disk.lookup n = none) :
    ∃ x, o.disk.lookup n = some x ∧ ¬ OwnerMayRead x.mode := by
  obtain ⟨n', hn', hx⟩ := (C77_contents path disk ts ps o hs hr).1 i t ht
  rw [hn] at hn'; cases hn'
  refine ⟨_, hx, ?_⟩
  rw [hd]
  show ¬ OwnerMayRead 132
  unfold OwnerMayRead
  decide

end Avf
