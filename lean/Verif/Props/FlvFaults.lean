import Verif.Props.FlvFiles
import Verif.Props.HandlerFaults
/-!
# C98 and C99: files of a demuxer on a disk that fails (`handler.go`, `demuxer.go`), and H.265 in every history
-/
namespace Avf
open Go

/-- **C98**: if the files are new and the session would succeed on a disk that does not fail, then each file that a dead handler leaves
behind is a beginning of the file that there would be. -/
theorem C98_beginning (fs : Faults) (path : List Char) (disk : Disk) (ts : List AVStream) (ps : List AVPacket) (hs : Session ts ps) (o : FileHandler)
    (ho : (FileHandler.new path disk).handleAll (sessionCalls ts ps) = ok o) (d : Disk)
    (h : (FaultyHandler.mk (FileHandler.new path disk) 0).handleAll fs (sessionCalls ts ps) = .error d)
    (t : AVStream) (ht : t ∈ ts) (n : List Char) (hn : FileHandler.fileName path t = ok n) (hnew : disk.lookup n = none) :
    d.lookup n = none ∨ ∃ w rest, d.lookup n = some ⟨132, w⟩ ∧ o.disk.lookup n = some ⟨132, w ++ rest⟩ := by
  obtain ⟨k, w, hk, hpre, hown, _⟩ := C98_left_behind fs path disk ts ps hs d h
  obtain ⟨i, hi⟩ := List.mem_iff_getElem?.1 ht
  obtain ⟨m, hm, hfile⟩ := (C77_contents path disk ts ps o hs ho).1 i t hi
  rw [hn] at hm
  cases hm
  dsimp only at hfile
  have hl := hown i t n hi hn
  dsimp only at hl
  rw [hnew] at hl hfile
  simp only [Option.getD_none, List.drop_nil, List.append_nil] at hl hfile
  rcases hl with hl | ⟨_, hl⟩
  · right
    have hsub : w i <+: (ofTrack i ps).flatMap fun p => doubled t p ++ elementary t p := by
      refine (hpre i).2.trans ?_
      unfold stored
      rw [hi]
      dsimp only
      conv => rhs; rw [← List.take_append_drop (k + 1) ps]
      unfold ofTrack
      rw [List.filter_append, List.flatMap_append]
      exact List.prefix_append _ _
    obtain ⟨rest, hrest⟩ := hsub
    exact ⟨w i, rest, hl, by rw [hrest]; exact hfile⟩
  · exact Or.inl hl

/-- **C98**, behind a demuxer, every history: the handler dies only after probing has ended with a track, and then the disk holds what
`LeftBehind` says of the tracks and packets that the demuxer has handed over. -/
theorem C98_demuxer {name : String} {a : Bool} {h : List (Oracle × DemuxOp)} {s : Demuxer} (hr : Reached name a h s) (fs : Faults)
    (path : List Char) (disk d : Disk)
    (hd : (FaultyHandler.mk (FileHandler.new path disk) 0).handleAll fs (toHandler s.calls) = .error d) :
    s.completed = true ∧ s.tracks.tracks ≠ [] ∧ LeftBehind path disk s.tracks.tracks (delivered s.calls) d := by
  rcases C77_demuxer hr with (h0 | h0) | ⟨ts, ps, hses, hS, hps⟩
  · rw [h0] at hd; cases hd
  · rw [h0] at hd; cases hd
  have hc : s.completed = true := by
    by_contra hc
    have := (C61_when hr).1.2 (by simpa using hc)
    rw [this] at hses
    simp [sessionCalls] at hses
  have hts : s.tracks.tracks ≠ [] := by
    intro hts
    have := (C61_when hr).2.1 hc hts
    rw [this] at hses
    rcases ts with _ | ⟨t, ts⟩
    · simp [sessionCalls] at hses
    · simp [sessionCalls] at hses
  obtain ⟨cs, hcs⟩ := (C61_when hr).2.2 hc hts
  have hteq : ts = s.tracks.tracks := session_tracks (hses.symm.trans hcs)
  subst hteq
  rw [hses] at hd
  rw [← hps]
  exact ⟨hc, hts, C98_left_behind fs path disk _ ps hS d hd⟩

/-- **C98** and **C99**, FLV with H.264, every history, any payloads: whatever operations of the disk fail, either none of those that were
tried, and the files hold the frames as `C99_flv_conserved` says; or the process dies, and each file is missing or a beginning of that one. -/
theorem C98_flv {a : Bool} {h : List (Oracle × DemuxOp)} {s : Demuxer} (hr : Reached "flv" a h s) (hid : ∀ x ∈ h, x.1.preprocess = id)
    {ba bv : Int} (hne : ba ≠ bv) (hb : ∀ x ∈ h, x.2.OnBuffers ba bv) (hv : ∀ x ∈ h, x.2.VideoIs codecH264) (hc : s.completed = true)
    (path : List Char) (disk : Disk) (hnew : ∀ t ∈ s.tracks.tracks, ∀ n, FileHandler.fileName path t = ok n → disk.lookup n = none)
    (fs : Faults) :
    ∃ file : Nat → Bytes,
      (∀ (i : Nat) t b, s.tracks.tracks[i]? = some t → ((i : Int), b) ∈ s.bufferOf → ∃ h1 h2 s1 out, ∃ gs held : List Given,
        h = h1 ++ h2 ∧ Reached "flv" a h1 s1 ∧ b ∉ s1.bufferOf.map Prod.snd ∧ (gs ++ held).Perm (givenOf b h2) ∧
        held.length ≤ s.tracks.tracks.length ∧ List.Forall₂ (AvcInFile t) gs out ∧ file i = out.flatten) ∧
      match (FaultyHandler.mk (FileHandler.new path disk) 0).handleAll fs (toHandler s.calls) with
      | .ok o => (∀ j < o.ops, fs j = none) ∧ ∀ (i : Nat) t n, s.tracks.tracks[i]? = some t → FileHandler.fileName path t = ok n →
          o.disk.lookup n = some ⟨132, file i⟩
      | .error d => ∀ (i : Nat) t n, s.tracks.tracks[i]? = some t → FileHandler.fileName path t = ok n →
          d.lookup n = none ∨ ∃ w, w <+: file i ∧ d.lookup n = some ⟨132, w⟩ := by
  obtain ⟨o, ho, hfiles⟩ := C99_flv_conserved hr hid hne hb hv hc path disk hnew
  have hi := Demuxer.Reached.inv hr
  have hbuf : ∀ (i : Nat) t, s.tracks.tracks[i]? = some t → ∃ b, ((i : Int), b) ∈ s.bufferOf := by
    intro i t ht
    have : (i : Int) ∈ s.bufferOf.map Prod.fst := by
      rw [hi.keys]
      exact List.mem_map.2 ⟨i, List.mem_range.2 (List.getElem?_eq_some_iff.1 ht).1, rfl⟩
    obtain ⟨⟨k, b⟩, h1, h2⟩ := List.mem_map.1 this
    cases h2
    exact ⟨b, h1⟩
  refine ⟨fun i => match s.tracks.tracks[i]? with
    | some t => match FileHandler.fileName path t with
      | .ok n => ((o.disk.lookup n).getD ⟨132, []⟩).data
      | _ => []
    | none => [], ?_, ?_⟩
  · intro i t b ht hib
    obtain ⟨n, h1, h2, s1, out, gs, held, hn, e, hr1, hb1, hperm, hlen, hm, hfile⟩ := hfiles i t b ht hib
    refine ⟨h1, h2, s1, out, gs, held, e, hr1, hb1, hperm, hlen, hm, ?_⟩
    dsimp only
    rw [ht]
    dsimp only
    rw [hn]
    dsimp only
    rw [hfile]
    rfl
  · cases hres : (FaultyHandler.mk (FileHandler.new path disk) 0).handleAll fs (toHandler s.calls) with
    | ok o' =>
      obtain ⟨e1, e2⟩ := C98_noticed fs path disk _ o' hres
      refine ⟨e2, fun i t n ht hn => ?_⟩
      obtain ⟨b, hib⟩ := hbuf i t ht
      obtain ⟨n', h1, h2, s1, out, gs, held, hn', _, _, _, _, _, _, hfile⟩ := hfiles i t b ht hib
      rw [hn] at hn'
      cases hn'
      rw [ho] at e1
      cases e1
      dsimp only
      rw [ht]
      dsimp only
      rw [hn]
      dsimp only
      rw [hfile]
      rfl
    | error d =>
      intro i t n ht hn
      dsimp only
      rw [ht]
      dsimp only
      rw [hn]
      dsimp only
      rcases C77_demuxer hr with (h0 | h0) | ⟨ts, ps, hses, hS, hps⟩
      · rw [h0] at hres; cases hres
      · rw [h0] at hres; cases hres
      have hts : s.tracks.tracks ≠ [] := by
        intro h0
        rw [h0] at ht
        cases ht
      obtain ⟨cs, hcs⟩ := (C61_when hr).2.2 hc hts
      have hteq : ts = s.tracks.tracks := session_tracks (hses.symm.trans hcs)
      subst hteq
      rw [hses] at hres ho
      have htm := List.mem_of_getElem? ht
      rcases C98_beginning fs path disk _ ps hS o ho d hres t htm n hn (hnew t htm n hn) with h1 | ⟨w, rest, h1, h2⟩
      · exact Or.inl h1
      · refine Or.inr ⟨w, ?_, h1⟩
        rw [h2]
        exact List.prefix_append _ _

/-- **C99**, FLV with H.265, every history: whatever the DTS and the order of the packets, each frame given for a track is in its file
once, but those that are held back. For payloads that are units with lengths of `k` bytes. -/
theorem C99_flv_hevc_conserved {a : Bool} {h : List (Oracle × DemuxOp)} {s : Demuxer} (hr : Reached "flv" a h s) (hid : ∀ x ∈ h, x.1.preprocess = id)
    {ba bv : Int} (hne : ba ≠ bv) (hb : ∀ x ∈ h, x.2.OnBuffers ba bv) (hv : ∀ x ∈ h, x.2.VideoIs codecH265) {k : Nat}
    (hk : ∀ x ∈ h, x.2.HevcBy k) (hc : s.completed = true)
    (path : List Char) (disk : Disk) (hnew : ∀ t ∈ s.tracks.tracks, ∀ n, FileHandler.fileName path t = ok n → disk.lookup n = none) :
    ∃ o, (FileHandler.new path disk).handleAll (toHandler s.calls) = ok o ∧
      ∀ (i : Nat) t b, s.tracks.tracks[i]? = some t → ((i : Int), b) ∈ s.bufferOf → ∃ n h1 h2 s1 out, ∃ fs held : List Given,
        FileHandler.fileName path t = ok n ∧ h = h1 ++ h2 ∧ Reached "flv" a h1 s1 ∧ b ∉ s1.bufferOf.map Prod.snd ∧
        (fs ++ held).Perm (givenOf b h2) ∧ held.length ≤ s.tracks.tracks.length ∧ List.Forall₂ (HevcInFile k t) fs out ∧
        o.disk.lookup n = some ⟨132, out.flatten⟩ := by
  have hty := Demuxer.runDemux_types (reached_new "flv" a) (Demuxer.Types.new "flv" a ba bv) (by decide) hr.1 hb hr.2
  obtain ⟨o, ho, hle, hfiles⟩ := C99_conserved hr hid (hty.nodup hne) hc
    (fun i t b ht hib g hg hgv p hm => (flv_hevc_packet hr hne hb hv hk ht hib hg hm).2 hgv) path disk hnew
  refine ⟨o, ho, fun i t b ht hib => ?_⟩
  obtain ⟨n, h1, h2, s1, ps, fs, held, hn, e, hr1, hb1, hperm, hlen, hm, hfile⟩ := hfiles i t b ht hib
  refine ⟨n, h1, h2, s1, ps.map fun p => doubled t p ++ elementary t p, fs, held, hn, e, hr1, hb1, hperm, ?_, ?_, by rw [hfile]; rfl⟩
  · have : (ofTrack i s.packets.flatten).length ≤ s.packets.flatten.length := List.length_filter_le ..
    omega
  · have hsub : ∀ g ∈ fs, g ∈ givenOf b h := by
      intro g hg
      rw [e, givenOf_append]
      exact List.mem_append_right _ (hperm.subset (List.mem_append_left _ hg))
    clear hperm hfile
    induction hm with
    | nil => exact .nil
    | @cons g p gs ps hgp _ ih =>
      exact .cons (flv_hevc_packet hr hne hb hv hk ht hib (hsub g (List.mem_cons_self ..)) hgp).1 (ih fun g hg => hsub g (List.mem_cons_of_mem _ hg))

/-! ## Concrete cases -/

/-- The files that a run leaves behind on a disk whose operation `n` fails after `k` bytes. -/
def flvLeft (n k : Nat) (h : List (Oracle × DemuxOp)) : Go (Option (List (String × Bytes))) := do
  let s ← runDemux (Demuxer.new "flv" true) h
  return (diskOf ((FaultyHandler.mk (FileHandler.new ['o'] []) 0).handleAll (fun j => if j = n then some k else none) (toHandler s.calls))).map
    fun d => d.map fun x => (String.ofList x.1, x.2.data)

/-- `flvRun` (its hypotheses are shown in `Props/FlvFiles.lean`): the disk is full five bytes into the first picture, after the two opened
files and the parameter sets written apart. -/
example : flvLeft 3 5 flvRun = ok (some [("o.audio.0.PCMS16LE", []), ("o.video.1.H264", flvSets ++ flvSets.take 5)]) := by decide +kernel

/-- The second file cannot be opened. -/
example : flvLeft 1 0 flvRun = ok (some [("o.audio.0.PCMS16LE", [])]) := by decide +kernel

/-- Nothing fails that is tried. -/
example : flvLeft 100 0 flvRun = ok none := by decide +kernel

end Avf
