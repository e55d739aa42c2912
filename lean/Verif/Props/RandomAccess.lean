import Verif.Lemmas.RandomAccess
import Verif.Props.FlvFiles
/-! # C112: random access in the file of a video track -/
namespace Avf
open Go

theorem framesOf_key {b : Int} {h : List (Oracle × DemuxOp)} {f : Frame} (hf : f ∈ framesOf b h) (hk : f.key = true) : f.video = true := by
  obtain ⟨⟨o, op⟩, _, e⟩ := List.mem_filterMap.1 hf
  cases op <;> simp only [DemuxOp.frame] at e <;> try cases e
  all_goals
    split at e
    · cases e; first | rfl | cases hk
    · cases e

/-- **C112**: under the conditions of C94, a decoder that starts with a key frame in the file of an H.264 or H.265 track has a parameter set
of each type at every picture from there to the end, if and only if the first unit of the frame has not the header byte of the first
parameter set of the track, or the frame itself has a set of each type in front of its first picture. (`vss` are the units that the frames
are in the file; `file` is made of them, and so is the rest of the file from any frame on.) -/
theorem C112_access {name : String} {h : List (Oracle × DemuxOp × List Bytes)} {s : Demuxer} {M : Nat → Nat} (m : Mem)
    (hn : name = "ps" ∨ name = "ts" ∨ name = "jt1078") (hr : Reached name true (operations h) s)
    (hp : ∀ x ∈ operations h, x.2.PacketOnly) (hid : ∀ x ∈ operations h, x.1.preprocess = id) (hk : ∀ x ∈ operations h, x.2.KeyFramed)
    (hd : ∀ b, (framesOf b (operations h)).Pairwise fun f g => f.dts < g.dts)
    (hin : InPieces h) (hl : LightInput M [] (Demuxer.new name true) (operations h))
    (hc : s.completed = true) (path : List Char) (disk : Disk)
    (hnew : ∀ t ∈ s.tracks.tracks, ∀ n, FileHandler.fileName path t = ok n → disk.lookup n = none) :
    ∃ w o, ({ dem := Demuxer.new name true, mem := m } : Wired).run h = ok w ∧ w.dem = s ∧
      (FileHandler.new path disk).handleAll (asRead (toHandler w.dem.calls) w.got) = ok o ∧
      ∀ (i : Nat) t b, s.tracks.tracks[i]? = some t → ((i : Int), b) ∈ s.bufferOf → t.mediaType = mediaVideo → HasSets t.codecID →
        ∀ fs uss, fs = ((framesOf b (operations h)).drop (refusals b s.calls)).dropLast →
        List.Forall₂ (fun (f : Frame) us => (∀ u ∈ us, Framed u) ∧ HasUnits f.data us) fs uss →
        ∃ n ds vss ps, FileHandler.fileName path t = ok n ∧ o.disk.lookup n = some ⟨132, ds.flatten⟩ ∧ t.data = withCodes ps ∧
          List.Forall₂ HasUnits ds vss ∧ (∀ j, HasUnits (ds.drop j).flatten (vss.drop j).flatten) ∧ (∀ v ∈ vss.flatten, Framed v) ∧
          ∀ (j : Nat) f us vs, fs[j]? = some f → uss[j]? = some us → vss[j]? = some vs →
            (vs = if f.key = true ∧ firstHeader ps ≠ firstHeader us then ps ++ us else us) ∧
            (f.key = true → (∃ u ∈ us, isPicture t.codecID u = true) →
              (CanStart t.codecID (vss.drop j).flatten ↔ firstHeader ps ≠ firstHeader us ∨ SelfContained t.codecID us)) := by
  obtain ⟨w, o, h1, rfl, h2, h3⟩ := C94_files m hn hr hp hid hk hd hin hl hc path disk hnew
  refine ⟨w, o, h1, rfl, h2, fun i t b ht hb hm hs fs uss hfs hus => ?_⟩
  obtain ⟨n, hname, hfile⟩ := h3 i t b ht hb
  have hkn : KnownName name := by rcases hn with h | h | h <;> simp [KnownName, h]
  have hsound : ∀ x ∈ operations h, x.2.Sound name := by
    intro x hx
    have h1 := hk x hx
    have h2 := hp x hx
    obtain ⟨o, e⟩ := x
    cases e with
    | videoPacket b id d k dts pts => exact fun _ h3 _ => h1 h3
    | newAudioTrack => exact absurd h2 id
    | newVideoTrack => exact absurd h2 id
    | _ => trivial
  obtain ⟨ps, hps, hpn, hpf, hdata⟩ : ∃ ps, OneEach t.codecID ps ∧ (∀ k ∈ neededTypes t.codecID, ∃ u ∈ ps, setType t.codecID u = some k) ∧
      (∀ p ∈ ps, Framed p) ∧ t.data = withCodes ps := by
    cases C73_source hr hkn hp hsound t (List.mem_of_getElem? ht) with
    | video b' dts pts xs hm' hf htr =>
      obtain ⟨ps, c, e1, e2, _⟩ := htr.sets
      refine ⟨ps, oneEach_paramSets e1, paramSets_needed e1, fun p hp => ?_, e2⟩
      obtain ⟨x, hx, rfl⟩ := List.mem_map.1 ((paramSets_mem e1).2 p hp)
      exact hf x hx
    | audio b' ts d hm' htr => rw [htr.media] at hm; exact absurd hm (by decide)
    | odd hm' hc' => rw [hc'] at hs; exact absurd hs (by decide)
  have hfv : ∀ f ∈ fs, f.key = true → f.video = true := fun f hf => framesOf_key (by
    rw [hfs] at hf; exact List.mem_of_mem_drop (List.dropLast_subset _ hf))
  rw [← hfs] at hfile
  clear hfs
  obtain ⟨vss, e2, e3, e4⟩ : ∃ vss, List.Forall₂ HasUnits (fs.map (inFile t)) vss ∧ (∀ v ∈ vss.flatten, Framed v) ∧
      ∀ (j : Nat) f us vs, fs[j]? = some f → uss[j]? = some us → vss[j]? = some vs →
        vs = if f.key = true ∧ firstHeader ps ≠ firstHeader us then ps ++ us else us := by
    clear hfile
    induction hus with
    | nil => exact ⟨[], .nil, by simp, by simp⟩
    | @cons f us fs uss hu _ ih =>
      obtain ⟨vss, e1, e2, e3⟩ := ih fun f hf => hfv f (List.mem_cons_of_mem _ hf)
      have e5 := inFile_exact hm hs hdata hpf hu.2 hu.1
      have e6 : (f.video = true ∧ f.key = true ∧ firstHeader ps ≠ firstHeader us) ↔ (f.key = true ∧ firstHeader ps ≠ firstHeader us) :=
        ⟨fun h => h.2, fun h => ⟨hfv f (List.mem_cons_self ..) h.1, h⟩⟩
      simp only [e6] at e5
      refine ⟨_ :: vss, .cons e5 e1, ?_, ?_⟩
      · intro v hv
        rw [List.flatten_cons, List.mem_append] at hv
        rcases hv with hv | hv
        · split at hv
          · rcases List.mem_append.1 hv with hv | hv
            · exact hpf v hv
            · exact hu.1 v hv
          · exact hu.1 v hv
        · exact e2 v hv
      · intro j f' us' vs' g1 g2 g3
        cases j with
        | zero => simp only [List.getElem?_cons_zero, Option.some.injEq] at g1 g2 g3; subst g1 g2 g3; rfl
        | succ j => simp only [List.getElem?_cons_succ] at g1 g2 g3; exact e3 j _ _ _ g1 g2 g3
  refine ⟨n, fs.map (inFile t), vss, ps, hname, by rw [hfile, List.flatMap_def], hdata, e2, fun j => ?_, e3, fun j f us vs g1 g2 g3 =>
    ⟨e4 j f us vs g1 g2 g3, fun hkey hpic => ?_⟩⟩
  · exact hasUnits_flatten (List.forall₂_drop j e2)
  · have e5 := e4 j f us vs g1 g2 g3
    have e6 : (vss.drop j).flatten = vs ++ (vss.drop (j + 1)).flatten := by
      obtain ⟨hj, rfl⟩ := List.getElem?_eq_some_iff.1 g3
      rw [List.drop_eq_getElem_cons hj, List.flatten_cons]
    rw [e6]
    simp only [hkey, true_and] at e5
    split at e5
    · next hne =>
      subst e5
      exact ⟨fun _ => Or.inl hne, fun _ => (selfContained_append hps.1 hpn us).canStart _⟩
    · next hne =>
      subst e5
      constructor
      · exact fun hst => Or.inr (hst.selfContained hpic)
      · rintro (hx | hx)
        · exact absurd hx hne
        · exact hx.canStart _

theorem avcInFile_units {t : AVStream} {g : Given} {d : Bytes} (h : AvcInFile t g d) (hg : g.video = true)
    (hr : ∀ header count sps pps trailing, IsAvcRecord t.data header count sps pps trailing →
      (∀ u ∈ sps, avcUnitType u = 7) ∧ ∀ u ∈ pps, avcUnitType u = 8) :
    ∃ vs, HasUnits d vs ∧ (g.key = true → SelfContained codecH264 vs) := by
  cases h with
  | audio h => rw [h] at hg; cases hg
  | video _ header count sps pps trailing hrec us tail hu ht hd =>
    obtain ⟨h7, h8⟩ := hr _ _ _ _ _ hrec
    have hsets : ∀ l : List Bytes, l.flatMap startCoded = annexB (l.map (true, ·)) := fun l => withCodes_annexB l
    generalize hy : firstLong (us.filter fun u => avcUnitType u ≠ 6) = ys
    cases hk : g.key with
    | false =>
      refine ⟨_, ⟨ys, by simp, rfl⟩, fun h => by cases h⟩
    | true =>
      refine ⟨(sps ++ pps) ++ ((sps ++ pps) ++ ys.map (·.2)), ⟨(sps ++ pps).map (true, ·) ++ ((sps ++ pps).map (true, ·) ++ ys), ?_, by simp⟩, fun _ => ?_⟩
      · rw [annexB_append, annexB_append, ← hsets]; simp
      · refine selfContained_append (fun p hp => ?_) (fun k hk => ?_) _
        · rcases List.mem_append.1 hp with hp | hp
          · simp [setType, h7 p hp]
          · simp [setType, h8 p hp]
        · have e7 := hrec.spsSome
          have e8 := hrec.ppsSome
          obtain ⟨s, hs⟩ := List.exists_mem_of_length_pos e7
          obtain ⟨p, hp⟩ := List.exists_mem_of_length_pos e8
          have : k = 7 ∨ k = 8 := by simpa [neededTypes] using hk
          rcases this with rfl | rfl
          · exact ⟨s, List.mem_append_left _ hs, by simp [setType, h7 s hs]⟩
          · exact ⟨p, List.mem_append_right _ hp, by simp [setType, h8 p hp]⟩

theorem flv_given_video {h h1 h2 : List (Oracle × DemuxOp)} {ba bv b : Int} (hne : ba ≠ bv) (hb : ∀ x ∈ h, x.2.OnBuffers ba bv)
    (e : h = h1 ++ h2) (hbv : b = bv) {g : Given} (hgm : g ∈ givenOf b h2) : g.video = true := by
  obtain ⟨⟨o', op⟩, hx, he⟩ := List.mem_filterMap.1 hgm
  have hon := hb _ (by rw [e]; exact List.mem_append_right _ hx)
  cases op <;> simp only [DemuxOp.given] at he <;> try cases he
  · split at he
    · next hbb => exact absurd ((hon.symm.trans hbb).trans hbv) hne
    · cases he
  · split at he
    · cases he; rfl
    · cases he

/-- If each key frame has sets in front of its first picture, a decoder can start with each. -/
theorem canStart_keys {R : Given → Bytes → Prop} {codec : Int} {fs : List Given} {out : List Bytes} (hvid : ∀ g ∈ fs, g.video = true)
    (hout : List.Forall₂ R fs out)
    (hu : ∀ g d, g.video = true → R g d → ∃ vs, HasUnits d vs ∧ (g.key = true → SelfContained codec vs)) :
    ∃ vss : List (List Bytes), List.Forall₂ HasUnits out vss ∧ vss.length = fs.length ∧
      ∀ (j : Nat) g, fs[j]? = some g → g.key = true → CanStart codec (vss.drop j).flatten := by
  obtain ⟨vss, k1, k2, k3⟩ : ∃ vss, List.Forall₂ HasUnits out vss ∧ vss.length = fs.length ∧
      ∀ (j : Nat) g vs, fs[j]? = some g → vss[j]? = some vs → g.key = true → SelfContained codec vs := by
    induction hout with
    | nil => exact ⟨[], .nil, rfl, by simp⟩
    | @cons g d fs out hgd _ ih =>
      obtain ⟨vss, k1, k2, k3⟩ := ih fun g hg => hvid g (List.mem_cons_of_mem _ hg)
      obtain ⟨vs, k4, k5⟩ := hu g d (hvid g (List.mem_cons_self ..)) hgd
      refine ⟨vs :: vss, .cons k4 k1, by simp [k2], ?_⟩
      intro j g' vs' g1 g2 g3
      cases j with
      | zero => simp only [List.getElem?_cons_zero, Option.some.injEq] at g1 g2; subst g1 g2; exact k5 g3
      | succ j => simp only [List.getElem?_cons_succ] at g1 g2; exact k3 j _ _ g1 g2 g3
  refine ⟨vss, k1, k2, fun j g hj hkey => ?_⟩
  have hjl : j < vss.length := by rw [k2]; exact (List.getElem?_eq_some_iff.1 hj).1
  rw [List.drop_eq_getElem_cons hjl, List.flatten_cons]
  exact (k3 j g _ hj (List.getElem?_eq_getElem hjl) hkey).canStart _

/-- **C112**, FLV with H.264, under the conditions of C99: if the decoder configuration record has an SPS and a PPS where they should be, a
decoder can start with every key frame. -/
theorem C112_flv {a : Bool} {h : List (Oracle × DemuxOp)} {s : Demuxer} (hr : Reached "flv" a h s) (hid : ∀ x ∈ h, x.1.preprocess = id)
    {ba bv : Int} (hne : ba ≠ bv) (hb : ∀ x ∈ h, x.2.OnBuffers ba bv) (hv : ∀ x ∈ h, x.2.VideoIs codecH264)
    (hf : Orderly s) (hd : ∀ b, (givenOf b h).Pairwise fun f g => f.dts < g.dts) (hc : s.completed = true)
    (path : List Char) (disk : Disk) (hnew : ∀ t ∈ s.tracks.tracks, ∀ n, FileHandler.fileName path t = ok n → disk.lookup n = none) :
    ∃ o, (FileHandler.new path disk).handleAll (toHandler s.calls) = ok o ∧
      ∀ (i : Nat) t b, s.tracks.tracks[i]? = some t → ((i : Int), b) ∈ s.bufferOf → t.mediaType = mediaVideo →
        (∀ header count sps pps trailing, IsAvcRecord t.data header count sps pps trailing →
          (∀ u ∈ sps, avcUnitType u = 7) ∧ ∀ u ∈ pps, avcUnitType u = 8) →
        ∃ n h1 h2 fs out, ∃ vss : List (List Bytes), FileHandler.fileName path t = ok n ∧ h = h1 ++ h2 ∧ ButLast (givenOf b h2) fs ∧ List.Forall₂ (AvcInFile t) fs out ∧
        o.disk.lookup n = some ⟨132, out.flatten⟩ ∧ (∀ j, HasUnits (out.drop j).flatten (vss.drop j).flatten) ∧ List.Forall₂ HasUnits out vss ∧
        ∀ (j : Nat) g, fs[j]? = some g → g.key = true → CanStart codecH264 (vss.drop j).flatten := by
  have hty := Demuxer.runDemux_types (reached_new "flv" a) (Demuxer.Types.new "flv" a ba bv) (by decide) hr.1 hb hr.2
  obtain ⟨o, ho, hfiles⟩ := C99_flv hr hid hne hb hv hf hd hc path disk hnew
  refine ⟨o, ho, fun i t b ht hib hm hrec => ?_⟩
  obtain ⟨n, h1, h2, s1, fs, out, hn, e, hr1, hb1, hbl, hfs, hout, hfile⟩ := hfiles i t b ht hib
  have hbv : b = bv := by
    rcases hty.at ht hib with h | h
    · exact h.2
    · rw [h.1] at hm; exact absurd hm (by decide)
  obtain ⟨vss, k1, k2, k3⟩ := canStart_keys (R := AvcInFile t) (fun g hg => flv_given_video hne hb e hbv (hbl.mem hg)) hout
    fun g d hg hgd => avcInFile_units hgd hg hrec
  exact ⟨n, h1, h2, fs, out, vss, hn, e, hbl, hout, hfile, fun j => hasUnits_flatten (List.forall₂_drop j k1), k1, k3⟩

theorem setsOfType_units (k : Nat) (xs : List (Byte × List Bytes)) : setsOfType k (recordSets xs) = (unitsOfType k xs).map startCoded := by
  unfold setsOfType recordSets unitsOfType
  induction xs with
  | nil => rfl
  | cons x xs ih =>
    simp only [List.flatMap_cons, List.filter_append, List.map_append, ih]
    congr 1
    by_cases h : x.1.toNat % 64 = k
    · rw [if_pos h, List.filter_eq_self.2 (by simp [h])]; simp [startCoded]
    · rw [if_neg h, List.filter_eq_nil_iff.2 (by simp [h])]; rfl

/-- With right arrays the list of SPS is one SPS. -/
theorem spsListed_right {grow : Nat → Nat} {xs : List (Byte × List Bytes)} {l : List Bytes} (hx : RightArrays xs)
    (h : SpsListed grow (recordSets xs) l) : ∃ u ∈ unitsOfType 33 xs, l = [startCoded u] := by
  rcases h with ⟨h1, _⟩ | ⟨before, s, after, e, ha, hl⟩
  · rw [setsOfType_units] at h1
    exact absurd (List.map_eq_nil_iff.1 h1) (hx.some 33 (by simp))
  · have hb := hx.order before ((33, s) :: after) e (by simp [setsOfType])
    rw [hb] at hl
    have hs : s ∈ setsOfType 33 (recordSets xs) := by rw [e]; simp [setsOfType]
    rw [setsOfType_units] at hs
    obtain ⟨u, hu, rfl⟩ := List.mem_map.1 hs
    exact ⟨u, hu, by simpa [appendCap] using hl⟩

theorem hevcInFile_units {k : Nat} {t : AVStream} {g : Given} {d : Bytes} (h : HevcInFile k t g d) (hg : g.video = true)
    (hr : ∀ header xs trailing, IsHevcRecord t.data header xs trailing → RightArrays xs) :
    ∃ vs, HasUnits d vs ∧ (g.key = true → SelfContained codecH265 vs) := by
  cases h with
  | audio h => rw [h] at hg; cases hg
  | video _ header xs trailing hrec grow sps hsps us hd hu sets he =>
    have hx := hr _ _ _ hrec
    obtain ⟨s, hs, rfl⟩ := spsListed_right hx hsps
    rw [setsOfType_units, setsOfType_units] at he
    have hsets : ∀ l : List Bytes, l.flatMap startCoded = annexB (l.map (true, ·)) := fun l => withCodes_annexB l
    generalize hps : unitsOfType 32 xs ++ [s] ++ unitsOfType 34 xs = ps
    have he' : sets = annexB (ps.map (true, ·)) := by rw [he, ← hsets, ← hps]; simp [List.flatMap_def]
    cases hk : g.key with
    | false => exact ⟨us, ⟨us.map (true, ·), by rw [← hsets]; simp, by simp⟩, fun h => by cases h⟩
    | true =>
      refine ⟨ps ++ (ps ++ us), ⟨ps.map (true, ·) ++ (ps.map (true, ·) ++ us.map (true, ·)), ?_, by simp⟩, fun _ => ?_⟩
      · rw [annexB_append, annexB_append, ← he', ← hsets]; simp
      · have hty : ∀ j ∈ [32, 33, 34], ∀ u ∈ unitsOfType j xs, setType codecH265 u = some j := by
          intro j hj u hu
          have e := hx.typed j hj u hu
          have hne : codecH265 ≠ codecH264 := by decide
          have : 32 ≤ j ∧ j ≤ 34 := by simp only [List.mem_cons, List.not_mem_nil, or_false] at hj; omega
          simp [setType, hne, e, this]
        refine selfContained_append (fun p hp => ?_) (fun j hj => ?_) _
        · rw [← hps] at hp
          simp only [List.mem_append, List.mem_singleton] at hp
          rcases hp with (hp | rfl) | hp
          · rw [hty 32 (by simp) p hp]; simp
          · rw [hty 33 (by simp) p hs]; simp
          · rw [hty 34 (by simp) p hp]; simp
        · have hj' : j = 32 ∨ j = 33 ∨ j = 34 := by simpa [neededTypes, show codecH265 ≠ codecH264 by decide] using hj
          rcases hj' with rfl | rfl | rfl
          · obtain ⟨u, hu⟩ := List.exists_mem_of_ne_nil _ (hx.some 32 (by simp))
            exact ⟨u, by rw [← hps]; simp [hu], hty 32 (by simp) u hu⟩
          · exact ⟨s, by rw [← hps]; simp, hty 33 (by simp) s hs⟩
          · obtain ⟨u, hu⟩ := List.exists_mem_of_ne_nil _ (hx.some 34 (by simp))
            exact ⟨u, by rw [← hps]; simp [hu], hty 34 (by simp) u hu⟩

/-- **C112**, FLV with H.265, under the conditions of C99: if the decoder configuration record has sets of the three types where they should
be and no PPS in front of its last SPS, a decoder can start with every key frame. -/
theorem C112_flv_hevc {a : Bool} {h : List (Oracle × DemuxOp)} {s : Demuxer} (hr : Reached "flv" a h s) (hid : ∀ x ∈ h, x.1.preprocess = id)
    {ba bv : Int} (hne : ba ≠ bv) (hb : ∀ x ∈ h, x.2.OnBuffers ba bv) (hv : ∀ x ∈ h, x.2.VideoIs codecH265) {k : Nat}
    (hk : ∀ x ∈ h, x.2.HevcBy k)
    (hf : Orderly s) (hd : ∀ b, (givenOf b h).Pairwise fun f g => f.dts < g.dts) (hc : s.completed = true)
    (path : List Char) (disk : Disk) (hnew : ∀ t ∈ s.tracks.tracks, ∀ n, FileHandler.fileName path t = ok n → disk.lookup n = none) :
    ∃ o, (FileHandler.new path disk).handleAll (toHandler s.calls) = ok o ∧
      ∀ (i : Nat) t b, s.tracks.tracks[i]? = some t → ((i : Int), b) ∈ s.bufferOf → t.mediaType = mediaVideo →
        (∀ header xs trailing, IsHevcRecord t.data header xs trailing → RightArrays xs) →
        ∃ n h1 h2 fs out, ∃ vss : List (List Bytes), FileHandler.fileName path t = ok n ∧ h = h1 ++ h2 ∧ ButLast (givenOf b h2) fs ∧ List.Forall₂ (HevcInFile k t) fs out ∧
        o.disk.lookup n = some ⟨132, out.flatten⟩ ∧ (∀ j, HasUnits (out.drop j).flatten (vss.drop j).flatten) ∧ List.Forall₂ HasUnits out vss ∧
        ∀ (j : Nat) g, fs[j]? = some g → g.key = true → CanStart codecH265 (vss.drop j).flatten := by
  have hty := Demuxer.runDemux_types (reached_new "flv" a) (Demuxer.Types.new "flv" a ba bv) (by decide) hr.1 hb hr.2
  obtain ⟨o, ho, hfiles⟩ := C99_flv_hevc hr hid hne hb hv hk hf hd hc path disk hnew
  refine ⟨o, ho, fun i t b ht hib hm hrec => ?_⟩
  obtain ⟨n, h1, h2, s1, fs, out, hn, e, hr1, hb1, hbl, hfs, hout, hfile⟩ := hfiles i t b ht hib
  have hbv : b = bv := by
    rcases hty.at ht hib with h | h
    · exact h.2
    · rw [h.1] at hm; exact absurd hm (by decide)
  obtain ⟨vss, k1, k2, k3⟩ := canStart_keys (R := HevcInFile k t) (fun g hg => flv_given_video hne hb e hbv (hbl.mem hg)) hout
    fun g d hg hgd => hevcInFile_units hgd hg hrec
  exact ⟨n, h1, h2, fs, out, vss, hn, e, hbl, hout, hfile, fun j => hasUnits_flatten (List.forall₂_drop j k1), k1, k3⟩

/-- The claim: a decoder can start with each key frame. -/
def C112_claim : Prop := ∀ (name : String) (h : List (Oracle × DemuxOp × List Bytes)) (s : Demuxer) (M : Nat → Nat) (m : Mem),
  (name = "ps" ∨ name = "ts" ∨ name = "jt1078") → Reached name true (operations h) s →
  (∀ x ∈ operations h, x.2.PacketOnly) → (∀ x ∈ operations h, x.1.preprocess = id) → (∀ x ∈ operations h, x.2.KeyFramed) →
  (∀ b, (framesOf b (operations h)).Pairwise fun f g => f.dts < g.dts) → InPieces h → LightInput M [] (Demuxer.new name true) (operations h) →
  s.completed = true → ∀ (path : List Char) (w : Wired) (o : FileHandler), ({ dem := Demuxer.new name true, mem := m } : Wired).run h = ok w →
  (FileHandler.new path []).handleAll (asRead (toHandler w.dem.calls) w.got) = ok o →
  ∀ (i : Nat) t b, s.tracks.tracks[i]? = some t → ((i : Int), b) ∈ s.bufferOf → t.mediaType = mediaVideo → HasSets t.codecID →
  ∀ fs uss, fs = ((framesOf b (operations h)).drop (refusals b s.calls)).dropLast →
  List.Forall₂ (fun (f : Frame) us => (∀ u ∈ us, Framed u) ∧ HasUnits f.data us) fs uss →
  ∀ n file vss, FileHandler.fileName path t = ok n → o.disk.lookup n = some ⟨132, file⟩ → HasUnits file vss.flatten → (∀ v ∈ vss.flatten, Framed v) →
  List.Forall₂ (fun us vs => ∃ e, vs = e ++ us) uss vss →
  ∀ (j : Nat) (f : Frame), fs[j]? = some f → f.key = true → CanStart t.codecID (vss.drop j).flatten

/-- A key frame with SPS and PPS, one with an SPS only, another frame and one more. -/
def spsOnlyRun : List (Oracle × DemuxOp × List Bytes) :=
  [(exOracle, .videoPacket 0 codecH264 (annexB exUnits) true 0 0, [annexB exUnits]),
   (exOracle, .videoPacket 0 codecH264 [0, 0, 1, 103, 66, 9, 0, 0, 1, 0x65, 7] true 30 30, [[0, 0, 1, 103, 66, 9, 0, 0, 1, 0x65, 7]]),
   (exOracle, .probeComplete, []),
   (exOracle, .videoPacket 0 codecH264 [0, 0, 1, 0x65, 7] true 60 60, [[0, 0, 1, 0x65, 7]]),
   (exOracle, .videoPacket 0 codecH264 [0, 0, 1, 0x41, 6] false 90 90, [[0, 0, 1, 0x41, 6]])]

theorem spsOnlyRun_result : ∃ s, Reached "ts" true (operations spsOnlyRun) s ∧ s.completed = true ∧
    s.tracks.tracks.map (fun t => (t.mediaType, t.index, t.codecID, t.data)) = [(mediaVideo, 0, codecH264, filmSets)] ∧
    s.bufferOf = [(0, 0)] ∧ refusals 0 s.calls = 0 ∧ LightInput (fun _ => 40) [] (Demuxer.new "ts" true) (operations spsOnlyRun) := by
  have h : (runDemux (Demuxer.new "ts" true) (operations spsOnlyRun) >>= fun s => ok (decide (s.completed = true ∧
      s.tracks.tracks.map (fun t => (t.mediaType, t.index, t.codecID, t.data)) = [(mediaVideo, 0, codecH264, filmSets)] ∧
      s.bufferOf = [(0, 0)] ∧ refusals 0 s.calls = 0))) = ok true := by decide +kernel
  obtain ⟨s, h1, h2⟩ := bind_eq_ok.1 h
  simp only [Go.ok.injEq, decide_eq_true_eq] at h2
  refine ⟨s, ⟨fun x hx => ?_, h1⟩, h2.1, h2.2.1, h2.2.2.1, h2.2.2.2, lightInput_sound (by decide +kernel)⟩
  have : x.1 = exOracle := by revert x; simp [operations, spsOnlyRun]
  rw [this]; exact exOracle_valid

/-- The second key frame is in the file as it is; a decoder that starts there has no PPS. The first and the third can be started with. -/
theorem C112_claim_violated : ¬ C112_claim := by
  intro hclaim
  obtain ⟨s, hr, hc, ht, hb, hn, hl⟩ := spsOnlyRun_result
  have hx : ∀ x ∈ operations spsOnlyRun, x.1 = exOracle := by simp [operations, spsOnlyRun]
  have g1 : ∀ x ∈ operations spsOnlyRun, x.2.PacketOnly := by simp [operations, spsOnlyRun, DemuxOp.PacketOnly]
  have g2 : ∀ x ∈ operations spsOnlyRun, x.1.preprocess = id := fun x h => by rw [hx x h]; rfl
  have g3 : ∀ x ∈ operations spsOnlyRun, x.2.KeyFramed := by
    intro x hx
    simp only [operations, spsOnlyRun, List.map_cons, List.map_nil, List.mem_cons, List.not_mem_nil, or_false] at hx
    rcases hx with rfl | rfl | rfl | rfl | rfl <;> simp only [DemuxOp.KeyFramed, Bool.false_eq_true, false_implies]
    · exact fun _ => ⟨exUnits, by decide, by decide, rfl⟩
    · exact fun _ => ⟨[(false, [103, 66, 9]), (false, [0x65, 7])], by decide, by decide, rfl⟩
    · exact fun _ => ⟨[(false, [0x65, 7])], by decide, by decide, rfl⟩
  have g4 : ∀ b, (framesOf b (operations spsOnlyRun)).Pairwise fun f g => f.dts < g.dts := by
    intro b
    by_cases h0 : b = 0
    · subst h0; decide
    · have : framesOf b (operations spsOnlyRun) = [] := by
        simp [framesOf, operations, spsOnlyRun, DemuxOp.frame, Ne.symm h0]
      rw [this]; exact .nil
  have g5 : InPieces spsOnlyRun := by
    intro x hx b d hk
    simp only [spsOnlyRun, List.mem_cons, List.not_mem_nil, or_false] at hx
    rcases hx with rfl | rfl | rfl | rfl | rfl <;> simp [DemuxOp.block] at hk ⊢ <;> simp [← hk.2]
  obtain ⟨w, o, h1, rfl, h2, h3⟩ := C94_files ([] : Mem) (Or.inr (Or.inl rfl)) hr g1 g2 g3 g4 g5 hl hc ['o'] [] (fun _ _ _ _ => rfl)
  obtain ⟨t, l, hts, ha, ht⟩ := List.map_eq_cons_iff.1 ht
  simp only [Prod.mk.injEq] at ha
  obtain ⟨a1, a2, a3, a4⟩ := ha
  obtain ⟨n, k1, k2⟩ := h3 0 t 0 (by rw [hts]; rfl) (by rw [hb]; decide)
  have hfile : ((framesOf 0 (operations spsOnlyRun)).drop (refusals 0 w.dem.calls)).dropLast.flatMap (inFile t) =
      annexB (exUnits ++ [(false, [103, 66, 9]), (false, [0x65, 7])] ++
        [(true, [103, 66, 0, 31, 218, 1, 64, 22, 228]), (true, [104, 206]), (false, [0x65, 7])]) := by
    rw [hn]
    unfold inFile
    rw [a1, a3, a4]
    decide +kernel
  rw [hfile] at k2
  have := hclaim "ts" spsOnlyRun w.dem _ ([] : Mem) (Or.inr (Or.inl rfl)) hr g1 g2 g3 g4 g5 hl hc ['o'] w o h1 h2 0 t 0 (by rw [hts]; rfl)
    (by rw [hb]; decide) a1 (by rw [a3]; decide) _ [exUnits.map (·.2), [[103, 66, 9], [0x65, 7]], [[0x65, 7]]] rfl (by
      rw [hn]
      refine .cons ⟨by decide, exUnits, rfl, rfl⟩ (.cons ⟨by decide, [(false, [103, 66, 9]), (false, [0x65, 7])], rfl, rfl⟩
        (.cons ⟨by decide, [(false, [0x65, 7])], rfl, rfl⟩ .nil)))
    n _ [exUnits.map (·.2), [[103, 66, 9], [0x65, 7]], [[103, 66, 0, 31, 218, 1, 64, 22, 228], [104, 206], [0x65, 7]]] k1 k2 ⟨_, rfl, rfl⟩
    (by decide) (.cons ⟨[], rfl⟩ (.cons ⟨[], rfl⟩ (.cons ⟨[[103, 66, 0, 31, 218, 1, 64, 22, 228], [104, 206]], rfl⟩ .nil)))
    1 ⟨true, true, [0, 0, 1, 103, 66, 9, 0, 0, 1, 0x65, 7], 30⟩ (by rw [hn]; decide) rfl
  rw [a3] at this
  have e : (decoded codecH264 noSets ([exUnits.map (·.2), [[103, 66, 9], [0x65, 7]],
      [[103, 66, 0, 31, 218, 1, 64, 22, 228], [104, 206], [0x65, 7]]].drop 1).flatten).map (fun x => x.2 8) = [none, some [104, 206]] := by decide
  obtain ⟨x, hx, e⟩ : ∃ x ∈ decoded codecH264 noSets ([exUnits.map (·.2), [[103, 66, 9], [0x65, 7]],
      [[103, 66, 0, 31, 218, 1, 64, 22, 228], [104, 206], [0x65, 7]]].drop 1).flatten, x.2 8 = none := by
    have : none ∈ (decoded codecH264 noSets ([exUnits.map (·.2), [[103, 66, 9], [0x65, 7]],
      [[103, 66, 0, 31, 218, 1, 64, 22, 228], [104, 206], [0x65, 7]]].drop 1).flatten).map (fun x => x.2 8) := by rw [e]; simp
    simpa using List.mem_map.1 this
  exact this x hx 8 (by decide) e

/-- The remaining hypotheses of `C112_access` hold of `spsOnlyRun`; the conditions in its equivalence hold of the first and the third key
frame, and neither of the second. -/
example : List.Forall₂ (fun (f : Frame) us => (∀ u ∈ us, Framed u) ∧ HasUnits f.data us) ((framesOf 0 (operations spsOnlyRun)).drop 0).dropLast
      [exUnits.map (·.2), [[103, 66, 9], [0x65, 7]], [[0x65, 7]]] ∧
    filmSets = withCodes [[103, 66, 0, 31, 218, 1, 64, 22, 228], [104, 206]] ∧ SelfContained codecH264 (exUnits.map (·.2)) ∧
    firstHeader [[103, 66, 0, 31, 218, 1, 64, 22, 228], [104, 206]] = firstHeader [[103, 66, 9], [0x65, 7]] ∧
    firstHeader [[103, 66, 0, 31, 218, 1, 64, 22, 228], [104, 206]] ≠ firstHeader [[0x65, 7]] := by
  refine ⟨.cons ⟨by decide, exUnits, rfl, rfl⟩ (.cons ⟨by decide, [(false, [103, 66, 9]), (false, [0x65, 7])], rfl, rfl⟩
        (.cons ⟨by decide, [(false, [0x65, 7])], rfl, rfl⟩ .nil)), rfl,
    ⟨(exUnits.map (·.2)).take 2, (exUnits.map (·.2)).drop 2, by decide, by decide, by decide⟩, by decide, by decide⟩

/-- The record of `flvRun`, which fulfils the conditions of C99, is as `C112_flv` wants it. -/
example : IsAvcRecord (avcRecord [1, 66, 0, 31, 0xff] 0xE1 [[103, 66, 0, 31, 218, 1, 64, 22, 228]] [[104, 206]]) [1, 66, 0, 31, 0xff] 0xE1
      [[103, 66, 0, 31, 218, 1, 64, 22, 228]] [[104, 206]] [] ∧
    (∀ u ∈ [[103, 66, 0, 31, 218, 1, 64, 22, 228]], avcUnitType u = 7) ∧ ∀ u ∈ [[104, 206]], avcUnitType u = 8 := by
  refine ⟨⟨rfl, by decide, by decide, by decide, by decide, by decide, by simp⟩, by decide, by decide⟩

/-- The record of `flvRun265`, which fulfils the conditions of C99, has right arrays. -/
example : IsHevcRecord RepoTests.hevcRecordBytes (RepoTests.hevcRecordBytes.take 22)
      [(0xa0, [(RepoTests.hevcRecordBytes.drop 28).take 24]), (0xa1, [(RepoTests.hevcRecordBytes.drop 57).take 45]), (0xa2, [RepoTests.hevcRecordBytes.drop 107])] [] ∧
    RightArrays [(0xa0, [(RepoTests.hevcRecordBytes.drop 28).take 24]), (0xa1, [(RepoTests.hevcRecordBytes.drop 57).take 45]), (0xa2, [RepoTests.hevcRecordBytes.drop 107])] := by
  refine ⟨⟨by decide, by decide, by decide, by decide⟩, by decide, by decide, fun before after e h => ?_⟩
  rcases before with _ | ⟨a, _ | ⟨b, _ | ⟨c, before⟩⟩⟩
  · rfl
  · simp only [recordSets, List.flatMap_cons, List.flatMap_nil, List.map_cons, List.map_nil, List.nil_append, List.cons_append, List.cons.injEq] at e
    rw [← e.1]; rfl
  · simp only [recordSets, List.flatMap_cons, List.flatMap_nil, List.map_cons, List.map_nil, List.nil_append, List.cons_append, List.cons.injEq] at e
    rw [← e.1, ← e.2.1]; rfl
  · simp only [recordSets, List.flatMap_cons, List.flatMap_nil, List.map_cons, List.map_nil, List.nil_append, List.cons_append, List.cons.injEq] at e
    have : after = [] := (List.append_eq_nil_iff.1 e.2.2.2.symm).2
    rw [this] at h
    exact absurd rfl h

/-- `append` as in the Go runtime for a nil slice of slices: room for 1, 2 and 4. -/
def lostOracle : Oracle := { exOracle with grow := fun n => if n = 3 then 4 else n }

/-- A PPS that is read as an SPS. -/
def lostPps : Bytes := 0x44 :: ((RepoTests.hevcRecordBytes.drop 57).take 45).drop 1

/-- The sets of a record with three PPS, the SPS, one more PPS and the VPS. -/
def lostArrays : List (Byte × List Bytes) :=
  [(34, [lostPps, lostPps, lostPps]), (33, [(RepoTests.hevcRecordBytes.drop 57).take 45]), (34, [RepoTests.hevcRecordBytes.drop 107]),
   (32, [(RepoTests.hevcRecordBytes.drop 28).take 24])]

/-- A key frame with this record. -/
def lostRun : List (Oracle × DemuxOp) :=
  [(lostOracle, .newVideoTrack 1 codecH265 1000 (some (RepoTests.hevcRecordBytes.take 22 ++ [4] ++ lostArrays.flatMap fun x => hevcArray x.1 x.2))),
   (lostOracle, .videoPacket 1 codecH265 (lengthPrefixed 4 [[38, 1, 7], [40, 1]]) true 0 40),
   (lostOracle, .probeComplete),
   (lostOracle, .videoPacket 1 codecH265 (lengthPrefixed 4 [[2, 1, 8]]) false 80 80)]

/-- What is in front of the key frame: no SPS. -/
def lostSets : List Bytes := [(RepoTests.hevcRecordBytes.drop 28).take 24] ++ [lostPps, lostPps, lostPps, RepoTests.hevcRecordBytes.drop 107] ++
  [lostPps, lostPps, lostPps, RepoTests.hevcRecordBytes.drop 107]

/-- **C112**: the order of the arrays matters. Here the record has all three types, each in its array, and a decoder cannot start with the key frame:
the only SPS is not in the file. -/
theorem C112_flv_hevc_violated : lostOracle.Valid ∧ (∀ k ∈ [32, 33, 34], unitsOfType k lostArrays ≠ [] ∧ ∀ u ∈ unitsOfType k lostArrays, hevcUnitType u = k) ∧
    flvFiles lostRun = ok [("o.video.0.H265", withCodes (lostSets ++ lostSets ++ [[38, 1, 7], [40, 1]]))] ∧
    ¬ CanStart codecH265 (lostSets ++ lostSets ++ [[38, 1, 7], [40, 1]]) := by
  refine ⟨?_, by decide, by decide +kernel, fun h => ?_⟩
  · exact ⟨exOracle_valid.order, exOracle_valid.sortPerm, exOracle_valid.sorted, exOracle_valid.index, exOracle_valid.buffer⟩
  · have e : (decoded codecH265 noSets (lostSets ++ lostSets ++ [[38, 1, 7], [40, 1]])).map (fun x => x.2 33) = [none, none] := by decide +kernel
    obtain ⟨x, l, h1, h2, _⟩ := List.map_eq_cons_iff.1 e
    exact h x (by rw [h1]; simp) 33 (by decide) h2

end Avf
