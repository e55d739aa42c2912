import Verif.Lemmas.Decode
/-! # C108: what a decoder sees in the file of a track -/
namespace Avf
open Go

theorem oneEach_paramSets {id : Int} {us ps : List Bytes} (h : paramSets id us = some ps) : OneEach id ps := by
  have last : ∀ (type : Bytes → Nat) (k : Nat) (u : Bytes), lastOf type k us = some u → type u = k := by
    intro type k u hu
    have := List.mem_of_getLast? hu
    simpa using (List.mem_filter.1 this).2
  unfold paramSets at h
  split at h
  · next e =>
    subst e
    split at h
    · next s p hs hp =>
      cases h
      have h1 := last _ _ _ hs
      have h2 := last _ _ _ hp
      constructor
      · intro u hu
        simp at hu
        rcases hu with rfl | rfl <;> simp [setType, *]
      · intro u hu v hv e
        simp at hu hv
        rcases hu with rfl | rfl <;> rcases hv with rfl | rfl <;> simp [setType, *] at e ⊢
    · cases h
  · split at h
    · next e0 e =>
      subst e
      split at h
      · next v s p hv hs hp =>
        cases h
        have h0 := last _ _ _ hv
        have h1 := last _ _ _ hs
        have h2 := last _ _ _ hp
        have hne : codecH265 ≠ codecH264 := by decide
        constructor
        · intro u hu
          simp at hu
          rcases hu with rfl | rfl | rfl <;> simp [setType, *]
        · intro u hu v hv e
          simp at hu hv
          rcases hu with rfl | rfl | rfl <;> rcases hv with rfl | rfl | rfl <;> simp [setType, *] at e ⊢
      · cases h
    · cases h

/-- The units of a frame in the file. -/
theorem inFile_units {t : AVStream} {ps us : List Bytes} {f : Frame} (ht : t.data = withCodes ps) (hf : HasUnits f.data us) :
    ∃ vs, (vs = us ∨ vs = ps ++ us) ∧ HasUnits (inFile t f) vs := by
  obtain ⟨xs, hd, rfl⟩ := hf
  unfold inFile
  split
  · refine ⟨_, Or.inr rfl, ps.map (true, ·) ++ xs, ?_, by simp⟩
    rw [annexB_append, hd, ht]
    congr 1
    exact withCodes_annexB ps
  · exact ⟨_, Or.inl rfl, xs, hd, rfl⟩

theorem hasUnits_flatten {ds : List Bytes} {vss : List (List Bytes)} (h : List.Forall₂ HasUnits ds vss) : HasUnits ds.flatten vss.flatten := by
  induction h with
  | nil => exact ⟨[], rfl, rfl⟩
  | cons h _ ih =>
    obtain ⟨xs, rfl, rfl⟩ := h
    obtain ⟨ys, hy, e⟩ := ih
    exact ⟨xs ++ ys, by rw [annexB_append, List.flatten_cons, hy], by rw [List.map_append, e, List.flatten_cons]⟩

theorem setType_picture {codec : Int} {u : Bytes} (h : setType codec u ≠ none) : isPicture codec u = false := by
  unfold setType at h
  unfold isPicture
  split at h
  · next e =>
    rw [if_pos e]
    split at h
    · simp; omega
    · exact absurd rfl h
  · next e =>
    rw [if_neg e]
    split at h
    · next e =>
      rw [if_pos e]
      split at h
      · simp; omega
      · exact absurd rfl h
    · exact absurd rfl h

/-- The pictures that a decoder sees are the units that are parts of pictures. -/
theorem decoded_pictures (codec : Int) (a : Sets) (us : List Bytes) : (decoded codec a us).map Prod.fst = us.filter (isPicture codec) := by
  induction us generalizing a with
  | nil => rfl
  | cons u us ih =>
    rw [decoded]
    cases hk : setType codec u with
    | some k => rw [List.filter_cons_of_neg (by simp [setType_picture (codec := codec) (u := u) (by simp [hk])])]; exact ih _
    | none =>
      dsimp only
      split
      · next hp => rw [List.map_cons, ih, List.filter_cons_of_pos hp]
      · next hp => rw [ih, List.filter_cons_of_neg hp]

/-- **C108**: under the conditions of C94, the file of an H.264 or H.265 track whose frames are made of NAL units is an Annex B stream of
NAL units: those of the frames (from the first that is not refused to the last but one), with the parameter sets `ps` of the track put in
front of some frames. So it has the pictures of the frames, in this order; and if the sets of the stream do not change (all that the frames
have are of `ps`), a decoder of the file has for each picture the sets that a decoder of the stream has. -/
theorem C108_decodes {name : String} {h : List (Oracle × DemuxOp × List Bytes)} {s : Demuxer} {M : Nat → Nat} (m : Mem)
    (hn : name = "ps" ∨ name = "ts" ∨ name = "jt1078") (hr : Reached name true (operations h) s)
    (hp : ∀ x ∈ operations h, x.2.PacketOnly) (hid : ∀ x ∈ operations h, x.1.preprocess = id) (hk : ∀ x ∈ operations h, x.2.KeyFramed)
    (hd : ∀ b, (framesOf b (operations h)).Pairwise fun f g => f.dts < g.dts)
    (hin : InPieces h) (hl : LightInput M [] (Demuxer.new name true) (operations h))
    (hc : s.completed = true) (path : List Char) (disk : Disk)
    (hnew : ∀ t ∈ s.tracks.tracks, ∀ n, FileHandler.fileName path t = ok n → disk.lookup n = none) :
    ∃ w o, ({ dem := Demuxer.new name true, mem := m } : Wired).run h = ok w ∧ w.dem = s ∧
      (FileHandler.new path disk).handleAll (asRead (toHandler w.dem.calls) w.got) = ok o ∧
      ∀ (i : Nat) t b, s.tracks.tracks[i]? = some t → ((i : Int), b) ∈ s.bufferOf → t.mediaType = mediaVideo → HasSets t.codecID →
        ∀ uss, List.Forall₂ (fun f us => (∀ u ∈ us, Framed u) ∧ HasUnits f.data us) ((framesOf b (operations h)).drop (refusals b s.calls)).dropLast uss →
        ∃ n file vss ps, FileHandler.fileName path t = ok n ∧ o.disk.lookup n = some ⟨132, file⟩ ∧ t.data = withCodes ps ∧ OneEach t.codecID ps ∧
          HasUnits file vss.flatten ∧ (∀ v ∈ vss.flatten, Framed v) ∧ List.Forall₂ (fun us vs => vs = us ∨ vs = ps ++ us) uss vss ∧
          vss.flatten.filter (isPicture t.codecID) = uss.flatten.filter (isPicture t.codecID) ∧
          ((∀ us ∈ uss, ∀ u ∈ us, setType t.codecID u ≠ none → u ∈ ps) →
            List.Forall₂ Prepared (decoded t.codecID noSets uss.flatten) (decoded t.codecID noSets vss.flatten)) := by
  obtain ⟨w, o, h1, rfl, h2, h3⟩ := C94_files m hn hr hp hid hk hd hin hl hc path disk hnew
  refine ⟨w, o, h1, rfl, h2, fun i t b ht hb hm hs uss hus => ?_⟩
  obtain ⟨n, hname, hfile⟩ := h3 i t b ht hb
  have hkn : KnownName name := by rcases hn with h | h | h <;> simp [KnownName, h]
  have hsound : ∀ x ∈ operations h, x.2.Sound name := by
    intro x hx
    have h1 := hk x hx
    have h2 := hp x hx
    obtain ⟨o, e⟩ := x
    cases e with
    | videoPacket b id d k dts pts => exact fun _ h3 _ => h1 h3
    | newAudioTrack => exact absurd h2 id
    | newVideoTrack => exact absurd h2 id
    | _ => trivial
  obtain ⟨ps, hps, hpf, hdata⟩ : ∃ ps, OneEach t.codecID ps ∧ (∀ p ∈ ps, Framed p) ∧ t.data = withCodes ps := by
    cases C73_source hr hkn hp hsound t (List.mem_of_getElem? ht) with
    | video b' dts pts xs hm' hf htr =>
      obtain ⟨ps, c, e1, e2, _⟩ := htr.sets
      refine ⟨ps, oneEach_paramSets e1, fun p hp => ?_, e2⟩
      obtain ⟨x, hx, rfl⟩ := List.mem_map.1 ((paramSets_mem e1).2 p hp)
      exact hf x hx
    | audio b' ts d hm' htr => rw [htr.media] at hm; exact absurd hm (by decide)
    | odd hm' hc' => rw [hc'] at hs; exact absurd hs (by decide)
  generalize ((framesOf b (operations h)).drop (refusals b w.dem.calls)).dropLast = fs at hfile hus
  obtain ⟨vss, e1, e2, e3⟩ : ∃ vss, List.Forall₂ (fun us vs => vs = us ∨ vs = ps ++ us) uss vss ∧
      List.Forall₂ HasUnits (fs.map (inFile t)) vss ∧ ∀ v ∈ vss.flatten, Framed v := by
    clear hfile
    induction hus with
    | nil => exact ⟨[], .nil, .nil, by simp⟩
    | @cons f us fs uss hu _ ih =>
      obtain ⟨vss, e1, e2, e3⟩ := ih
      obtain ⟨vs, e4, e5⟩ := inFile_units hdata hu.2
      refine ⟨vs :: vss, .cons e4 e1, .cons e5 e2, ?_⟩
      intro v hv
      rw [List.flatten_cons, List.mem_append] at hv
      rcases hv with hv | hv
      · rcases e4 with rfl | rfl
        · exact hu.1 v hv
        · rcases List.mem_append.1 hv with hv | hv
          · exact hpf v hv
          · exact hu.1 v hv
      · exact e3 v hv
  refine ⟨n, _, vss, ps, hname, hfile, hdata, hps, ?_, e3, e1, ?_, fun hc => Follows.frames hps e1 hc (follows_none _ _ _)⟩
  · have := hasUnits_flatten e2
    rwa [← List.flatMap_def] at this
  · clear hfile hus e2 e3
    induction e1 with
    | nil => rfl
    | @cons us vs uss vss e _ ih =>
      rw [List.flatten_cons, List.flatten_cons, List.filter_append, List.filter_append, ih]
      congr 1
      rcases e with rfl | rfl
      · rfl
      · rw [List.filter_append, List.filter_eq_nil_iff.2 fun u hu => ?_, List.nil_append]
        simp [setType_picture (hps.1 u hu)]

/-- The claim: a decoder of the file has for each picture the sets that a decoder of the stream has. -/
def C108_claim : Prop := ∀ (name : String) (h : List (Oracle × DemuxOp × List Bytes)) (s : Demuxer) (M : Nat → Nat) (m : Mem),
  (name = "ps" ∨ name = "ts" ∨ name = "jt1078") → Reached name true (operations h) s →
  (∀ x ∈ operations h, x.2.PacketOnly) → (∀ x ∈ operations h, x.1.preprocess = id) → (∀ x ∈ operations h, x.2.KeyFramed) →
  (∀ b, (framesOf b (operations h)).Pairwise fun f g => f.dts < g.dts) → InPieces h → LightInput M [] (Demuxer.new name true) (operations h) →
  s.completed = true → ∀ (path : List Char) (w : Wired) (o : FileHandler), ({ dem := Demuxer.new name true, mem := m } : Wired).run h = ok w →
  (FileHandler.new path []).handleAll (asRead (toHandler w.dem.calls) w.got) = ok o →
  ∀ (i : Nat) t b, s.tracks.tracks[i]? = some t → ((i : Int), b) ∈ s.bufferOf → t.mediaType = mediaVideo → HasSets t.codecID →
  ∀ uss, List.Forall₂ (fun f us => (∀ u ∈ us, Framed u) ∧ HasUnits f.data us) ((framesOf b (operations h)).drop (refusals b s.calls)).dropLast uss →
  ∀ n file vs, FileHandler.fileName path t = ok n → o.disk.lookup n = some ⟨132, file⟩ → HasUnits file vs → (∀ v ∈ vs, Framed v) →
  List.Forall₂ Prepared (decoded t.codecID noSets uss.flatten) (decoded t.codecID noSets vs)

/-- A key frame with sets, a key frame with a new SPS, a key frame without sets, another frame. -/
def setsUnits : List (Bool × Bytes) := [(true, [103, 66, 0, 31, 99]), (false, [104, 206]), (false, [0x65, 0x89])]
def setsRun : List (Oracle × DemuxOp × List Bytes) :=
  [(exOracle, .videoPacket 0 codecH264 (annexB exUnits) true 0 0, [annexB exUnits]),
   (exOracle, .videoPacket 0 codecH264 (annexB setsUnits) true 30 30, [annexB setsUnits]),
   (exOracle, .probeComplete, []),
   (exOracle, .videoPacket 0 codecH264 [0, 0, 1, 0x65, 7] true 60 60, [[0, 0, 1, 0x65, 7]]),
   (exOracle, .videoPacket 0 codecH264 [0, 0, 1, 0x41, 6] false 90 90, [[0, 0, 1, 0x41, 6]])]

theorem setsRun_result : ∃ s, Reached "ts" true (operations setsRun) s ∧ s.completed = true ∧
    s.tracks.tracks.map (fun t => (t.mediaType, t.index, t.codecID, t.data)) = [(mediaVideo, 0, codecH264, filmSets)] ∧
    s.bufferOf = [(0, 0)] ∧ refusals 0 s.calls = 0 ∧ LightInput (fun _ => 40) [] (Demuxer.new "ts" true) (operations setsRun) := by
  have h : (runDemux (Demuxer.new "ts" true) (operations setsRun) >>= fun s => ok (decide (s.completed = true ∧
      s.tracks.tracks.map (fun t => (t.mediaType, t.index, t.codecID, t.data)) = [(mediaVideo, 0, codecH264, filmSets)] ∧
      s.bufferOf = [(0, 0)] ∧ refusals 0 s.calls = 0))) = ok true := by decide +kernel
  obtain ⟨s, h1, h2⟩ := bind_eq_ok.1 h
  simp only [Go.ok.injEq, decide_eq_true_eq] at h2
  refine ⟨s, ⟨fun x hx => ?_, h1⟩, h2.1, h2.2.1, h2.2.2.1, h2.2.2.2, lightInput_sound (by decide +kernel)⟩
  have : x.1 = exOracle := by revert x; simp [operations, setsRun]
  rw [this]; exact exOracle_valid

theorem prepared_sets {l l' : List (Bytes × Sets)} (h : List.Forall₂ Prepared l l') (k i : Nat) (v : Bytes)
    (hv : (l.map fun x => x.2 k)[i]? = some (some v)) : (l'.map fun x => x.2 k)[i]? = some (some v) := by
  induction h generalizing i with
  | nil => simp at hv
  | @cons x y l l' hxy _ ih =>
    cases i with
    | zero =>
      simp only [List.map_cons, List.getElem?_cons_zero, Option.some.injEq] at hv ⊢
      exact hxy.2 k v hv
    | succ i =>
      simp only [List.map_cons, List.getElem?_cons_succ] at hv ⊢
      exact ih i hv

/-- The pictures of the stream and of the file of `setsRun`, with the SPS in force: the third one has the first SPS in the file, and the
second in the stream. All other hypotheses of `C108_decodes` hold. -/
theorem C108_claim_violated : ¬ C108_claim := by
  intro hclaim
  obtain ⟨s, hr, hc, ht, hb, hn, hl⟩ := setsRun_result
  have hx : ∀ x ∈ operations setsRun, x.1 = exOracle := by simp [operations, setsRun]
  have g1 : ∀ x ∈ operations setsRun, x.2.PacketOnly := by simp [operations, setsRun, DemuxOp.PacketOnly]
  have g2 : ∀ x ∈ operations setsRun, x.1.preprocess = id := fun x h => by rw [hx x h]; rfl
  have g3 : ∀ x ∈ operations setsRun, x.2.KeyFramed := by
    intro x hx
    simp only [operations, setsRun, List.map_cons, List.map_nil, List.mem_cons, List.not_mem_nil, or_false] at hx
    rcases hx with rfl | rfl | rfl | rfl | rfl <;> simp only [DemuxOp.KeyFramed, Bool.false_eq_true, false_implies]
    · exact fun _ => ⟨exUnits, by decide, by decide, rfl⟩
    · exact fun _ => ⟨setsUnits, by decide, by decide, rfl⟩
    · exact fun _ => ⟨[(false, [0x65, 7])], by decide, by decide, rfl⟩
  have g4 : ∀ b, (framesOf b (operations setsRun)).Pairwise fun f g => f.dts < g.dts := by
    intro b
    by_cases h0 : b = 0
    · subst h0; decide
    · have : framesOf b (operations setsRun) = [] := by
        simp [framesOf, operations, setsRun, DemuxOp.frame, Ne.symm h0]
      rw [this]; exact .nil
  have g5 : InPieces setsRun := by
    intro x hx b d hk
    simp only [setsRun, List.mem_cons, List.not_mem_nil, or_false] at hx
    rcases hx with rfl | rfl | rfl | rfl | rfl <;> simp [DemuxOp.block] at hk ⊢ <;> simp [← hk.2]
  obtain ⟨w, o, h1, rfl, h2, h3⟩ := C94_files ([] : Mem) (Or.inr (Or.inl rfl)) hr g1 g2 g3 g4 g5 hl hc ['o'] [] (fun _ _ _ _ => rfl)
  obtain ⟨t, l, hts, ha, ht⟩ := List.map_eq_cons_iff.1 ht
  simp only [Prod.mk.injEq] at ha
  obtain ⟨a1, a2, a3, a4⟩ := ha
  obtain ⟨n, k1, k2⟩ := h3 0 t 0 (by rw [hts]; rfl) (by rw [hb]; decide)
  have hfile : ((framesOf 0 (operations setsRun)).drop (refusals 0 w.dem.calls)).dropLast.flatMap (inFile t) =
      annexB (exUnits ++ setsUnits ++ [(true, [103, 66, 0, 31, 218, 1, 64, 22, 228]), (true, [104, 206]), (false, [0x65, 7])]) := by
    rw [hn]
    unfold inFile
    rw [a1, a3, a4]
    decide +kernel
  rw [hfile] at k2
  have := hclaim "ts" setsRun w.dem _ ([] : Mem) (Or.inr (Or.inl rfl)) hr g1 g2 g3 g4 g5 hl hc ['o'] w o h1 h2 0 t 0 (by rw [hts]; rfl)
    (by rw [hb]; decide) a1 (by rw [a3]; decide) [exUnits.map (·.2), setsUnits.map (·.2), [[0x65, 7]]] (by
      rw [hn]
      refine .cons ⟨by decide, exUnits, rfl, rfl⟩ (.cons ⟨by decide, setsUnits, rfl, rfl⟩ (.cons ⟨by decide, [(false, [0x65, 7])], rfl, rfl⟩ .nil)))
    n _ _ k1 k2 ⟨_, rfl, rfl⟩ (by decide)
  rw [a3] at this
  have := prepared_sets this 7 2 [103, 66, 0, 31, 99] (by decide)
  revert this
  decide

/-- The remaining hypotheses of `C108_decodes` hold of the run of C94, which fulfils those of C94. -/
example : List.Forall₂ (fun f us => (∀ u ∈ us, Framed u) ∧ HasUnits f.data us) ((framesOf 1 (operations filmRun)).drop 1).dropLast
      [exUnits.map (·.2), [[0x41, 8]], [[0x65, 7]]] ∧
    filmSets = withCodes [[103, 66, 0, 31, 218, 1, 64, 22, 228], [104, 206]] ∧
    (∀ us ∈ [exUnits.map (·.2), [[0x41, 8]], [[0x65, 7]]], ∀ u ∈ us, setType codecH264 u ≠ none →
      u ∈ [[103, 66, 0, 31, 218, 1, 64, 22, 228], [104, 206]]) ∧
    (decoded codecH264 noSets [exUnits.map (·.2), [[0x41, 8]], [[0x65, 7]]].flatten).map (fun x => (x.1, x.2 8)) =
      [([0x65, 0x88], some [104, 206]), ([0x41, 8], some [104, 206]), ([0x65, 7], some [104, 206])] := by
  refine ⟨.cons ⟨by decide, exUnits, rfl, rfl⟩ (.cons ⟨by decide, [(false, [0x41, 8])], rfl, rfl⟩
    (.cons ⟨by decide, [(false, [0x65, 7])], rfl, rfl⟩ .nil)), rfl, by decide, by decide⟩

end Avf
