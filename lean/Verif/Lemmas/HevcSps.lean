import Verif.Lemmas.AvcSps
/-! # Parsing an H.265 sequence parameter set; safety and stability of both parsers -/
namespace Avf
open Go

/-! ## Emulation prevention -/

theorem nal2rbsp_hit (t : Bytes) : nal2rbsp (0 :: 0 :: 3 :: t) = 0 :: 0 :: nal2rbsp t := by
  rw [nal2rbsp]; simp

theorem nal2rbsp_miss (a : Byte) (t : Bytes) (h : (a :: t).take 3 ≠ [0, 0, 3]) : nal2rbsp (a :: t) = a :: nal2rbsp t := by
  rw [nal2rbsp, if_neg h]

theorem nal2rbsp_ne (a : Byte) (t : Bytes) (h : a ≠ 0) : nal2rbsp (a :: t) = a :: nal2rbsp t :=
  nal2rbsp_miss a t (by intro e; simp at e; exact h e.1)

theorem nal2rbsp_ne2 (a b : Byte) (t : Bytes) (h : b ≠ 0) : nal2rbsp (a :: b :: t) = a :: b :: nal2rbsp t := by
  rw [nal2rbsp_miss a _ (by intro e; simp at e; exact h e.2.1), nal2rbsp_ne b t h]

theorem nal2rbsp_ne3 (a b c : Byte) (t : Bytes) (h : c ≠ 0) (h3 : c ≠ 3) :
    nal2rbsp (a :: b :: c :: t) = a :: b :: c :: nal2rbsp t := by
  rw [nal2rbsp_miss a _ (by intro e; simp at e; exact h3 e.2.2), nal2rbsp_ne2 b c t h]

theorem nal2rbsp_escapeFrom (p : Bytes) :
    nal2rbsp (escapeFrom 0 p) = p ∧ nal2rbsp (0 :: escapeFrom 1 p) = 0 :: p ∧
      nal2rbsp (0 :: 0 :: escapeFrom 2 p) = 0 :: 0 :: p := by
  induction p with
  | nil => decide +kernel
  | cons b t ih =>
    obtain ⟨ih0, ih1, ih2⟩ := ih
    have e0 : escapeFrom 0 (b :: t) = b :: escapeFrom (if b = 0 then 1 else 0) t := by
      rw [escapeFrom, if_neg (by omega)]
    have e1 : escapeFrom 1 (b :: t) = b :: escapeFrom (if b = 0 then 2 else 0) t := by
      rw [escapeFrom, if_neg (by omega)]
    refine ⟨?_, ?_, ?_⟩
    · rw [e0]
      by_cases hb : b = 0
      · subst hb; simpa using ih1
      · rw [if_neg hb, nal2rbsp_ne b _ hb, ih0]
    · rw [e1]
      by_cases hb : b = 0
      · subst hb; simpa using ih2
      · rw [if_neg hb, nal2rbsp_ne2 0 b _ hb, ih0]
    · rw [escapeFrom]
      by_cases h3 : b ≤ 3
      · rw [if_pos ⟨rfl, h3⟩, nal2rbsp_hit]
        by_cases hb : b = 0
        · subst hb; simpa using ih1
        · rw [if_neg hb, nal2rbsp_ne b _ hb, ih0]
      · have hb : b ≠ 0 := by rintro rfl; exact h3 (by decide)
        have hb3 : b ≠ 3 := by rintro rfl; exact h3 (by decide)
        rw [if_neg (by tauto), if_neg hb, nal2rbsp_ne3 0 0 b _ hb hb3, ih0]

theorem escapeFrom_append (z : Nat) (p q : Bytes) : ∃ r, escapeFrom z (p ++ q) = escapeFrom z p ++ r := by
  induction p generalizing z with
  | nil => exact ⟨escapeFrom z q, by simp [escapeFrom]⟩
  | cons b t ih =>
    rw [List.cons_append, escapeFrom, escapeFrom]
    split
    · obtain ⟨r, e⟩ := ih (if b = 0 then 1 else 0)
      exact ⟨r, by rw [e]; simp⟩
    · obtain ⟨r, e⟩ := ih (if b = 0 then z + 1 else 0)
      exact ⟨r, by rw [e]; simp⟩

/-! ## Fields -/

theorem fieldBits_append (m n v : Nat) : fieldBits (m + n) v = fieldBits m (v / 2 ^ n) ++ fieldBits n v := by
  induction m with
  | zero => simp [fieldBits]
  | succ m ih =>
    rw [show m + 1 + n = (m + n) + 1 by omega, fieldBits, fieldBits, ih, Nat.testBit_div_two_pow]
    rfl

theorem fieldBits_mod (n v k : Nat) (h : n ≤ k) : fieldBits n (v % 2 ^ k) = fieldBits n v := by
  induction n with
  | zero => rfl
  | succ n ih =>
    rw [fieldBits, fieldBits, ih (by omega), Nat.testBit_mod_two_pow]
    simp [show n < k by omega]

theorem Parses.nbits32' (n v : Nat) (hn : n ≤ 32) : Parses (Rd.nbits32 n) (fieldBits n v) (BitVec.ofNat 32 (v % 2 ^ n)) := by
  have := Parses.nbits32 n (v % 2 ^ n) hn (Nat.mod_lt _ (by positivity))
  rwa [fieldBits_mod n v n (by omega)] at this

/-! ## Sub-layers -/

def layerFlag (b : Bool) : BitVec 64 := BitVec.ofNat 64 b.toNat

theorem hevcLayerFlags_spec (ls : List H265Layer) :
    Parses (hevcLayerFlags ls.length) (ls.flatMap fun l => [l.profile.isSome, l.level.isSome])
      (ls.map fun l => (layerFlag l.profile.isSome, layerFlag l.level.isSome)) := by
  induction ls with
  | nil => exact Parses.pure []
  | cons l ls ih =>
    rw [List.flatMap_cons, List.map_cons]
    refine Parses.bind (bs := [l.profile.isSome]) (Parses.bit _) ?_
    refine Parses.bind (bs := [l.level.isSome]) (Parses.bit _) ?_
    exact ih.bind_pure _

theorem hevcLayers_spec (ls : List H265Layer) (h2 : ∀ l ∈ ls, ∀ v, l.level = some v → v < 256) :
    Parses (hevcLayers (ls.map fun l => (layerFlag l.profile.isSome, layerFlag l.level.isSome)))
      (ls.flatMap fun l => (match l.profile with | some p => fieldBits 88 p | none => []) ++
        (match l.level with | some v => fieldBits 8 v | none => [])) () := by
  induction ls with
  | nil => exact Parses.pure ()
  | cons l ls ih =>
    rw [List.flatMap_cons, List.map_cons, List.append_assoc]
    refine Parses.bind (v := ()) ?_ (Parses.bind (v := ()) ?_ (ih fun x hx => h2 x (by simp [hx])))
    · cases l.profile with
      | none => exact Parses.when_false rfl
      | some p =>
        refine Parses.when_true rfl ?_
        show Parses _ (fieldBits 88 p) ()
        rw [show (88 : Nat) = 32 + (32 + 24) from rfl, fieldBits_append 32, fieldBits_append 32]
        exact (Parses.nbits32' 32 _ (by omega)).bind ((Parses.nbits32' 32 _ (by omega)).bind (Parses.nbits32' 24 _ (by omega)).skip)
    · cases hl : l.level with
      | none => exact Parses.when_false rfl
      | some v => exact Parses.when_true rfl (Parses.nbits 8 v (by omega) (h2 l (by simp) v hl)).skip

/-- An even number of bits, two at a time. -/
theorem skip_pairs (k : Nat) : ∀ l : List Bool, l.length = 2 * k → Parses (Rd.times k (Rd.nbits 2).skip) l () := by
  induction k with
  | zero =>
    intro l hl
    have : l = [] := List.eq_nil_of_length_eq_zero (by omega)
    subst this
    exact Parses.pure ()
  | succ k ih =>
    intro l hl
    match l, hl with
    | a :: b :: l, hl =>
      have e : fieldBits 2 (2 * a.toNat + b.toNat) = [a, b] := by cases a <;> cases b <;> decide
      have hv : 2 * a.toNat + b.toNat < 2 ^ 2 := by cases a <;> cases b <;> decide
      have := (Parses.nbits 2 _ (by omega) hv).skip.bind (f := fun _ => Rd.times k (Rd.nbits 2).skip)
        (ih l (by simp at hl; omega))
      rw [e] at this
      exact this

theorem hevcSubLayers_spec (ls : List H265Layer) (r : List Bool) (hr : ls.length ≠ 0 → r.length = 2 * (8 - ls.length))
    (h2 : ∀ l ∈ ls, ∀ v, l.level = some v → v < 256) :
    Parses (hevcSubLayers ls.length) (h265LayersBits ls r) () := by
  unfold hevcSubLayers h265LayersBits
  split
  · exact Parses.pure ()
  · rename_i hn
    refine Parses.bind (hevcLayerFlags_spec ls) ?_
    exact Parses.bind (v := ()) (skip_pairs _ r (hr hn)) (hevcLayers_spec ls h2)

theorem hevcPtlGeneral_spec (p : H265Ptl) (h1 : p.space < 4) (h2 : p.idc < 32) (h3 : p.compat < 2 ^ 32)
    (h4 : p.constraints < 2 ^ 48) (h5 : p.level < 256) :
    Parses hevcPtlGeneral p.bits
      { space := BitVec.ofNat 64 p.space, tier := BitVec.ofNat 64 p.tier.toNat, idc := BitVec.ofNat 64 p.idc,
        compat := BitVec.ofNat 32 p.compat, constraints := BitVec.ofNat 64 p.constraints,
        level := BitVec.ofNat 64 p.level } := by
  refine Parses.bind (Parses.nbits 2 _ (by omega) (by omega)) ?_
  refine Parses.bind (Parses.bit _) ?_
  refine Parses.bind (Parses.nbits 5 _ (by omega) (by omega)) ?_
  refine Parses.bind (Parses.nbits32 32 _ (by omega) h3) ?_
  refine Parses.bind (Parses.nbits64 48 _ (by omega) h4) ?_
  exact (Parses.nbits 8 _ (by omega) (by omega)).bind_pure _

theorem ue_skip (v : Nat) (h : UEW v) : Parses Rd.ue.skip (ueBits v) () := by
  unfold UEW at h
  exact (Parses.ue v (by omega)).skip

theorem ue_ok (v : Nat) (h : UEW v) : Parses Rd.ue (ueBits v) (BitVec.ofNat 64 v) := by
  unfold UEW at h
  exact Parses.ue v (by omega)

theorem times4 (a b c d : Nat) (ha : UEW a) (hb : UEW b) (hc : UEW c) (hd : UEW d) :
    Parses (Rd.times 4 Rd.ue.skip) (ueBits a ++ (ueBits b ++ (ueBits c ++ ueBits d))) () := by
  have := (ue_skip a ha).bind (f := fun _ => Rd.times 3 Rd.ue.skip) ((ue_skip b hb).bind (f := fun _ => Rd.times 2 Rd.ue.skip)
    ((ue_skip c hc).bind (f := fun _ => Rd.times 1 Rd.ue.skip) ((ue_skip d hd).bind (f := fun _ => Rd.times 0 Rd.ue.skip)
      (Parses.pure ()))))
  rwa [List.append_nil] at this

theorem times3 (a b c : Nat) (ha : UEW a) (hb : UEW b) (hc : UEW c) :
    Parses (Rd.times 3 Rd.ue.skip) (ueBits a ++ (ueBits b ++ ueBits c)) () := by
  have := (ue_skip a ha).bind (f := fun _ => Rd.times 2 Rd.ue.skip) ((ue_skip b hb).bind (f := fun _ => Rd.times 1 Rd.ue.skip)
    ((ue_skip c hc).bind (f := fun _ => Rd.times 0 Rd.ue.skip) (Parses.pure ())))
  rwa [List.append_nil] at this

theorem hevcSpsTail_spec (s : H265Sps) (h : s.Loose) :
    Parses (hevcSpsTail (BitVec.ofNat 64 s.layers.length))
      (optBits (fun w : Nat × Nat × Nat × Nat => ueBits w.1 ++ (ueBits w.2.1 ++ (ueBits w.2.2.1 ++ ueBits w.2.2.2))) s.window ++
      (ueBits s.bitDepthLumaMinus8 ++ (ueBits s.bitDepthChromaMinus8 ++ (ueBits s.log2MaxPocLsbMinus4 ++
      (flagBits s.orderingForAll ++
      (s.ordering.flatMap (fun o => ueBits o.1 ++ (ueBits o.2.1 ++ ueBits o.2.2)) ++
      (ueBits s.blockSizes.1 ++ (ueBits s.blockSizes.2.1 ++ (ueBits s.blockSizes.2.2.1 ++ (ueBits s.blockSizes.2.2.2.1 ++
      (ueBits s.blockSizes.2.2.2.2.1 ++ ueBits s.blockSizes.2.2.2.2.2)))))))))))
      (BitVec.ofNat 64 s.bitDepthChromaMinus8) := by
  obtain ⟨b1, b2, b3, b4, b5, b6⟩ := h.sizes
  have k := Parses.opt (fun w : Nat × Nat × Nat × Nat => ueBits w.1 ++ (ueBits w.2.1 ++ (ueBits w.2.2.1 ++ ueBits w.2.2.2)))
    s.window (Rd.times 4 Rd.ue.skip) (fun w hw => by
      obtain ⟨h1, h2, h3, h4⟩ := h.window w hw
      exact times4 _ _ _ _ h1 h2 h3 h4)
  have hlen : s.layers.length < 2 ^ 64 := by have := h.layers; omega
  have ho : (if BitVec.ofNat 64 s.orderingForAll.toNat ≠ 0 then (BitVec.ofNat 64 s.layers.length).toNat + 1 else 1) =
      s.ordering.length := by
    rw [h.ordering, BitVec.toNat_ofNat, Nat.mod_eq_of_lt hlen]
    cases s.orderingForAll <;> rfl
  have t := Parses.times (Rd.times 3 Rd.ue.skip) (fun o : Nat × Nat × Nat => ueBits o.1 ++ (ueBits o.2.1 ++ ueBits o.2.2))
    s.ordering (fun o hm => by
      obtain ⟨h1, h2, h3⟩ := h.orderingUE o hm
      exact times3 _ _ _ h1 h2 h3)
  rw [← ho] at t
  have six : Parses (Rd.times 6 Rd.ue.skip) _ () := (ue_skip _ b1).bind (f := fun _ => Rd.times 5 Rd.ue.skip)
    ((ue_skip _ b2).bind (f := fun _ => Rd.times 4 Rd.ue.skip) (times4 _ _ _ _ b3 b4 b5 b6))
  have := k.bind (f := fun _ => Rd.ue >>= fun _ => Rd.ue >>= fun chromaDepth => Rd.ue >>= fun _ => Rd.bit >>= fun ordering =>
    Rd.times (if ordering ≠ 0 then (BitVec.ofNat 64 s.layers.length).toNat + 1 else 1) (Rd.times 3 Rd.ue.skip) >>= fun _ =>
    Rd.times 6 Rd.ue.skip >>= fun _ => Pure.pure chromaDepth)
    ((ue_ok _ h.luma).bind ((ue_ok _ h.chromaDepth).bind ((ue_ok _ h.lsb).bind ((Parses.bit s.orderingForAll).bind
      (t.bind (six.bind_pure (fun _ => BitVec.ofNat 64 s.bitDepthChromaMinus8)))))))
  rw [bind_assoc] at this
  exact this

/-- What the code returns for `s`. -/
def hevcResult (s : H265Sps) : HevcSps where
  numTemporalLayers := BitVec.ofNat 64 (s.layers.length + 1)
  temporalIdNested := BitVec.ofNat 64 s.temporalIdNested.toNat
  chromaFormat := BitVec.ofNat 64 s.chromaFormatIdc
  picWidth := BitVec.ofNat 64 s.picWidth
  picHeight := BitVec.ofNat 64 s.picHeight
  bitDepthChromaMinus8 := BitVec.ofNat 64 s.bitDepthChromaMinus8
  generalProfileSpace := BitVec.ofNat 64 s.ptl.space
  generalTierFlag := BitVec.ofNat 64 s.ptl.tier.toNat
  generalProfileIDC := BitVec.ofNat 64 s.ptl.idc
  generalProfileCompatibilityFlags := 0
  generalConstraintIndicatorFlags := 0
  generalLevelIDC := BitVec.ofNat 64 s.ptl.level
  width := s.picWidth
  height := s.picHeight

theorem max_zero (x : BitVec 64) : (if x > 0 then x else 0) = x := by
  split
  · rfl
  · rename_i h
    apply BitVec.eq_of_toNat_eq
    rw [gt_iff_lt, BitVec.lt_def] at h
    have : (0 : BitVec 64).toNat = 0 := rfl
    omega

theorem hevcSpsBody_spec (s : H265Sps) (h : s.Loose) : Parses hevcSpsBody s.bits (hevcResult s) := by
  have hlen := h.layers
  have e3 : BitVec.ofNat 64 s.layers.length + 1 = BitVec.ofNat 64 (s.layers.length + 1) := by
    apply BitVec.eq_of_toNat_eq; simp
  have htoNat : (BitVec.ofNat 64 s.layers.length).toNat = s.layers.length := by
    rw [BitVec.toNat_ofNat, Nat.mod_eq_of_lt (by omega)]
  have hr : hevcResult s = {
      numTemporalLayers := if BitVec.ofNat 64 s.layers.length + 1 > 0 then BitVec.ofNat 64 s.layers.length + 1 else 0
      temporalIdNested := BitVec.ofNat 64 s.temporalIdNested.toNat, chromaFormat := BitVec.ofNat 64 s.chromaFormatIdc
      picWidth := BitVec.ofNat 64 s.picWidth, picHeight := BitVec.ofNat 64 s.picHeight
      bitDepthChromaMinus8 := BitVec.ofNat 64 s.bitDepthChromaMinus8
      generalProfileSpace := BitVec.ofNat 64 s.ptl.space
      generalTierFlag := if BitVec.ofNat 64 s.ptl.tier.toNat > 0 then BitVec.ofNat 64 s.ptl.tier.toNat else 0
      generalLevelIDC := if BitVec.ofNat 64 s.ptl.tier.toNat > 0 then BitVec.ofNat 64 s.ptl.level
        else if BitVec.ofNat 64 s.ptl.level > 0 then BitVec.ofNat 64 s.ptl.level else 0
      generalProfileIDC := if BitVec.ofNat 64 s.ptl.idc > 0 then BitVec.ofNat 64 s.ptl.idc else 0
      generalProfileCompatibilityFlags := 0 &&& BitVec.ofNat 32 s.ptl.compat
      generalConstraintIndicatorFlags := 0 &&& BitVec.ofNat 64 s.ptl.constraints
      width := (BitVec.ofNat 64 s.picWidth).toInt, height := (BitVec.ofNat 64 s.picHeight).toInt } := by
    have hw := h.width
    have hh := h.height
    unfold UEW at hw hh
    rw [max_zero, max_zero, max_zero, max_zero, ite_self, e3, toInt_ofNat64 _ (by omega), toInt_ofNat64 _ (by omega)]
    simp [hevcResult]
  rw [hr]
  refine Parses.bind (Parses.nbits 4 _ (by omega) h.vpsId) ?_
  refine Parses.bind (Parses.nbits 3 _ (by omega) (by omega)) ?_
  refine Parses.bind (Parses.bit _) ?_
  refine Parses.bind (hevcPtlGeneral_spec _ h.space h.idc h.compat h.constraints h.level) ?_
  refine Parses.bind (v := ()) (by rw [htoNat]; exact hevcSubLayers_spec _ _ h.reserved h.layerLevel) ?_
  refine Parses.bind (ue_ok _ h.id) ?_
  refine Parses.bind (ue_ok _ h.chroma) ?_
  refine Parses.bind (v := ()) ?_ ?_
  · have hc := h.chroma
    unfold UEW at hc
    by_cases h3 : s.chromaFormatIdc = 3
    · rw [if_pos h3]
      exact Parses.when_true (by rw [h3]; rfl) (Parses.bit _).skip
    · rw [if_neg h3]
      refine Parses.when_false ?_
      rw [decide_eq_false_iff_not]
      intro hx
      have hx := congrArg BitVec.toNat hx
      rw [BitVec.toNat_ofNat, show (3 : BitVec 64).toNat = 3 from rfl] at hx
      omega
  refine Parses.bind (ue_ok _ h.width) ?_
  refine Parses.bind (ue_ok _ h.height) ?_
  exact (hevcSpsTail_spec s h).bind_pure _

/-- Sets within the ranges of the standard. -/
theorem H265Sps.Ok.loose {s : H265Sps} (h : s.Ok) : s.Loose where
  vpsId := h.vpsId
  layers := h.layers
  reserved := h.reserved
  layerProfile := h.layerProfile
  layerLevel := h.layerLevel
  space := h.space
  idc := h.idc
  compat := h.compat
  constraints := h.constraints
  level := h.level
  id := h.id.wide
  chroma := h.chroma.wide
  width := h.width.wide
  height := h.height.wide
  window := fun w hw => ⟨(h.window w hw).1.wide, (h.window w hw).2.1.wide, (h.window w hw).2.2.1.wide, (h.window w hw).2.2.2.wide⟩
  luma := h.luma.wide
  chromaDepth := h.chromaDepth.wide
  lsb := h.lsb.wide
  ordering := h.ordering
  orderingUE := fun o ho => ⟨(h.orderingUE o ho).1.wide, (h.orderingUE o ho).2.1.wide, (h.orderingUE o ho).2.2.wide⟩
  sizes := ⟨h.sizes.1.wide, h.sizes.2.1.wide, h.sizes.2.2.1.wide, h.sizes.2.2.2.1.wide, h.sizes.2.2.2.2.1.wide, h.sizes.2.2.2.2.2.wide⟩

/-! ## Safety -/

open Safe in
theorem avcScalingLoop_safe (n : Nat) (a b : BitVec 64) : Safe (avcScalingLoop n a b) := by
  induction n generalizing a b with
  | zero => exact pure ()
  | succ n ih => exact bind (ite (bind se fun _ => pure _) (pure _)) fun _ => ih _ _

open Safe in
theorem avcScalingLists_safe (n : Nat) : Safe (avcScalingLists n) := by
  induction n with
  | zero => exact pure ()
  | succ n ih => exact bind bit fun _ => bind (when (avcScalingLoop_safe _ _ _)) fun _ => ih

open Safe in
theorem avcTiming_safe (u : Int) : Safe (avcTiming u) :=
  bind bit fun _ => ite (bind nbits fun _ => bind nbits fun _ => bind bit fun _ => pure _) (pure _)

open Safe in
theorem avcVui_safe (u : Int) : Safe (avcVui u) :=
  bind (bind bit fun _ => when (bind nbits fun _ => when (bind nbits fun _ => bind nbits fun _ => pure ()))) fun _ =>
  bind bit fun _ => bind (when bit.skip) fun _ => bind bitOrZero fun _ =>
  bind (when (bind nbits fun _ => bind bit fun _ => bind bit fun _ => when
    (bind nbits fun _ => bind nbits fun _ => bind nbits fun _ => pure ()))) fun _ =>
  bind bit fun _ => bind (when (bind se fun _ => bind se fun _ => pure ())) fun _ => avcTiming_safe u

open Safe in
theorem avcCrop_safe : Safe avcCrop :=
  bind bit fun _ => ite (bind ue fun _ => bind ue fun _ => bind ue fun _ => bind ue fun _ => pure _) (pure _)

open Safe in
theorem avcFlagsCropVui_safe (u : Int) : Safe (avcFlagsCropVui u) :=
  bind bit fun _ => bind (when bit.skip) fun _ => bind bit fun _ => bind avcCrop_safe fun _ => bind bit fun _ =>
  bind (ite (avcVui_safe u) (pure _)) fun _ => pure _

open Safe in
theorem avcPoc_safe : Safe avcPoc :=
  bind ue fun _ => ite ue.skip (ite (bind bit fun _ => bind se fun _ => bind se fun _ => bind ue fun _ => times se.skip) (pure _))

open Safe in
theorem avcHigh_safe : Safe avcHigh := by
  refine bind ue fun _ => ?_
  refine bind (when bit.skip) fun _ => ?_
  iterate 2 refine bind ue fun _ => ?_
  iterate 2 refine bind bit fun _ => ?_
  exact when (avcScalingLists_safe 8)

open Safe in
theorem avcSpsBody_safe (u : Int) : Safe (avcSpsBody u) := by
  iterate 4 refine bind nbits fun _ => ?_
  refine bind ue fun _ => ?_
  refine bind (when avcHigh_safe) fun _ => ?_
  refine bind ue fun _ => ?_
  refine bind avcPoc_safe fun _ => ?_
  refine bind ue fun _ => ?_
  refine bind bit fun _ => ?_
  iterate 2 refine bind ue fun _ => ?_
  exact bind (avcFlagsCropVui_safe u) fun _ => pure _

open Safe in
theorem hevcLayerFlags_safe (n : Nat) : Safe (hevcLayerFlags n) := by
  induction n with
  | zero => exact pure _
  | succ n ih => exact bind bit fun _ => bind bit fun _ => bind ih fun _ => pure _

open Safe in
theorem hevcLayers_safe (l : List (BitVec 64 × BitVec 64)) : Safe (hevcLayers l) := by
  induction l with
  | nil => exact pure _
  | cons x l ih =>
    exact bind (when (bind nbits32 fun _ => bind nbits32 fun _ => bind nbits32 fun _ => pure _)) fun _ =>
      bind (when nbits.skip) fun _ => ih

open Safe in
theorem hevcPtlGeneral_safe : Safe hevcPtlGeneral := by
  refine bind nbits fun _ => ?_
  refine bind bit fun _ => ?_
  refine bind nbits fun _ => ?_
  refine bind nbits32 fun _ => ?_
  refine bind nbits64 fun _ => ?_
  exact bind nbits fun _ => pure _

open Safe in
theorem hevcSubLayers_safe (n : Nat) : Safe (hevcSubLayers n) :=
  ite (pure _) (bind (hevcLayerFlags_safe _) fun _ => bind (times nbits.skip) fun _ => hevcLayers_safe _)

open Safe in
theorem hevcSpsTail_safe (n : BitVec 64) : Safe (hevcSpsTail n) := by
  refine bind bit fun _ => ?_
  refine bind (when (times ue.skip)) fun _ => ?_
  iterate 3 refine bind ue fun _ => ?_
  refine bind bit fun _ => ?_
  refine bind (times (times ue.skip)) fun _ => ?_
  exact bind (times ue.skip) fun _ => pure _

open Safe in
theorem hevcSpsBody_safe : Safe hevcSpsBody := by
  iterate 2 refine bind nbits fun _ => ?_
  refine bind bit fun _ => ?_
  refine bind hevcPtlGeneral_safe fun _ => ?_
  refine bind (hevcSubLayers_safe _) fun _ => ?_
  iterate 2 refine bind ue fun _ => ?_
  refine bind (when bit.skip) fun _ => ?_
  iterate 2 refine bind ue fun _ => ?_
  exact bind (hevcSpsTail_safe _) fun _ => pure _

/-! ## Stability -/

open Stable in
theorem avcScalingLoop_stable (n : Nat) (a b : BitVec 64) : Stable (avcScalingLoop n a b) := by
  induction n generalizing a b with
  | zero => exact pure ()
  | succ n ih => exact bind (ite (bind se fun _ => pure _) (pure _)) fun _ => ih _ _

open Stable in
theorem avcScalingLists_stable (n : Nat) : Stable (avcScalingLists n) := by
  induction n with
  | zero => exact pure ()
  | succ n ih => exact bind bit fun _ => bind (when (avcScalingLoop_stable _ _ _)) fun _ => ih

open Stable in
theorem avcTiming_stable (u : Int) : Stable (avcTiming u) :=
  bind bit fun _ => ite (bind nbits fun _ => bind nbits fun _ => bind bit fun _ => pure _) (pure _)

open Stable in
theorem avcLocTiming_stable (u : Int) : Stable (avcLocTiming u) :=
  bind bit fun _ => bind (when (bind se fun _ => bind se fun _ => pure ())) fun _ => avcTiming_stable u

theorem avcLocTiming_end (u : Int) (g : Golomb) (e : String) (h : g.readBit = err e) (x : Int × Golomb) :
    avcLocTiming u g ≠ ok x := by
  unfold avcLocTiming
  rw [rd_bind]
  show (g.readBit >>= _) ≠ _
  rw [h, err_bind]
  simp

open Stable in
theorem avcVui_stable (u : Int) : Stable (avcVui u) :=
  bind (bind bit fun _ => when (bind nbits fun _ => when (bind nbits fun _ => bind nbits fun _ => pure ()))) fun _ =>
  bind bit fun _ => bind (when bit.skip) fun _ =>
  bitOrZero_bind (fun _ => bind (when (bind nbits fun _ => bind bit fun _ => bind bit fun _ => when
    (bind nbits fun _ => bind nbits fun _ => bind nbits fun _ => pure ()))) fun _ => avcLocTiming_stable u)
    fun g e h x => avcLocTiming_end u g e h x

open Stable in
theorem avcCrop_stable : Stable avcCrop :=
  bind bit fun _ => ite (bind ue fun _ => bind ue fun _ => bind ue fun _ => bind ue fun _ => pure _) (pure _)

open Stable in
theorem avcFlagsCropVui_stable (u : Int) : Stable (avcFlagsCropVui u) :=
  bind bit fun _ => bind (when bit.skip) fun _ => bind bit fun _ => bind avcCrop_stable fun _ => bind bit fun _ =>
  bind (ite (avcVui_stable u) (pure _)) fun _ => pure _

open Stable in
theorem avcPoc_stable : Stable avcPoc :=
  bind ue fun _ => ite ue.skip (ite (bind bit fun _ => bind se fun _ => bind se fun _ => bind ue fun _ => times se.skip) (pure _))

open Stable in
theorem avcHigh_stable : Stable avcHigh := by
  refine bind ue fun _ => ?_
  refine bind (when bit.skip) fun _ => ?_
  iterate 2 refine bind ue fun _ => ?_
  iterate 2 refine bind bit fun _ => ?_
  exact when (avcScalingLists_stable 8)

open Stable in
theorem avcSpsBody_stable (u : Int) : Stable (avcSpsBody u) := by
  iterate 4 refine bind nbits fun _ => ?_
  refine bind ue fun _ => ?_
  refine bind (when avcHigh_stable) fun _ => ?_
  refine bind ue fun _ => ?_
  refine bind avcPoc_stable fun _ => ?_
  refine bind ue fun _ => ?_
  refine bind bit fun _ => ?_
  iterate 2 refine bind ue fun _ => ?_
  exact bind (avcFlagsCropVui_stable u) fun _ => pure _

end Avf
