import Verif.Lemmas.Rd
import Verif.Lemmas.Float
import Verif.Spec.Sps
/-! # Parsing an H.264 sequence parameter set -/
namespace Avf
open Go

theorem ofNat_ne_zero {n : Nat} (h : n < 2 ^ 64) : (BitVec.ofNat 64 n ≠ 0) ↔ n ≠ 0 := by
  rw [Ne, ← BitVec.toNat_inj]
  simp only [BitVec.toNat_ofNat, BitVec.ofNat_eq_ofNat]
  omega

theorem ofBool_ne_zero (b : Bool) : (decide (BitVec.ofNat 64 b.toNat ≠ 0)) = b := by cases b <;> rfl

theorem ofBool_eq_zero (b : Bool) : (decide (BitVec.ofNat 64 b.toNat = 0)) = !b := by cases b <;> rfl

/-- An optional part behind a flag. -/
theorem Parses.opt {α : Type} (f : α → List Bool) (o : Option α) (p : Rd Unit) (h : ∀ a, o = some a → Parses p (f a) ()) :
    Parses (Rd.bit >>= fun b => Rd.when (b ≠ 0) p) (optBits f o) () := by
  cases o with
  | none => exact (Parses.bit false).bind (cs := []) (Parses.when_false rfl)
  | some a => exact (Parses.bit true).bind (cs := f a) (Parses.when_true rfl (h a rfl))

/-- One step of the scaling list: the new `next` of the code is the one of the standard. -/
theorem scaling_step (last d : Int) (hl : 0 ≤ last) (hl' : last ≤ 255) (hd : SEW d) :
    (BitVec.ofNat 64 last.toNat + BitVec.ofNat 64 (if 0 ≤ d then d else 2 ^ 63 + d).toNat + 256) % 256 =
      BitVec.ofNat 64 ((last + d + 256) % 256).toNat := by
  apply BitVec.eq_of_toNat_eq
  unfold SEW at hd
  simp only [BitVec.toNat_umod, BitVec.toNat_add, BitVec.toNat_ofNat, show (256 : BitVec 64).toNat = 256 from rfl]
  split <;> omega

theorem avcScalingLoop_spec (n : Nat) : ∀ (last next : Int) (ds : List Int), 0 ≤ last → last ≤ 255 → 0 ≤ next → next ≤ 255 →
    DeltasLoose n last next ds →
    Parses (avcScalingLoop n (BitVec.ofNat 64 last.toNat) (BitVec.ofNat 64 next.toNat)) (ds.flatMap seBits) () := by
  induction n with
  | zero =>
    intro last next ds _ _ _ _ h
    have : ds = [] := h
    subst this
    exact Parses.pure ()
  | succ n ih =>
    intro last next ds hl hl' hn hn' h
    rw [avcScalingLoop]
    by_cases h0 : next = 0
    · subst h0
      unfold DeltasLoose at h
      rw [if_pos rfl] at h
      subst h
      refine Parses.bind (bs := []) (cs := []) (v := 0) (Parses.pure (0 : BitVec 64)) ?_
      have := ih last 0 [] hl hl' (by omega) (by omega) (by cases n <;> simp [DeltasLoose])
      simpa using this
    · unfold DeltasLoose at h
      rw [if_neg h0] at h
      cases ds with
      | nil => exact absurd h (by simp)
      | cons d ds =>
        obtain ⟨hd, h⟩ := h
        dsimp only at h
        rw [List.flatMap_cons]
        refine Parses.bind (v := BitVec.ofNat 64 ((last + d + 256) % 256).toNat) ?_ ?_
        · rw [if_pos ((ofNat_ne_zero (by omega)).mpr (by omega))]
          have := (Parses.se d hd.1 hd.2).bind_pure
            (fun x => (BitVec.ofNat 64 last.toNat + x + 256) % 256)
          rwa [scaling_step last d hl hl' hd] at this
        · have hm : (0 : Int) ≤ (last + d + 256) % 256 ∧ (last + d + 256) % 256 ≤ 255 := by omega
          by_cases hz : (last + d + 256) % 256 = 0
          · rw [if_pos hz] at h
            rw [if_neg (by rw [hz]; simp)]
            exact ih last _ ds hl hl' hm.1 hm.2 h
          · rw [if_neg hz] at h
            rw [if_pos ((ofNat_ne_zero (by omega)).mpr (by omega))]
            exact ih _ _ ds hm.1 hm.2 hm.1 hm.2 h

theorem avcScalingLists_spec (n : Nat) (hn : n ≤ 8) (ls : List (Option (List Int))) (hl : ls.length = n)
    (h : ∀ i ds, ls[i]? = some (some ds) → DeltasLoose (scalingListSize (8 - n + i)) 8 8 ds) :
    Parses (avcScalingLists n) (ls.flatMap scalingListBits) () := by
  induction n generalizing ls with
  | zero =>
    have : ls = [] := List.eq_nil_of_length_eq_zero hl
    subst this
    exact Parses.pure ()
  | succ n ih =>
    cases ls with
    | nil => simp at hl
    | cons l ls =>
      rw [avcScalingLists, List.flatMap_cons]
      have key := Parses.opt (fun ds : List Int => ds.flatMap seBits) l
        (avcScalingLoop (if 8 - (n + 1) < 6 then 16 else 64) 8 8) (fun ds hds => by
          have := h 0 ds (by simp [hds])
          exact avcScalingLoop_spec _ 8 8 ds (by omega) (by omega) (by omega) (by omega) this)
      have := key.bind (f := fun _ => avcScalingLists n) (ih (by omega) ls (by simpa using hl) (fun i ds hi => by
        have := h (i + 1) ds (by simpa using hi)
        rwa [show 8 - (n + 1) + (i + 1) = 8 - n + i by omega] at this))
      rw [bind_assoc] at this
      exact this

theorem avcHigh_spec (h : H264High) (hok : h.Loose 8) :
    Parses avcHigh h.bits () := by
  obtain ⟨hc, hl, hcd, hs⟩ := hok
  unfold UEW at hc hl hcd
  refine Parses.bind (Parses.ue _ (by omega)) ?_
  refine Parses.bind (v := ()) ?_ ?_
  · by_cases h3 : h.chromaFormatIdc = 3
    · rw [if_pos h3]
      exact Parses.when_true (by rw [h3]; rfl) (Parses.bit _).skip
    · rw [if_neg h3]
      refine Parses.when_false ?_
      rw [decide_eq_false_iff_not]
      intro hx
      have hx := congrArg BitVec.toNat hx
      rw [BitVec.toNat_ofNat, show (3 : BitVec 64).toNat = 3 from rfl] at hx
      omega
  refine Parses.bind (Parses.ue _ (by omega)) ?_
  refine Parses.bind (Parses.ue _ (by omega)) ?_
  refine Parses.bind (Parses.bit _) ?_
  refine Parses.opt _ _ _ fun ls hls => ?_
  obtain ⟨hcnt, hds⟩ := hs ls hls
  exact avcScalingLists_spec 8 (by omega) ls hcnt (fun i ds hi => by simpa using hds i ds hi)

theorem avcPoc_spec (p : H264Poc) (h : p.Loose) : Parses avcPoc p.bits () := by
  unfold avcPoc
  cases p with
  | type0 n =>
    have h : n < 2 ^ 33 - 1 := h
    exact Parses.bind (Parses.ue 0 (by omega)) (Parses.ue n (by omega)).skip
  | type2 =>
    have := Parses.bind (f := fun pocType : BitVec 64 => if pocType = 0 then Rd.ue.skip
      else if pocType = 1 then (Rd.bit >>= fun _ => Rd.se >>= fun _ => Rd.se >>= fun _ => Rd.ue >>= fun n => Rd.times n.toNat Rd.se.skip)
      else pure ()) (cs := []) (w := ()) (Parses.ue 2 (by omega)) (Parses.pure ())
    rwa [List.append_nil] at this
  | reserved n =>
    obtain ⟨h2, hn⟩ := h
    unfold UEW at hn
    have e : ∀ k : Nat, k < 3 → BitVec.ofNat 64 n ≠ BitVec.ofNat 64 k := by
      intro k hk hx
      have := congrArg BitVec.toNat hx
      rw [BitVec.toNat_ofNat, BitVec.toNat_ofNat] at this
      omega
    have := Parses.bind (f := fun pocType : BitVec 64 => if pocType = 0 then Rd.ue.skip
      else if pocType = 1 then (Rd.bit >>= fun _ => Rd.se >>= fun _ => Rd.se >>= fun _ => Rd.ue >>= fun n => Rd.times n.toNat Rd.se.skip)
      else pure ()) (cs := []) (w := ()) (Parses.ue n hn)
      (by
        have e0 : ¬ BitVec.ofNat 64 n = 0 := e 0 (by omega)
        have e1 : ¬ BitVec.ofNat 64 n = 1 := e 1 (by omega)
        rw [if_neg e0, if_neg e1]; exact Parses.pure ())
    rwa [List.append_nil] at this
  | type1 z a b os =>
    obtain ⟨ha, hb, hlen, hos⟩ := h
    unfold SEW at ha hb hos
    unfold UEW at hlen
    refine Parses.bind (Parses.ue 1 (by omega)) ?_
    show Parses (Rd.bit >>= fun _ => Rd.se >>= fun _ => Rd.se >>= fun _ => Rd.ue >>= fun n => Rd.times n.toNat Rd.se.skip) _ _
    refine Parses.bind (Parses.bit z) ?_
    refine Parses.bind (Parses.se a (by omega) (by omega)) ?_
    refine Parses.bind (Parses.se b (by omega) (by omega)) ?_
    refine Parses.bind (Parses.ue os.length (by omega)) ?_
    rw [BitVec.toNat_ofNat, Nat.mod_eq_of_lt (by omega)]
    exact Parses.times _ _ os fun o ho => (Parses.se o (by have := hos o ho; omega) (by have := hos o ho; omega)).skip

/-- The offsets as the code has them. -/
def cropVals (c : H264Crop) : BitVec 64 × BitVec 64 × BitVec 64 × BitVec 64 :=
  (BitVec.ofNat 64 c.left, BitVec.ofNat 64 c.right, BitVec.ofNat 64 c.top, BitVec.ofNat 64 c.bottom)

theorem avcCrop_spec (c : Option H264Crop) (h : ∀ d, c = some d → d.Loose) :
    Parses avcCrop (optBits H264Crop.bits c) (cropVals (c.getD ⟨0, 0, 0, 0⟩)) := by
  unfold avcCrop
  cases c with
  | none => exact Parses.bind (cs := []) (Parses.bit false) (Parses.pure (0, 0, 0, 0))
  | some c =>
    obtain ⟨h1, h2, h3, h4⟩ := h c rfl
    unfold UEW at h1 h2 h3 h4
    refine Parses.bind (bs := [true]) (Parses.bit true) ?_
    show Parses (Rd.ue >>= fun l => Rd.ue >>= fun r => Rd.ue >>= fun t => Rd.ue >>= fun b => Pure.pure (l, r, t, b)) _ _
    refine Parses.bind (Parses.ue _ (by omega)) ?_
    refine Parses.bind (Parses.ue _ (by omega)) ?_
    refine Parses.bind (Parses.ue _ (by omega)) ?_
    exact (Parses.ue c.bottom (by omega)).bind_pure _

/-- The frame rate the code computes is exact: half the ticks per second, rounded down. -/
theorem avcFps_spec (undef : Int) (t n : Nat) (ht : t < 2 ^ 32) (hn : n < 2 ^ 32) (h0 : n ≠ 0) :
    avcFps undef (BitVec.ofNat 64 t) (BitVec.ofNat 64 n) = (t / (2 * n) : Nat) := by
  unfold avcFps
  rw [if_neg ((ofNat_ne_zero (by omega)).mpr h0)]
  simp only [BitVec.toNat_ofNat]
  rw [Nat.mod_eq_of_lt (by omega), Nat.mod_eq_of_lt (by omega)]
  have hnp : (0 : ℚ) < n := by exact_mod_cast Nat.pos_of_ne_zero h0
  -- halving is exact
  have hhalf : f64 (f64 ((t : ℚ) / n) / 2) = f64 ((t : ℚ) / n) / 2 := by
    by_cases hz : (t : ℚ) / n = 0
    · rw [hz, f64_zero]; simp [f64_zero]
    · rw [f64_of_ne hz]
      have hb := sig_bounds hz
      have he : (roundEven ((t : ℚ) / n / ulp ((t : ℚ) / n)) : ℚ) * ulp ((t : ℚ) / n) / 2 =
          (roundEven ((t : ℚ) / n / ulp ((t : ℚ) / n)) : ℚ) * 2 ^ (Int.log 2 |(t : ℚ) / n| - 52 - 1) := by
        unfold ulp
        rw [zpow_sub_one₀ (by norm_num)]
        ring
      rw [he]
      refine f64_exact _ _ ?_
      have hxp : (0 : ℚ) ≤ (t : ℚ) / n := by positivity
      rw [abs_of_nonneg hxp] at hb
      rw [abs_le]
      constructor
      · have : (0 : ℤ) ≤ roundEven ((t : ℚ) / n / ulp ((t : ℚ) / n)) := le_roundEven_of_int_le (by
          push_cast; linarith [hb.1])
        have h2 : (0 : ℤ) ≤ 2 ^ 53 := by norm_num
        omega
      · exact roundEven_le_of_le_int (by push_cast; exact hb.2.le)
  rw [hhalf, Int.floor_eq_iff]
  have hdm := Nat.div_add_mod t (2 * n)
  have hml := Nat.mod_lt t (show 0 < 2 * n by omega)
  set k := t / (2 * n) with hk
  have hkn : 2 * k * n ≤ t := by
    have : 2 * n * k = 2 * k * n := by ring
    omega
  have hkle : 2 * k ≤ t := le_trans (Nat.le_mul_of_pos_right _ (Nat.pos_of_ne_zero h0)) hkn
  constructor
  · -- `2k ≤ t/n`, and `2k` is a float
    have h1 : ((2 * k : ℤ) : ℚ) ≤ (t : ℚ) / n := by
      rw [le_div_iff₀ hnp]
      exact_mod_cast hkn
    have h2 := f64_mono h1
    rw [f64_int _ (by rw [abs_of_nonneg (by omega)]; omega)] at h2
    push_cast at h2 ⊢
    linarith
  · -- `t/n ≤ 2(k+1) - 1/n`, far enough from `2(k+1)`
    have hlt : t + 1 ≤ 2 * (k + 1) * n := by
      have : 2 * (k + 1) * n = 2 * n * k + 2 * n := by ring
      omega
    have h1 : ((t : ℚ) + 1) ≤ 2 * (k + 1) * n := by exact_mod_cast hlt
    have herr := f64_err ((t : ℚ) / n)
    have hxn : (0 : ℚ) ≤ (t : ℚ) / n := by positivity
    rw [abs_of_nonneg hxn] at herr
    have h3 := (abs_le.mp herr).2
    have h4 : f64 ((t : ℚ) / n) < 2 * (k + 1) := by
      have h5 : f64 ((t : ℚ) / n) ≤ (t : ℚ) / n * (1 + 1 / 2 ^ 53) := by
        rw [mul_add, mul_one]
        have : (t : ℚ) / n * (1 / 2 ^ 53) = (t : ℚ) / n / 2 ^ 53 := by ring
        linarith
      refine lt_of_le_of_lt h5 ?_
      rw [div_mul_eq_mul_div, div_lt_iff₀ hnp]
      have ht' : (t : ℚ) < 2 ^ 32 := by exact_mod_cast ht
      have : (t : ℚ) * (1 + 1 / 2 ^ 53) < t + 1 := by nlinarith
      linarith
    push_cast
    linarith

/-- The frame rate in the result. -/
def fpsOf (undef : Int) : Option H264Timing → Int
  | none => 0
  | some t => if t.numUnitsInTick = 0 then undef else ((t.timeScale / (2 * t.numUnitsInTick) : Nat) : Int)

theorem avcTiming_spec (undef : Int) (t : Option H264Timing)
    (h : ∀ d, t = some d → d.numUnitsInTick < 2 ^ 32 ∧ d.timeScale < 2 ^ 32) :
    Parses (avcTiming undef) (optBits H264Timing.bits t) (fpsOf undef t) := by
  unfold avcTiming
  cases t with
  | none => exact Parses.bind (cs := []) (Parses.bit false) (Parses.pure (0 : Int))
  | some t =>
    obtain ⟨h1, h2⟩ := h t rfl
    refine Parses.bind (bs := [true]) (Parses.bit true) ?_
    show Parses (Rd.nbits 32 >>= fun n => Rd.nbits 32 >>= fun s => Rd.bit >>= fun _ => Pure.pure (avcFps undef s n)) _ _
    refine Parses.bind (Parses.nbits 32 _ (by omega) h1) ?_
    refine Parses.bind (Parses.nbits 32 _ (by omega) h2) ?_
    have e : fpsOf undef (some t) = avcFps undef (BitVec.ofNat 64 t.timeScale) (BitVec.ofNat 64 t.numUnitsInTick) := by
      unfold fpsOf
      by_cases h0 : t.numUnitsInTick = 0
      · simp only [h0, if_true]
        unfold avcFps
        rw [if_pos (by rfl)]
      · simp only [h0, if_false]
        rw [avcFps_spec undef _ _ h2 h1 h0]
    rw [e]
    exact (Parses.bit t.fixedFrameRate).bind_pure _

theorem avcAspect_spec (a : Option H264Aspect) (h1 : ∀ n, a = some (.idc n) → n < 255)
    (h2 : ∀ w h, a = some (.extended w h) → w < 2 ^ 16 ∧ h < 2 ^ 16) :
    Parses avcAspect (optBits H264Aspect.bits a) () := by
  refine Parses.opt _ _ _ fun x hx => ?_
  cases x with
  | idc n =>
    have hn := h1 n hx
    show Parses _ (fieldBits 8 n) ()
    rw [← List.append_nil (fieldBits 8 n)]
    refine Parses.bind (Parses.nbits 8 n (by omega) (by omega)) ?_
    refine Parses.when_false ?_
    rw [decide_eq_false_iff_not]
    intro hx
    have hx := congrArg BitVec.toNat hx
    rw [BitVec.toNat_ofNat, show (255 : BitVec 64).toNat = 255 from rfl] at hx
    omega
  | extended w h =>
    obtain ⟨hw, hh⟩ := h2 w h hx
    refine Parses.bind (Parses.nbits 8 255 (by omega) (by omega)) ?_
    refine Parses.when_true rfl ?_
    refine Parses.bind (Parses.nbits 16 w (by omega) hw) ?_
    exact (Parses.nbits 16 h (by omega) hh).skip

theorem avcSignal_spec (s : H264Signal) (h1 : s.format < 8)
    (h2 : ∀ c, s.colour = some c → c.1 < 256 ∧ c.2.1 < 256 ∧ c.2.2 < 256) : Parses avcSignal s.bits () := by
  refine Parses.bind (Parses.nbits 3 _ (by omega) h1) ?_
  refine Parses.bind (Parses.bit _) ?_
  refine Parses.opt _ _ _ fun c hc => ?_
  obtain ⟨a, b, d⟩ := h2 c hc
  refine Parses.bind (Parses.nbits 8 _ (by omega) a) ?_
  refine Parses.bind (Parses.nbits 8 _ (by omega) b) ?_
  exact (Parses.nbits 8 _ (by omega) d).skip

/-- Any `ue(v)` code word can be read with `ReadSE`, the value being ignored. -/
theorem Parses.se_ue (v : Nat) (hv : v < 2 ^ 33 - 1) : ∃ w, Parses Rd.se (ueBits v) w := by
  refine ⟨if BitVec.ofNat 64 v &&& 1 ≠ 0 then (BitVec.ofNat 64 v + 1) / 2 else (-BitVec.ofNat 64 v) / 2, ?_⟩
  intro g rest hg h
  obtain ⟨g', e, h1, h2⟩ := Parses.ue v hv g rest hg h
  refine ⟨g', ?_, h1, h2⟩
  have e : g.readUE = ok (BitVec.ofNat 64 v, g') := e
  show g.readSE = _
  unfold Golomb.readSE
  rw [e, ok_bind]
  dsimp only
  split <;> rfl

theorem avcLocTiming_spec (undef : Int) (c : Option (Nat × Nat)) (t : Option H264Timing)
    (hc : ∀ d, c = some d → UEW d.1 ∧ UEW d.2)
    (ht : ∀ d, t = some d → d.numUnitsInTick < 2 ^ 32 ∧ d.timeScale < 2 ^ 32) :
    Parses (avcLocTiming undef) (optBits (fun c => ueBits c.1 ++ ueBits c.2) c ++ optBits H264Timing.bits t)
      (fpsOf undef t) := by
  have key := Parses.opt (fun c : Nat × Nat => ueBits c.1 ++ ueBits c.2) c
    (Rd.se >>= fun _ => Rd.se >>= fun _ => Pure.pure ()) (fun d hd => by
      obtain ⟨h1, h2⟩ := hc d hd
      unfold UEW at h1 h2
      obtain ⟨w1, p1⟩ := Parses.se_ue d.1 (by omega)
      obtain ⟨w2, p2⟩ := Parses.se_ue d.2 (by omega)
      exact p1.bind p2.skip)
  have := key.bind (f := fun _ => avcTiming undef) (avcTiming_spec undef t ht)
  rw [bind_assoc] at this
  exact this

theorem Parses.opt' {α : Type} (f : α → List Bool) (o : Option α) (p : Rd Unit) (h : ∀ a, o = some a → Parses p (f a) ()) :
    Parses (Rd.bitOrZero >>= fun b => Rd.when (b ≠ 0) p) (optBits f o) () := by
  cases o with
  | none => exact (Parses.bitOrZero false).bind (cs := []) (Parses.when_false rfl)
  | some a => exact (Parses.bitOrZero true).bind (cs := f a) (Parses.when_true rfl (h a rfl))

theorem avcVui_spec (undef : Int) (v : H264Vui) (h : v.Loose) : Parses (avcVui undef) v.bits (fpsOf undef v.timing) := by
  obtain ⟨ha, ha2, hs, hc, ht⟩ := h
  refine Parses.bind (avcAspect_spec _ ha ha2) ?_
  have k1 := Parses.opt flagBits v.overscan Rd.bit.skip (fun b _ => (Parses.bit b).skip)
  have k2 := Parses.opt' H264Signal.bits v.signal avcSignal (fun s h => avcSignal_spec s (hs s h).1 (hs s h).2)
  have k3 := k1.bind (f := fun _ => (Rd.bitOrZero >>= fun b => Rd.when (b ≠ 0) avcSignal) >>= fun _ => avcLocTiming undef)
    (k2.bind (f := fun _ => avcLocTiming undef) (avcLocTiming_spec undef v.chromaLoc v.timing hc ht))
  simp only [bind_assoc] at k3
  exact k3

theorem avcFlagsCropVui_spec (undef : Int) {hi : List Nat} {n : Nat} (s : H264Sps) (h : s.Loose hi n) :
    Parses (avcFlagsCropVui undef)
      (flagBits s.frameMbsOnly ++ ((if s.frameMbsOnly then [] else flagBits s.mbAdaptive) ++ (flagBits s.direct8x8 ++
        (optBits H264Crop.bits s.crop ++ optBits H264Vui.bits s.vui))))
      (BitVec.ofNat 64 s.frameMbsOnly.toNat, cropVals s.cropOf, fpsOf undef s.timing) := by
  refine Parses.bind (Parses.bit _) ?_
  refine Parses.bind (v := ()) ?_ ?_
  · cases s.frameMbsOnly with
    | true => exact Parses.when_false rfl
    | false => exact Parses.when_true rfl (Parses.bit _).skip
  refine Parses.bind (Parses.bit _) ?_
  refine Parses.bind (avcCrop_spec s.crop h.crop) ?_
  unfold H264Sps.timing
  cases hv : s.vui with
  | none =>
    exact (Parses.bit false).bind (bs := [false]) (cs := [])
      (Parses.bind (bs := []) (cs := []) (v := (0 : Int)) (Parses.pure (0 : Int)) (Parses.pure _))
  | some v =>
    refine Parses.bind (bs := [true]) (Parses.bit true) ?_
    exact (avcVui_spec undef v (h.vui v hv)).bind_pure _

theorem avcIsHigh_iff (p : Nat) (hp : p < 256) :
    avcIsHigh (BitVec.ofNat 64 p) = decide (p ∈ [100, 110, 122, 244, 44, 83, 86, 118]) := by
  have : ∀ p : Fin 256, avcIsHigh (BitVec.ofNat 64 p.val) = decide (p.val ∈ [100, 110, 122, 244, 44, 83, 86, 118]) := by
    decide +kernel
  exact this ⟨p, hp⟩

/-- What the code returns for the parameter set `s`. -/
def avcResult (undef : Int) (s : H264Sps) : AvcSps where
  id := BitVec.ofNat 64 s.id
  profileIdc := BitVec.ofNat 64 s.profileIdc
  levelIdc := BitVec.ofNat 64 s.levelIdc
  constraintSetFlag := BitVec.ofNat 64 s.constraintFlags >>> 2
  mbWidth := BitVec.ofNat 64 (s.widthInMbsMinus1 + 1)
  mbHeight := BitVec.ofNat 64 (s.heightInMapUnitsMinus1 + 1)
  cropLeft := BitVec.ofNat 64 s.cropOf.left
  cropRight := BitVec.ofNat 64 s.cropOf.right
  cropTop := BitVec.ofNat 64 s.cropOf.top
  cropBottom := BitVec.ofNat 64 s.cropOf.bottom
  width := 16 * (s.widthInMbsMinus1 + 1 : Nat) - 2 * (s.cropOf.left + s.cropOf.right : Nat)
  height := (if s.frameMbsOnly then 1 else 2) * (16 * (s.heightInMapUnitsMinus1 + 1 : Nat)) -
    2 * (s.cropOf.top + s.cropOf.bottom : Nat)
  fps := fpsOf undef s.timing

theorem toInt_ofNat64 (n : Nat) (hn : n < 2 ^ 33) : (BitVec.ofNat 64 n).toInt = n := by
  rw [BitVec.toInt_eq_toNat_of_lt] <;> rw [BitVec.toNat_ofNat] <;> omega

theorem bmod64 (x : Int) (h : -2 ^ 62 ≤ x) (h' : x < 2 ^ 62) : x.bmod (2 ^ 64) = x :=
  Int.bmod_eq_of_le_mul_two (by push_cast; omega) (by push_cast; omega)

theorem toInt_add64 (a b : BitVec 64) (h : -2 ^ 62 ≤ a.toInt + b.toInt) (h' : a.toInt + b.toInt < 2 ^ 62) :
    (a + b).toInt = a.toInt + b.toInt := by rw [BitVec.toInt_add, bmod64 _ h h']

theorem toInt_sub64 (a b : BitVec 64) (h : -2 ^ 62 ≤ a.toInt - b.toInt) (h' : a.toInt - b.toInt < 2 ^ 62) :
    (a - b).toInt = a.toInt - b.toInt := by rw [BitVec.toInt_sub, bmod64 _ h h']

theorem toInt_mul64 (a b : BitVec 64) (h : -2 ^ 62 ≤ a.toInt * b.toInt) (h' : a.toInt * b.toInt < 2 ^ 62) :
    (a * b).toInt = a.toInt * b.toInt := by rw [BitVec.toInt_mul, bmod64 _ h h']

theorem avc_size (k w l r : Nat) (x : BitVec 64) (hk : k ≤ 2) (hx : x.toInt = k * (w + 1 : Int) * 16) (hw : UEW w)
    (hl : UEW l) (hr : UEW r) :
    (x - BitVec.ofNat 64 l * 2 - BitVec.ofNat 64 r * 2).toInt = k * (16 * ((w + 1 : Nat) : Int)) - 2 * ((l + r : Nat) : Int) := by
  unfold UEW at hw hl hr
  have two : (2 : BitVec 64).toInt = 2 := rfl
  have el : (BitVec.ofNat 64 l * 2).toInt = l * 2 := by
    rw [toInt_mul64] <;> rw [toInt_ofNat64 l (by omega), two] <;> omega
  have er : (BitVec.ofNat 64 r * 2).toInt = r * 2 := by
    rw [toInt_mul64] <;> rw [toInt_ofNat64 r (by omega), two] <;> omega
  have hkw : 0 ≤ (k : Int) * (w + 1 : Int) ∧ (k : Int) * (w + 1 : Int) ≤ 2 ^ 34 := by
    constructor
    · positivity
    · have : k * (w + 1) ≤ 2 * 2 ^ 33 := Nat.mul_le_mul hk (by omega)
      exact_mod_cast this
  have e1 : (x - BitVec.ofNat 64 l * 2).toInt = k * (w + 1 : Int) * 16 - l * 2 := by
    rw [toInt_sub64] <;> rw [hx, el] <;> omega
  rw [toInt_sub64] <;> rw [e1, er]
  · push_cast; ring
  all_goals omega

theorem avc_width (w l r : Nat) (hw : UEW w) (hl : UEW l) (hr : UEW r) :
    ((BitVec.ofNat 64 w + 1) * 16 - BitVec.ofNat 64 l * 2 - BitVec.ofNat 64 r * 2).toInt =
      16 * ((w + 1 : Nat) : Int) - 2 * ((l + r : Nat) : Int) := by
  have hw' := hw
  unfold UEW at hw'
  have e : (BitVec.ofNat 64 w + 1).toInt = w + 1 := by
    rw [toInt_add64] <;> rw [toInt_ofNat64 w (by omega), show (1 : BitVec 64).toInt = 1 from rfl] <;> omega
  rw [avc_size 1 w l r _ (by omega) ?_ hw hl hr]
  · push_cast; ring
  · rw [toInt_mul64] <;> rw [e, show (16 : BitVec 64).toInt = 16 from rfl]
    · push_cast; ring
    all_goals omega

theorem avc_height (f : Bool) (w l r : Nat) (hw : UEW w) (hl : UEW l) (hr : UEW r) :
    ((2 - BitVec.ofNat 64 f.toNat) * (BitVec.ofNat 64 w + 1) * 16 - BitVec.ofNat 64 l * 2 - BitVec.ofNat 64 r * 2).toInt =
      (if f then 1 else 2) * (16 * ((w + 1 : Nat) : Int)) - 2 * ((l + r : Nat) : Int) := by
  have hw' := hw
  unfold UEW at hw'
  have e : (BitVec.ofNat 64 w + 1).toInt = w + 1 := by
    rw [toInt_add64] <;> rw [toInt_ofNat64 w (by omega), show (1 : BitVec 64).toInt = 1 from rfl] <;> omega
  have ef : (2 - BitVec.ofNat 64 f.toNat).toInt = ((if f then 1 else 2 : Nat) : Int) := by cases f <;> rfl
  have e2 : ((2 - BitVec.ofNat 64 f.toNat) * (BitVec.ofNat 64 w + 1)).toInt = ((if f then 1 else 2 : Nat) : Int) * (w + 1) := by
    rw [toInt_mul64] <;> rw [e, ef] <;> cases f <;> simp <;> omega
  rw [avc_size (if f then 1 else 2) w l r _ (by split <;> omega) ?_ hw hl hr]
  · cases f <;> rfl
  · rw [toInt_mul64] <;> rw [e2, show (16 : BitVec 64).toInt = 16 from rfl] <;> cases f <;> simp <;> omega

theorem cropOf_ok {hi : List Nat} {n : Nat} (s : H264Sps) (h : s.Loose hi n) : s.cropOf.Loose := by
  unfold H264Sps.cropOf
  cases hc : s.crop with
  | none => unfold H264Crop.Loose UEW; simp
  | some c => simpa using h.crop c hc

/-- The profiles the code knows to have the high-profile part (/repo/avc/sps.go:57-60). -/
def avcHighs : List Nat := [100, 110, 122, 244, 44, 83, 86, 118]

theorem avcSpsBody_spec (undef : Int) (hdr : Byte) (s : H264Sps) (h : s.Loose avcHighs 8) :
    Parses (avcSpsBody undef) (fieldBits 8 hdr.toNat ++ s.bitsWith avcHighs) (avcResult undef s) := by
  have hid := h.id
  have hfn := h.frameNum
  have hrf := h.refFrames
  have hw := h.width
  have hh := h.height
  obtain ⟨hl, hr, ht, hb⟩ := cropOf_ok s h
  have e1 := avc_width _ _ _ hw hl hr
  have e2 := avc_height s.frameMbsOnly _ _ _ hh ht hb
  unfold UEW at hid hfn hrf hw hh
  refine Parses.bind (Parses.nbits 8 _ (by omega) hdr.isLt) ?_
  refine Parses.bind (Parses.nbits 8 _ (by omega) h.profile) ?_
  refine Parses.bind (Parses.nbits 8 _ (by omega) h.flags) ?_
  refine Parses.bind (Parses.nbits 8 _ (by omega) h.level) ?_
  refine Parses.bind (Parses.ue _ (by omega)) ?_
  refine Parses.bind (v := ()) ?_ ?_
  · rw [avcIsHigh_iff _ h.profile]
    by_cases hm : s.profileIdc ∈ avcHighs
    · rw [if_pos hm]
      exact Parses.when_true (by simpa [avcHighs] using hm) (avcHigh_spec _ (h.high hm))
    · rw [if_neg hm]
      refine Parses.when_false ?_
      rw [decide_eq_false_iff_not]
      exact hm
  refine Parses.bind (Parses.ue _ (by omega)) ?_
  refine Parses.bind (avcPoc_spec _ h.poc) ?_
  refine Parses.bind (Parses.ue _ (by omega)) ?_
  refine Parses.bind (Parses.bit _) ?_
  refine Parses.bind (Parses.ue _ (by omega)) ?_
  refine Parses.bind (Parses.ue _ (by omega)) ?_
  have e3 : ∀ n : Nat, BitVec.ofNat 64 n + 1 = BitVec.ofNat 64 (n + 1) := by
    intro n; apply BitVec.eq_of_toNat_eq; simp
  have key := (avcFlagsCropVui_spec undef s h).bind_pure
    (fun x : BitVec 64 × (BitVec 64 × BitVec 64 × BitVec 64 × BitVec 64) × Int =>
      ({ id := BitVec.ofNat 64 s.id, profileIdc := BitVec.ofNat 64 s.profileIdc, levelIdc := BitVec.ofNat 64 s.levelIdc,
         constraintSetFlag := BitVec.ofNat 64 s.constraintFlags >>> 2
         mbWidth := BitVec.ofNat 64 s.widthInMbsMinus1 + 1, mbHeight := BitVec.ofNat 64 s.heightInMapUnitsMinus1 + 1
         cropLeft := x.2.1.1, cropRight := x.2.1.2.1, cropTop := x.2.1.2.2.1, cropBottom := x.2.1.2.2.2
         width := ((BitVec.ofNat 64 s.widthInMbsMinus1 + 1) * 16 - x.2.1.1 * 2 - x.2.1.2.1 * 2).toInt
         height := ((2 - x.1) * (BitVec.ofNat 64 s.heightInMapUnitsMinus1 + 1) * 16 - x.2.1.2.2.1 * 2 - x.2.1.2.2.2 * 2).toInt
         fps := x.2.2 } : AvcSps))
  simp only [cropVals] at key
  rw [avcResult, ← e1, ← e2, ← e3, ← e3]
  exact key

/-! ## Sets within the ranges of the standard -/

theorem DeltasOk.loose (n : Nat) : ∀ (last next : Int) (ds : List Int), DeltasOk n last next ds → DeltasLoose n last next ds := by
  induction n with
  | zero => intro last next ds h; exact h
  | succ n ih =>
    intro last next ds h
    unfold DeltasOk at h
    unfold DeltasLoose
    by_cases h0 : next = 0
    · rw [if_pos h0] at h ⊢; exact h
    · rw [if_neg h0] at h ⊢
      cases ds with
      | nil => exact h
      | cons d ds =>
        obtain ⟨h1, h2, h3⟩ := h
        exact ⟨by unfold SEW; omega, ih _ _ _ h3⟩

theorem UE.wide {v : Nat} (h : UE v) : UEW v := by unfold UE at h; unfold UEW; omega
theorem SE.wide {v : Int} (h : SE v) : SEW v := by unfold SE at h; unfold SEW; omega

theorem H264High.Ok.loose {h : H264High} (hok : h.Ok) : h.Loose (scalingListCount h.chromaFormatIdc) := by
  obtain ⟨hc, hl, hcd, hs⟩ := hok
  refine ⟨by unfold UEW; omega, hl.wide, hcd.wide, fun ls hls => ?_⟩
  exact ⟨(hs ls hls).1, fun i ds hi => DeltasOk.loose _ _ _ _ ((hs ls hls).2 i ds hi)⟩

theorem H264Poc.Ok.loose {p : H264Poc} (h : p.Ok) : p.Loose := by
  cases p with
  | type0 n => exact UE.wide h
  | type1 z a b os =>
    obtain ⟨h1, h2, h3, h4⟩ := h
    exact ⟨h1.wide, h2.wide, by unfold UEW; omega, fun o ho => (h4 o ho).wide⟩
  | type2 => trivial
  | reserved n => exact h.elim

theorem H264Vui.Ok.loose {v : H264Vui} (h : v.Ok) : v.Loose :=
  ⟨h.1, h.2.1, h.2.2.1, fun c hc => ⟨(h.2.2.2.1 c hc).1.wide, (h.2.2.2.1 c hc).2.wide⟩, h.2.2.2.2⟩

theorem H264Sps.Ok.loose {s : H264Sps} (h : s.Ok) (highs : List Nat) (n : Nat)
    (hn : s.profileIdc ∈ highs → ∀ ls, s.high.scaling = some ls → scalingListCount s.high.chromaFormatIdc = n) : s.Loose highs n where
  profile := h.profile
  flags := h.flags
  level := h.level
  id := h.id.wide
  high := fun hm => by
    obtain ⟨a, b, c, d⟩ := h.high.loose
    exact ⟨a, b, c, fun ls hls => ⟨(d ls hls).1.trans (hn hm ls hls), (d ls hls).2⟩⟩
  frameNum := h.frameNum.wide
  poc := h.poc.loose
  refFrames := h.refFrames.wide
  width := h.width.wide
  height := h.height.wide
  crop := fun c hc => ⟨(h.crop c hc).1.wide, (h.crop c hc).2.1.wide, (h.crop c hc).2.2.1.wide, (h.crop c hc).2.2.2.wide⟩
  vui := fun v hv => (h.vui v hv).loose

end Avf
