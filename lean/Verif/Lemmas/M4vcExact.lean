import Verif.Lemmas.M4vc
import Verif.Spec.M4vc
/-! # `M4VCExtraDataToAnnexB` on every input: lemmas -/
namespace Avf
open Go

theorem beNat_two (p q : Byte) : beNat [p, q] = 256 * p.toNat + q.toNat := by
  simp [beNat]

/-- A complete unit is a `unit16`. -/
theorem unit16_of_fields (p q : Byte) (t : Bytes) (h : 256 * p.toNat + q.toNat ≤ t.length) :
    p :: q :: t = unit16 (t.take (256 * p.toNat + q.toNat)) ++ t.drop (256 * p.toNat + q.toNat) := by
  have e := beBytes_beNat [p, q]
  rw [beNat_two] at e
  rw [unit16, List.length_take, Nat.min_eq_left h]
  rw [show ([p, q] : Bytes).length = 2 from rfl] at e
  rw [e, List.append_assoc, List.take_append_drop]; rfl

/-- The length field is missing. -/
theorem m4vcLoop_short {src a rest out z : Bytes} {nb : Byte} {done : Nat} (hnb : nb ≠ 0) (hf : Fits a rest)
    (h : rest.length < 2) : ∃ e, m4vcLoop src (cursor a rest) (cursor out z) nb done = err e := by
  obtain ⟨e, he⟩ := (cursor_readUint16 hf).2 h
  exact ⟨e, by rw [m4vcLoop, dif_neg hnb, he]; rfl⟩

/-- The unit is cut off. -/
theorem m4vcLoop_cut {src a t out z : Bytes} {p q : Byte} {nb : Byte} {done : Nat} (hnb : nb ≠ 0) (hsrc : src = a ++ p :: q :: t)
    (hf : Fits a (p :: q :: t)) (hfw : Fits out z) (h : t.length < 256 * p.toNat + q.toNat) :
    (4 ≤ z.length → m4vcLoop src (cursor a (p :: q :: t)) (cursor out z) nb done = .panic) ∧
    (z.length < 4 → ∃ e, m4vcLoop src (cursor a (p :: q :: t)) (cursor out z) nb done = err e) := by
  have hr := (cursor_readUint16 hf).1 (by simp)
  rw [show (p :: q :: t).take 2 = [p, q] from rfl, show (p :: q :: t).drop 2 = t from rfl, beNat_two] at hr
  have hlt : 256 * p.toNat + q.toNat < 2 ^ 16 := by have := p.isLt; have := q.isLt; omega
  have hw4 := cursor_write hfw startCode4 (by simp [startCode4])
  have hl4 : startCode4.length = 4 := rfl
  constructor
  · intro h4
    rw [m4vcLoop, dif_neg hnb, hr]
    simp only [ok_bind]
    rw [hw4.1 (by omega)]
    simp only [ok_bind]
    have hs : src = (a ++ [p, q]) ++ t := by rw [hsrc]; simp
    rw [ofNat16_toNat hlt, hs, cursor_slice_panic _ _ _ h]
    rfl
  · intro h4
    obtain ⟨e, he⟩ := hw4.2 (by omega)
    rw [m4vcLoop, dif_neg hnb, hr]
    simp only [ok_bind]
    rw [he]
    exact ⟨e, rfl⟩

/-- The outcome of the loop agrees with the outcome of `m4vcUnits`. -/
def LoopIs (x : Go BytesBuf) : Go (Bytes × Bytes) → Prop
  | ok p => ∃ z', x = ok (cursor p.1 z')
  | err _ => ∃ e, x = err e
  | .panic => x = .panic

/-- The units, unless it is the single SPS that comes first. -/
theorem m4vcLoop_units {src : Bytes} (n : Nat) (hn : n < 256) : ∀ (done : Nat), done ≠ 0 ∨ n ≠ 1 → ∀ (a rest out z : Bytes), src = a ++ rest →
    Fits a rest → Fits out z →
    LoopIs (m4vcLoop src (cursor a rest) (cursor out z) (BitVec.ofNat 8 n) done) (m4vcUnits (out.length + z.length) n out rest) := by
  induction n with
  | zero => intro done _ a rest out z _ _ _; exact ⟨z, m4vcLoop_zero _ _ _ _⟩
  | succ n ih =>
    intro done hd a rest out z hsrc hf hfw
    have hnb : (BitVec.ofNat 8 (n + 1) : Byte) ≠ 0 := by
      intro h
      have := congrArg BitVec.toNat h
      simp at this
      omega
    have hno : ∀ l : Bytes, ¬ (2 < l.length ∧ (BitVec.ofNat 8 (n + 1) - 1 : Byte) = 0 ∧ done = 0) := by
      rintro l ⟨_, h1, h2⟩
      rw [ofNat8_pred hn] at h1
      have := congrArg BitVec.toNat h1
      simp at this
      omega
    match rest, hsrc, hf with
    | [], _, hf => exact m4vcLoop_short hnb hf (by simp)
    | [x], _, hf => exact m4vcLoop_short hnb hf (by simp)
    | p :: q :: t, hsrc, hf =>
      unfold m4vcUnits
      dsimp only
      by_cases hc : t.length < 256 * p.toNat + q.toNat
      · have := m4vcLoop_cut (done := done) hnb hsrc hf hfw hc
        by_cases h4 : out.length + z.length < out.length + 4
        · rw [if_pos h4]; exact this.2 (by omega)
        · rw [if_neg h4, if_pos hc]; exact this.1 (by omega)
      · have hlt : 256 * p.toNat + q.toNat < 2 ^ 16 := by have := p.isLt; have := q.isLt; omega
        have hu := unit16_of_fields p q t (by omega)
        have hul : (t.take (256 * p.toNat + q.toNat)).length = 256 * p.toNat + q.toNat := by simp; omega
        have hsrc0 := hsrc
        have hf0 := hf
        rw [hu] at hsrc0 hf0
        have hstep := m4vcLoop_unit (done := done) hnb hsrc0 hf0 (by rw [hul]; exact hlt) hfw
        rw [← hu] at hstep
        rw [if_neg hc]
        have hl4 : ([0, 0, 0, 1] ++ t.take (256 * p.toNat + q.toNat) : Bytes).length = 4 + (256 * p.toNat + q.toNat) := by
          rw [List.length_append, hul]; rfl
        rw [hl4] at hstep
        by_cases h4 : out.length + z.length < out.length + 4
        · rw [if_pos h4]; exact hstep.2 (by omega)
        · rw [if_neg h4]
          by_cases h5 : out.length + z.length < out.length + 4 + (256 * p.toNat + q.toNat)
          · rw [if_pos h5]; exact hstep.2 (by omega)
          · rw [if_neg h5, (hstep.1 (by omega)).1 (hno _), ofNat8_pred hn, hul]
            have := ih (by omega) (done + 1) (Or.inl (by omega)) (a ++ unit16 (t.take (256 * p.toNat + q.toNat)))
              (t.drop (256 * p.toNat + q.toNat)) (out ++ ([0, 0, 0, 1] ++ t.take (256 * p.toNat + q.toNat)))
              (z.drop (4 + (256 * p.toNat + q.toNat))) (by rw [hsrc0, List.append_assoc])
              (by unfold Fits at hf0 ⊢; simp only [List.length_append] at hf0 ⊢; omega)
              (by unfold Fits at hfw ⊢; rw [List.length_append, hl4, List.length_drop]; omega)
            have hroom : (out ++ ([0, 0, 0, 1] ++ t.take (256 * p.toNat + q.toNat))).length +
                (z.drop (4 + (256 * p.toNat + q.toNat))).length = out.length + z.length := by
              rw [List.length_append, hl4, List.length_drop]; omega
            rw [hroom] at this
            rw [List.append_assoc]
            exact this

/-- The single SPS: the count of the PPS may follow. -/
theorem m4vcLoop_single {src a rest out z : Bytes} (hsrc : src = a ++ rest) (hf : Fits a rest) (hfw : Fits out z) :
    match m4vcUnits (out.length + z.length) 1 out rest with
    | ok (out', m :: p :: q :: t) => LoopIs (m4vcLoop src (cursor a rest) (cursor out z) 1 0)
        (m4vcUnits (out.length + z.length) m.toNat out' (p :: q :: t))
    | y => LoopIs (m4vcLoop src (cursor a rest) (cursor out z) 1 0) y := by
  have hnb : (1 : Byte) ≠ 0 := by decide
  match rest, hsrc, hf with
  | [], _, hf => exact m4vcLoop_short hnb hf (by simp)
  | [x], _, hf => exact m4vcLoop_short hnb hf (by simp)
  | p :: q :: t, hsrc, hf =>
    have hun : m4vcUnits (out.length + z.length) 1 out (p :: q :: t) =
        if out.length + z.length < out.length + 4 then err ""
        else if t.length < 256 * p.toNat + q.toNat then .panic
        else if out.length + z.length < out.length + 4 + (256 * p.toNat + q.toNat) then err ""
        else ok (out ++ [0, 0, 0, 1] ++ t.take (256 * p.toNat + q.toNat), t.drop (256 * p.toNat + q.toNat)) := rfl
    by_cases hc : t.length < 256 * p.toNat + q.toNat
    · have := m4vcLoop_cut (done := 0) hnb hsrc hf hfw hc
      by_cases h4 : out.length + z.length < out.length + 4
      · rw [hun, if_pos h4]; exact this.2 (by omega)
      · rw [hun, if_neg h4, if_pos hc]; exact this.1 (by omega)
    · have hlt : 256 * p.toNat + q.toNat < 2 ^ 16 := by have := p.isLt; have := q.isLt; omega
      have hu := unit16_of_fields p q t (by omega)
      have hul : (t.take (256 * p.toNat + q.toNat)).length = 256 * p.toNat + q.toNat := by simp; omega
      have hsrc0 := hsrc
      have hf0 := hf
      rw [hu] at hsrc0 hf0
      have hstep := m4vcLoop_unit (done := 0) hnb hsrc0 hf0 (by rw [hul]; exact hlt) hfw
      rw [← hu] at hstep
      have hl4 : ([0, 0, 0, 1] ++ t.take (256 * p.toNat + q.toNat) : Bytes).length = 4 + (256 * p.toNat + q.toNat) := by
        rw [List.length_append, hul]; rfl
      rw [hl4] at hstep
      by_cases h4 : out.length + z.length < out.length + 4
      · rw [hun, if_pos h4]; exact hstep.2 (by omega)
      · by_cases h5 : out.length + z.length < out.length + 4 + (256 * p.toNat + q.toNat)
        · rw [hun, if_neg h4, if_neg hc, if_pos h5]; exact hstep.2 (by omega)
        · have hfz : Fits (out ++ ([0, 0, 0, 1] ++ t.take (256 * p.toNat + q.toNat))) (z.drop (4 + (256 * p.toNat + q.toNat))) := by
            unfold Fits at hfw ⊢; rw [List.length_append, hl4, List.length_drop]; omega
          have hroom : (out ++ ([0, 0, 0, 1] ++ t.take (256 * p.toNat + q.toNat))).length +
              (z.drop (4 + (256 * p.toNat + q.toNat))).length = out.length + z.length := by
            rw [List.length_append, hl4, List.length_drop]; omega
          have hs1 := hstep.1 (by omega)
          rw [hul] at hs1
          rw [hun, if_neg h4, if_neg hc, if_neg h5, List.append_assoc]
          generalize hd : t.drop (256 * p.toNat + q.toNat) = r at hs1 hsrc0 hf0 ⊢
          generalize t.take (256 * p.toNat + q.toNat) = u at hs1 hsrc0 hf0 hfz hroom ⊢
          generalize z.drop (4 + (256 * p.toNat + q.toNat)) = z' at hs1 hfz hroom
          match r, hs1, hsrc0, hf0 with
          | [], hs1, _, _ => exact ⟨z', by rw [hs1.1 (by simp)]; exact m4vcLoop_zero _ _ _ _⟩
          | [x], hs1, _, _ => exact ⟨z', by rw [hs1.1 (by simp)]; exact m4vcLoop_zero _ _ _ _⟩
          | [x, y], hs1, _, _ => exact ⟨z', by rw [hs1.1 (by simp)]; exact m4vcLoop_zero _ _ _ _⟩
          | m :: x :: y :: r', hs1, hsrc0, hf0 =>
            have hs2 := hs1.2 ⟨by simp, by decide, rfl⟩ m (x :: y :: r') rfl
            have := m4vcLoop_units (src := src) m.toNat m.isLt 1 (Or.inl (by omega)) (a ++ unit16 u ++ [m]) (x :: y :: r')
              (out ++ ([0, 0, 0, 1] ++ u)) z' (by rw [hsrc0]; simp)
              (by unfold Fits at hf0 ⊢; simp only [List.length_append, List.length_cons, List.length_nil] at hf0 ⊢; omega) hfz
            rw [hroom, BitVec.ofNat_toNat, BitVec.setWidth_eq, ← hs2] at this
            exact this

theorem withCodes_length (l : List Bytes) : (withCodes l).length = (l.flatMap unit16).length + 2 * l.length := by
  induction l with
  | nil => rfl
  | cons u l ih => rw [withCodes_cons]; simp [length_unit16] at ih ⊢; omega

theorem unit16_fields (u rest : Bytes) (hu : u.length < 2 ^ 16) :
    ∃ p q, unit16 u ++ rest = p :: q :: (u ++ rest) ∧ 256 * p.toNat + q.toNat = u.length := by
  refine ⟨BitVec.ofNat 8 (u.length / 256 ^ 1), BitVec.ofNat 8 (u.length / 256 ^ 0), by simp [unit16, beBytes], ?_⟩
  simp only [BitVec.toNat_ofNat]
  omega

/-- One complete unit. -/
theorem m4vcUnits_step (room n : Nat) (out u rest : Bytes) (hu : u.length < 2 ^ 16) :
    m4vcUnits room (n + 1) out (unit16 u ++ rest) =
      if room < out.length + 4 + u.length then err "" else m4vcUnits room n (out ++ ([0, 0, 0, 1] ++ u)) rest := by
  obtain ⟨p, q, h, hs⟩ := unit16_fields u rest hu
  rw [h, m4vcUnits]
  rw [hs, List.take_left, List.drop_left, List.append_assoc, if_neg (show ¬ (u ++ rest).length < u.length by simp)]
  by_cases h4 : room < out.length + 4
  · rw [if_pos h4, if_pos (by omega)]
  · rw [if_neg h4]

theorem m4vcUnits_list (room : Nat) (us : List Bytes) (hus : ∀ u ∈ us, u.length < 2 ^ 16) (rest : Bytes) : ∀ (k : Nat) (out : Bytes),
    out.length + (withCodes us).length ≤ room →
    m4vcUnits room (us.length + k) out (us.flatMap unit16 ++ rest) = m4vcUnits room k (out ++ withCodes us) rest := by
  induction us with
  | nil => intro k out _; simp [withCodes]
  | cons u us ih =>
    intro k out h
    rw [withCodes_cons, List.length_append, List.length_append] at h
    simp only [List.length_cons, List.length_nil] at h
    rw [List.flatMap_cons, List.append_assoc, List.length_cons, show us.length + 1 + k = (us.length + k) + 1 by omega,
      m4vcUnits_step _ _ _ _ _ (hus u (by simp)), if_neg (by omega), ih (fun v hv => hus v (by simp [hv])) k _
        (by simp; omega), withCodes_cons, List.append_assoc]

theorem m4vcUnits_panic (room n : Nat) : ∀ out rest : Bytes, m4vcUnits room n out rest = .panic ↔ CutOff (room - out.length) n rest := by
  induction n with
  | zero =>
    intro out rest
    refine ⟨fun h => by simp [m4vcUnits] at h, ?_⟩
    rintro ⟨us, p, q, t, h, _⟩
    omega
  | succ n ih =>
    intro out rest
    have hcut : ∀ (us : List Bytes) (p q : Byte) (t : Bytes), us.flatMap unit16 ++ p :: q :: t = rest →
        ∃ x y r, rest = x :: y :: r := by
      intro us p q t h
      match rest, h with
      | [], h => simp at h
      | [x], h => have := congrArg List.length h; simp at this; omega
      | x :: y :: r, _ => exact ⟨x, y, r, rfl⟩
    match rest, hcut with
    | [], hcut => exact ⟨fun h => by simp [m4vcUnits] at h, fun ⟨us, p, q, t, _, _, h, _⟩ => by obtain ⟨_, _, _, h⟩ := hcut us p q t h.symm; cases h⟩
    | [_], hcut => exact ⟨fun h => by simp [m4vcUnits] at h, fun ⟨us, p, q, t, _, _, h, _⟩ => by obtain ⟨_, _, _, h⟩ := hcut us p q t h.symm; cases h⟩
    | p :: q :: t, _ =>
      by_cases hc : t.length < 256 * p.toNat + q.toNat
      · -- the first unit is cut off
        rw [m4vcUnits]
        by_cases h4 : room < out.length + 4
        · rw [if_pos h4]
          refine ⟨fun h => by simp at h, ?_⟩
          rintro ⟨us, _, _, _, _, _, _, _, h⟩
          omega
        · rw [if_neg h4, if_pos hc]
          refine ⟨fun _ => ⟨[], p, q, t, by simp, by simp, by simp, hc, by simp [withCodes]; omega⟩, fun _ => rfl⟩
      · -- the first unit is complete
        have hlt : 256 * p.toNat + q.toNat < 2 ^ 16 := by have := p.isLt; have := q.isLt; omega
        have hu := unit16_of_fields p q t (by omega)
        have hul : (t.take (256 * p.toNat + q.toNat)).length = 256 * p.toNat + q.toNat := by simp; omega
        have hlen : (p :: q :: t).length = 2 + t.length := by simp; omega
        have key : CutOff (room - out.length) (n + 1) (p :: q :: t) ↔ out.length + 4 + (256 * p.toNat + q.toNat) ≤ room ∧
            CutOff (room - (out.length + (4 + (256 * p.toNat + q.toNat)))) n (t.drop (256 * p.toNat + q.toNat)) := by
          constructor
          · rintro ⟨us, p', q', t', hn, hus, he, ht', hr⟩
            cases us with
            | nil =>
              rw [List.flatMap_nil, List.nil_append] at he
              injection he with h1 he
              injection he with h2 h3
              subst h1 h2 h3
              exact absurd ht' hc
            | cons u us =>
              have hu0 := hus u (by simp)
              rw [List.flatMap_cons, List.append_assoc] at he
              obtain ⟨x, y, hxy, hs⟩ := unit16_fields u (us.flatMap unit16 ++ p' :: q' :: t') hu0
              rw [hxy] at he
              injection he with h1 he
              injection he with h2 h3
              subst h1 h2
              rw [withCodes_cons, List.length_append, List.length_append] at hr
              simp only [List.length_cons, List.length_nil] at hr hn
              rw [hs]
              refine ⟨by omega, us, p', q', t', by omega, fun v hv => hus v (by simp [hv]), ?_, ht', by omega⟩
              rw [h3, List.drop_left]
          · rintro ⟨hr, us, p', q', t', hn, hus, he, ht', hr'⟩
            refine ⟨t.take (256 * p.toNat + q.toNat) :: us, p', q', t', by simp; omega, ?_, ?_, ht', ?_⟩
            · intro v hv
              rcases List.mem_cons.1 hv with rfl | hv
              · rw [hul]; exact hlt
              · exact hus v hv
            · rw [hu, List.flatMap_cons, List.append_assoc, ← he]
            · rw [withCodes_cons, List.length_append, List.length_append, hul]
              simp only [List.length_cons, List.length_nil]
              omega
        rw [key]
        conv in m4vcUnits _ _ _ _ => rw [hu]
        rw [m4vcUnits_step _ _ _ _ _ (by rw [hul]; exact hlt), hul]
        by_cases h5 : room < out.length + 4 + (256 * p.toNat + q.toNat)
        · rw [if_pos h5]
          exact ⟨fun h => by simp at h, fun h => by omega⟩
        · rw [if_neg h5, ih, List.length_append, List.length_append, hul]
          simp only [List.length_cons, List.length_nil]
          exact ⟨fun h => ⟨by omega, h⟩, fun h => h.2⟩

/-- One unit is read exactly when it is complete and there is room. -/
theorem m4vcUnits_one (room : Nat) (rest out r : Bytes) : m4vcUnits room 1 [] rest = ok (out, r) ↔
    ∃ u : Bytes, u.length < 2 ^ 16 ∧ rest = unit16 u ++ r ∧ out = [0, 0, 0, 1] ++ u ∧ 4 + u.length ≤ room := by
  constructor
  · intro h
    match rest, h with
    | [], h => simp [m4vcUnits] at h
    | [_], h => simp [m4vcUnits] at h
    | p :: q :: t, h =>
      have hlt : 256 * p.toNat + q.toNat < 2 ^ 16 := by have := p.isLt; have := q.isLt; omega
      by_cases hc : t.length < 256 * p.toNat + q.toNat
      · rw [m4vcUnits, if_pos hc] at h
        split at h <;> simp at h
      · have hu := unit16_of_fields p q t (by omega)
        have hul : (t.take (256 * p.toNat + q.toNat)).length = 256 * p.toNat + q.toNat := by simp; omega
        rw [hu, m4vcUnits_step _ _ _ _ _ (by rw [hul]; exact hlt), hul] at h
        split at h
        · simp at h
        · rename_i hr
          simp only [m4vcUnits, ok.injEq, Prod.mk.injEq] at h
          exact ⟨_, by rw [hul]; exact hlt, by rw [← h.2]; exact hu, by rw [← h.1, List.nil_append], by rw [hul]; simp at hr; omega⟩
  · rintro ⟨u, hu, rfl, rfl, hr⟩
    rw [show (1 : Nat) = 0 + 1 from rfl, m4vcUnits_step _ _ _ _ _ hu, if_neg (by simp; omega)]
    simp [m4vcUnits]

end Avf
