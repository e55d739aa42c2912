import Verif.Lemmas.AnnexB
import Verif.Lemmas.Record
import Verif.Spec.AnnexUnits
/-! # `AnnexB2AVCC` on every input: lemmas -/
namespace Avf
open Go

theorem be32_ofNat_any (n : Nat) : be32 (BitVec.ofNat 32 n) = beBytes 4 n := by
  rw [be32_eq, BitVec.toNat_ofNat, show 2 ^ 32 = 256 ^ 4 from rfl, beBytes_mod]

/-- Writing one unit behind `out`, whatever the room: the length has to fit, the unit is cut. -/
theorem writeUnit_cut (out r u : Bytes) {α : Type} (k : Bytes → Go α) :
    ((if out.length ≤ (out ++ r).length then putAt (out ++ r) out.length (be32 (BitVec.ofNat 32 u.length)) else panic) >>= fun dst =>
      copyAt dst (out.length + 4) u >>= k) =
    if r.length < 4 then panic else k (out ++ (avccUnit 4 u).take r.length ++ r.drop (avccUnit 4 u).length) := by
  rw [if_pos (by simp), be32_ofNat_any]
  by_cases h4 : r.length < 4
  · rw [if_pos h4]
    unfold putAt
    rw [if_neg (by simp; omega)]
    rfl
  · rw [if_neg h4, putAt_append _ _ _ (by simp; omega)]
    simp only [ok_bind, beBytes_length]
    rw [show out.length + 4 = (out ++ beBytes 4 u.length).length by simp, copyAt_of_le (by simp)]
    simp only [ok_bind]
    congr 1
    have hov : ∀ (x y z : Bytes), overwrite (x ++ y) x.length z = x ++ z.take y.length ++ y.drop z.length := by
      intro x y z
      unfold overwrite
      rw [List.take_left, List.length_append, Nat.add_sub_cancel_left, ← List.drop_drop, List.drop_left]
    rw [hov, List.drop_drop, length_avccUnit, avccUnit, List.take_append, beBytes_length, List.length_drop,
      List.take_of_length_le (l := beBytes 4 u.length) (by simp; omega)]
    simp only [List.append_assoc]

theorem skipZeros_replicate (k : Nat) (u : Bytes) : skipZeros (List.replicate k 0 ++ u) = skipZeros u := by
  induction k with
  | zero => rfl
  | succ k ih => rw [List.replicate_succ, List.cons_append, skipZeros, if_pos rfl, ih]

theorem skipZeros_split (p : Bytes) : ∃ k, p = List.replicate k 0 ++ skipZeros p := by
  induction p with
  | nil => exact ⟨0, rfl⟩
  | cons a t ih =>
    obtain ⟨k, hk⟩ := ih
    unfold skipZeros
    by_cases h : a = 0
    · rw [if_pos h]; exact ⟨k + 1, by rw [List.replicate_succ, List.cons_append, ← hk, h]⟩
    · rw [if_neg h]; exact ⟨0, rfl⟩

theorem head?_append_ne {u v : Bytes} (hu : u ≠ []) (h : u.head? ≠ some 0) : (u ++ v).head? ≠ some 0 := by
  obtain ⟨a, t, rfl⟩ := List.exists_cons_of_ne_nil hu
  exact h

/-- The start code behind a unit that may end in a zero byte before a long start code. -/
theorem findStartCode_unit {u : Bytes} (h : NoCode u) {b : Bool} (hl : b = false → u.getLast? ≠ some 0) (a : Byte) (v : Bytes) :
    findStartCode (u ++ code b ++ a :: v) = ok (some (u.length + (code b).length, (code b).length)) := by
  cases b with
  | false => exact findStartCode_code h (hl rfl) false a v
  | true =>
    have := findStartCode_append (noCode_append_zero h) a v
    rw [if_pos (by simp)] at this
    simpa [code] using this

/-- Behind the end of the destination the next unit panics. -/
theorem annexB2AVCCLoop_beyond {rest : Bytes} {us : List Bytes} (h : UnitsOf rest us) (dst : Bytes) (size : Nat) (hs : dst.length < size) :
    annexB2AVCCLoop dst rest size = if us = [] then ok (size, dst) else panic := by
  cases h with
  | zeros k =>
    rw [annexB2AVCCLoop_zeros (by rw [← List.append_nil (List.replicate k 0), skipZeros_replicate]; rfl)]; rfl
  | last k u hne hh hn =>
    rw [annexB2AVCCLoop_last (p := u) (by rw [skipZeros_replicate, skipZeros_id hh]) hne (findStartCode_none hn), if_neg (by omega)]
    rfl
  | next k u b a t us hne hh hn hl ht =>
    have hup : 0 < u.length := List.length_pos_iff.2 hne
    rw [annexB2AVCCLoop_next (p := u ++ code b ++ a :: t)
      (by rw [skipZeros_replicate, skipZeros_id]; rw [List.append_assoc]; exact head?_append_ne hne hh)
      (findStartCode_unit hn hl a t) (by omega), if_neg (by omega)]
    rfl

/-- What the loop writes behind `out`. -/
theorem annexB2AVCCLoop_units {rest : Bytes} {us : List Bytes} (h : UnitsOf rest us) : ∀ out r : Bytes,
    annexB2AVCCLoop (out ++ r) rest out.length =
      if us ≠ [] ∧ r.length < (avcc us.dropLast).length + 4 then panic
      else ok (out.length + (avcc us).length, out ++ (avcc us).take r.length ++ r.drop (avcc us).length) := by
  induction h with
  | zeros k =>
    intro out r
    rw [annexB2AVCCLoop_zeros (by rw [← List.append_nil (List.replicate k 0), skipZeros_replicate]; rfl)]
    simp [avcc]
  | last k u hne hh hn =>
    intro out r
    rw [annexB2AVCCLoop_last (p := u) (by rw [skipZeros_replicate, skipZeros_id hh]) hne (findStartCode_none hn),
      writeUnit_cut out r u (fun dst => pure (out.length + 4 + u.length, dst))]
    have e : avcc [u] = avccUnit 4 u := by simp [avcc]
    have c : ([u] ≠ [] ∧ r.length < (avcc [u].dropLast).length + 4) ↔ r.length < 4 := by simp [avcc]
    rw [e]
    by_cases h4 : r.length < 4
    · rw [if_pos h4, if_pos (c.2 h4)]
    · rw [if_neg h4, if_neg (fun h => h4 (c.1 h)), pure_def, length_avccUnit, Nat.add_assoc]
  | next k u b a t us hne hh hn hl ht ih =>
    intro out r
    have hup : 0 < u.length := List.length_pos_iff.2 hne
    have hd : (u ++ code b ++ a :: t).drop (u.length + (code b).length) = a :: t := by
      rw [← List.length_append, List.drop_left]
    rw [annexB2AVCCLoop_next (p := u ++ code b ++ a :: t)
      (by rw [skipZeros_replicate, skipZeros_id]; rw [List.append_assoc]; exact head?_append_ne hne hh)
      (findStartCode_unit hn hl a t) (by omega), hd, Nat.add_sub_cancel, List.append_assoc u, List.take_left,
      writeUnit_cut out r u (fun dst => annexB2AVCCLoop dst (a :: t) (out.length + 4 + u.length))]
    have hlu := length_avccUnit 4 u
    have e : avcc (u :: us) = avccUnit 4 u ++ avcc us := avcc_cons u us
    by_cases h4 : r.length < 4
    · rw [if_pos h4, if_pos ⟨by simp, by omega⟩]
    · rw [if_neg h4]
      by_cases hc : r.length < (avccUnit 4 u).length
      · -- the unit is cut
        rw [annexB2AVCCLoop_beyond ht _ _ (by simp only [List.length_append, List.length_take, List.length_drop]; omega)]
        by_cases hus : us = []
        · subst hus
          rw [if_pos rfl, if_neg (by rw [show ([u] : List Bytes).dropLast = [] from rfl, show avcc [] = [] from rfl]; simp; omega)]
          rw [e, show avcc [] = [] from rfl, List.append_nil, hlu, Nat.add_assoc]
        · rw [if_neg hus, if_pos]
          refine ⟨by simp, ?_⟩
          rw [List.dropLast_cons_of_ne_nil hus, avcc_cons, List.length_append]
          exact Nat.lt_of_lt_of_le hc (by omega)
      · rw [List.take_of_length_le (by omega : (avccUnit 4 u).length ≤ r.length),
          show out.length + 4 + u.length = (out ++ avccUnit 4 u).length by rw [List.length_append, hlu, Nat.add_assoc], ih]
        have hc' : (us ≠ [] ∧ (r.drop (avccUnit 4 u).length).length < (avcc us.dropLast).length + 4) ↔
            (u :: us ≠ [] ∧ r.length < (avcc (u :: us).dropLast).length + 4) := by
          by_cases hus : us = []
          · subst hus; simp [avcc]; omega
          · rw [List.dropLast_cons_of_ne_nil hus, avcc_cons, List.length_append, List.length_drop]
            constructor
            · rintro ⟨_, h⟩; exact ⟨by simp, by omega⟩
            · rintro ⟨_, h⟩; exact ⟨hus, by omega⟩
        by_cases hp : us ≠ [] ∧ (r.drop (avccUnit 4 u).length).length < (avcc us.dropLast).length + 4
        · rw [if_pos hp, if_pos (hc'.1 hp)]
        · rw [if_neg hp, if_neg (fun h => hp (hc'.2 h)), e, List.length_append, List.length_append, List.drop_drop,
            List.take_append, List.take_of_length_le (by omega : (avccUnit 4 u).length ≤ r.length), List.length_drop]
          simp only [List.append_assoc, Nat.add_assoc]

theorem startAt_split {p : Bytes} {j : Nat} (hs : StartAt p j) (hm : ∀ k, k < j → ¬ StartAt p k) :
    ∃ a t, p = p.take (j - 3) ++ [0, 0, 1] ++ a :: t ∧ p.drop j = a :: t ∧ NoCode (p.take (j - 3)) := by
  obtain ⟨h3, hl, hc⟩ := hs
  refine ⟨p[j], p.drop (j + 1), ?_, List.drop_eq_getElem_cons hl, ?_⟩
  · rw [← List.drop_eq_getElem_cons hl]
    unfold CodeAt at hc
    have h1 := List.take_append_drop 3 (p.drop (j - 3))
    rw [hc, List.drop_drop, show j - 3 + 3 = j by omega] at h1
    rw [List.append_assoc, h1, List.take_append_drop]
  · intro i hi hci
    rw [List.length_take] at hi
    have hlt := codeAt_lt hci
    rw [List.length_take] at hlt
    have : CodeAt p i := by
      rw [← List.take_append_drop (j - 3) p]
      exact (codeAt_append_left (by rw [List.length_take]; omega)).2 hci
    exact hm (i + 3) (by omega) ⟨by omega, by omega, by simpa using this⟩

/-- Every byte string has units. -/
theorem unitsOf_exists (n : Nat) : ∀ rest : Bytes, rest.length ≤ n → ∃ us, UnitsOf rest us := by
  induction n with
  | zero => intro rest h; rw [List.length_eq_zero_iff.1 (Nat.le_zero.1 h)]; exact ⟨[], UnitsOf.zeros 0⟩
  | succ n ih =>
    intro rest hn
    obtain ⟨k, hk⟩ := skipZeros_split rest
    have hh := skipZeros_head rest
    have hl := length_skipZeros rest
    generalize hp : skipZeros rest = p at *
    by_cases hne : p = []
    · rw [hk, hne, List.append_nil]; exact ⟨[], UnitsOf.zeros k⟩
    · rcases findStartCode_cases p with ⟨_, hno⟩ | ⟨j, hf, hs, hm⟩
      · rw [hk]; exact ⟨_, UnitsOf.last k p hne hh hno⟩
      · obtain ⟨a, t, he, hd, hnc⟩ := startAt_split hs hm
        generalize hv : p.take (j - 3) = v at *
        have hvne : v ≠ [] := by
          rintro rfl
          apply hh; rw [he]; rfl
        have hvh : v.head? ≠ some 0 := by
          obtain ⟨x, w, rfl⟩ := List.exists_cons_of_ne_nil hvne
          rw [he] at hh; exact hh
        obtain ⟨us, hus⟩ := ih (a :: t) (by rw [← hd, List.length_drop]; have := hs.1; have := hs.2.1; omega)
        by_cases hz : v.getLast? = some 0
        · -- one zero byte belongs to the start code
          obtain ⟨w, rfl⟩ : ∃ w, v = w ++ [0] := List.getLast?_eq_some_iff.1 hz
          have hwne : w ≠ [] := by rintro rfl; exact hvh rfl
          have hwh : w.head? ≠ some 0 := by
            obtain ⟨x, w', rfl⟩ := List.exists_cons_of_ne_nil hwne
            exact hvh
          have hwn : NoCode w := by
            intro i hi hc
            have := codeAt_lt hc
            exact hnc i (by simp; omega) ((codeAt_append_left (by omega)).2 hc)
          refine ⟨w :: us, ?_⟩
          have := UnitsOf.next k w true a t us hwne hwh hwn (by simp) hus
          rw [hk, he]
          simpa [code] using this
        · refine ⟨v :: us, ?_⟩
          have := UnitsOf.next k v false a t us hvne hvh hnc (fun _ => hz) hus
          rw [hk, he]
          simpa [code] using this

theorem annexUnits_exists (p : Bytes) : ∃ us, AnnexUnits p us := by
  rcases findStartCode_cases p with ⟨_, hno⟩ | ⟨j, _, hs, hm⟩
  · exact ⟨[], Or.inl ⟨hno, rfl⟩⟩
  · obtain ⟨a, t, he, _, hnc⟩ := startAt_split hs hm
    obtain ⟨us, hus⟩ := unitsOf_exists _ (a :: t) (Nat.le_refl _)
    exact ⟨us, Or.inr ⟨_, a, t, he, hnc, hus⟩⟩

theorem annexB2AVCC_units {p : Bytes} {us : List Bytes} (h : AnnexUnits p us) (dst : Bytes) :
    annexB2AVCC dst p =
      if us ≠ [] ∧ dst.length < (avcc us.dropLast).length + 4 then panic
      else ok ((avcc us).length, (avcc us).take dst.length ++ dst.drop (avcc us).length) := by
  unfold annexB2AVCC
  rcases h with ⟨hno, rfl⟩ | ⟨pre, a, t, rfl, hnc, hu⟩
  · rw [findStartCode_none hno, ok_bind, if_neg (by simp)]
    simp [avcc]
  · rw [findStartCode_append hnc, ok_bind]
    dsimp only
    have hd : (pre ++ [0, 0, 1] ++ a :: t).drop (pre.length + 3) = a :: t := by
      rw [show pre.length + 3 = (pre ++ [0, 0, 1] : Bytes).length by simp, List.drop_left]
    rw [hd]
    have := annexB2AVCCLoop_units hu [] dst
    simpa using this

theorem UnitsOf.inv {rest : Bytes} {us : List Bytes} (h : UnitsOf rest us) :
    skipZeros rest = [] ∧ us = [] ∨
    (skipZeros rest ≠ [] ∧ findStartCode (skipZeros rest) = ok none ∧ us = [skipZeros rest]) ∨
    ∃ e n us', findStartCode (skipZeros rest) = ok (some (e, n)) ∧ us = (skipZeros rest).take (e - n) :: us' ∧
      UnitsOf ((skipZeros rest).drop e) us' := by
  cases h with
  | zeros k => left; exact ⟨by rw [← List.append_nil (List.replicate k 0), skipZeros_replicate]; rfl, rfl⟩
  | last k u hne hh hn =>
    right; left
    rw [skipZeros_replicate, skipZeros_id hh]
    exact ⟨hne, findStartCode_none hn, rfl⟩
  | next k u b a t us hne hh hn hl ht =>
    right; right
    have hz : skipZeros (List.replicate k 0 ++ (u ++ code b ++ a :: t)) = u ++ code b ++ a :: t := by
      rw [skipZeros_replicate, skipZeros_id]; rw [List.append_assoc]; exact head?_append_ne hne hh
    rw [hz]
    refine ⟨_, _, us, findStartCode_unit hn hl a t, ?_, ?_⟩
    · rw [Nat.add_sub_cancel, List.append_assoc, List.take_left]
    · rw [← List.length_append, List.drop_left]; exact ht

theorem UnitsOf.unique (n : Nat) : ∀ {rest : Bytes} {us vs : List Bytes}, rest.length ≤ n → UnitsOf rest us → UnitsOf rest vs → us = vs := by
  induction n with
  | zero =>
    intro rest us vs hn hu hv
    have h0 : skipZeros rest = [] := by rw [List.length_eq_zero_iff.1 (Nat.le_zero.1 hn)]; rfl
    have key : ∀ ws, UnitsOf rest ws → ws = [] := by
      intro ws hw
      rcases hw.inv with ⟨_, e⟩ | ⟨e, _⟩ | ⟨e, m, _, e1, _⟩
      · exact e
      · exact absurd h0 e
      · have := findStartCode_range e1; rw [h0] at this; simp at this
    rw [key us hu, key vs hv]
  | succ n ih =>
    intro rest us vs hn hu hv
    have hl := length_skipZeros rest
    rcases hu.inv with ⟨h0, e⟩ | ⟨h0, h1, e⟩ | ⟨e, m, us', h1, h2, h3⟩ <;>
      rcases hv.inv with ⟨h0', e'⟩ | ⟨h0', h1', e'⟩ | ⟨e', m', vs', h1', h2', h3'⟩
    · rw [e, e']
    · exact absurd h0 h0'
    · have := findStartCode_range h1'; rw [h0] at this; simp at this
    · exact absurd h0' h0
    · rw [e, e']
    · rw [h1] at h1'; simp at h1'
    · have := findStartCode_range h1; rw [h0'] at this; simp at this
    · rw [h1] at h1'; simp at h1'
    · have hr := findStartCode_range h1
      rw [h1] at h1'
      simp only [ok.injEq, Option.some.injEq, Prod.mk.injEq] at h1'
      obtain ⟨rfl, rfl⟩ := h1'
      rw [h2, h2', ih (by rw [List.length_drop]; omega) h3 h3']

theorem annexUnits_unique {p : Bytes} {us vs : List Bytes} (hu : AnnexUnits p us) (hv : AnnexUnits p vs) : us = vs := by
  have key : ∀ (pre : Bytes) (a : Byte) (t : Bytes), p = pre ++ [0, 0, 1] ++ a :: t → NoCode pre →
      ∃ n, findStartCode p = ok (some (pre.length + 3, n)) ∧ p.drop (pre.length + 3) = a :: t := by
    rintro pre a t rfl hnc
    refine ⟨_, findStartCode_append hnc a t, ?_⟩
    rw [show pre.length + 3 = (pre ++ [0, 0, 1] : Bytes).length by simp, List.drop_left]
  rcases hu with ⟨hno, rfl⟩ | ⟨pre, a, t, hp, hnc, hu⟩ <;> rcases hv with ⟨hno', rfl⟩ | ⟨pre', a', t', hp', hnc', hv⟩
  · rfl
  · obtain ⟨n, h, _⟩ := key pre' a' t' hp' hnc'
    rw [findStartCode_none hno] at h; simp at h
  · obtain ⟨n, h, _⟩ := key pre a t hp hnc
    rw [findStartCode_none hno'] at h; simp at h
  · obtain ⟨n, h, hd⟩ := key pre a t hp hnc
    obtain ⟨n', h', hd'⟩ := key pre' a' t' hp' hnc'
    rw [h] at h'
    simp only [ok.injEq, Option.some.injEq, Prod.mk.injEq] at h'
    rw [← h'.1, hd] at hd'
    rw [← hd'] at hv
    exact UnitsOf.unique _ (Nat.le_refl _) hu hv

end Avf
