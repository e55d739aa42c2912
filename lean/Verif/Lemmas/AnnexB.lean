import Verif.Lemmas.Avcc
/-! # `AnnexB2AVCC`: lemmas -/
namespace Avf
open Go

theorem skipZeros_id {p : Bytes} (h : p.head? ≠ some 0) : skipZeros p = p := by
  cases p with
  | nil => rfl
  | cons a t =>
    unfold skipZeros
    rw [if_neg]
    intro ha; exact h (by simp [ha])

theorem skipZeros_head (p : Bytes) : (skipZeros p).head? ≠ some 0 := by
  induction p with
  | nil => simp [skipZeros]
  | cons a t ih =>
    unfold skipZeros
    split
    · exact ih
    · simpa using ‹¬ a = 0›

theorem skipZeros_drop (p : Bytes) : ∃ k, skipZeros p = p.drop k := by
  induction p with
  | nil => exact ⟨0, rfl⟩
  | cons a t ih =>
    unfold skipZeros
    split
    · obtain ⟨k, hk⟩ := ih; exact ⟨k + 1, by simpa using hk⟩
    · exact ⟨0, rfl⟩

theorem annexB2AVCCLoop_nil (dst : Bytes) (size : Nat) : annexB2AVCCLoop dst [] size = ok (size, dst) := by
  rw [annexB2AVCCLoop, dif_pos (by simp)]

theorem annexB2AVCCLoop_zeros {dst rest : Bytes} {size : Nat} (h : skipZeros rest = []) :
    annexB2AVCCLoop dst rest size = ok (size, dst) := by
  rw [annexB2AVCCLoop]
  split
  · rfl
  · simp only [h, List.length_nil, dite_true]

theorem annexB2AVCCLoop_last {dst rest p : Bytes} {size : Nat} (hp : skipZeros rest = p) (hne : p ≠ [])
    (hf : findStartCode p = ok none) :
    annexB2AVCCLoop dst rest size = (do
      let dst ← (if size ≤ dst.length then putAt dst size (be32 (BitVec.ofNat 32 p.length)) else panic)
      let dst ← copyAt dst (size + 4) p
      return (size + 4 + p.length, dst)) := by
  have hr : rest.length ≠ 0 := by
    have := length_skipZeros rest
    rw [hp] at this
    have := List.length_pos_iff.2 hne
    omega
  have hl : ¬ p.length = 0 := by rw [List.length_eq_zero_iff]; exact hne
  rw [annexB2AVCCLoop, dif_neg hr]
  subst hp
  simp only [hl, dite_false]
  split
  · rw [slice_of_le (by omega) (by omega), List.take_length]; simp
  · rename_i h; rw [hf] at h; simp at h
  · rename_i h; rw [hf] at h; simp at h
  · rename_i h; rw [hf] at h; simp at h

theorem annexB2AVCCLoop_next {dst rest p : Bytes} {size e n : Nat} (hp : skipZeros rest = p)
    (hf : findStartCode p = ok (some (e, n))) (hn : n < e) :
    annexB2AVCCLoop dst rest size = (do
      let dst ← (if size ≤ dst.length then putAt dst size (be32 (BitVec.ofNat 32 (e - n))) else panic)
      let dst ← copyAt dst (size + 4) (p.take (e - n))
      annexB2AVCCLoop dst (p.drop e) (size + 4 + (e - n))) := by
  have hlt := findStartCode_range hf
  have hr : rest.length ≠ 0 := by
    have := length_skipZeros rest
    rw [hp] at this
    omega
  have hl : ¬ p.length = 0 := by omega
  rw [annexB2AVCCLoop, dif_neg hr]
  subst hp
  simp only [hl, dite_false]
  split
  · rename_i h; rw [hf] at h; simp at h
  · rename_i e' n' h
    rw [hf] at h
    simp only [Go.ok.injEq, Option.some.injEq, Prod.mk.injEq] at h
    obtain ⟨rfl, rfl⟩ := h
    simp only [if_neg (show ¬ e - n = 0 by omega)]
    rw [slice_of_le (by omega) (by omega)]; simp
  · rename_i h; rw [hf] at h; simp at h
  · rename_i h; rw [hf] at h; simp at h

theorem be32_ofNat {n : Nat} (h : n < 2 ^ 32) : be32 (BitVec.ofNat 32 n) = beBytes 4 n := by
  rw [be32_eq, ofNat32_toNat h]

/-- Writing one unit behind `out`. -/
theorem writeUnit (out r u : Bytes) (hu : u.length < 2 ^ 32) (hfit : (avccUnit 4 u).length ≤ r.length) {α : Type}
    (k : Bytes → Go α) :
    ((if out.length ≤ (out ++ r).length then putAt (out ++ r) out.length (be32 (BitVec.ofNat 32 u.length)) else panic) >>= fun dst =>
      copyAt dst (out.length + 4) u >>= k) = k (out ++ avccUnit 4 u ++ r.drop (avccUnit 4 u).length) := by
  rw [length_avccUnit] at hfit ⊢
  rw [if_pos (by simp), be32_ofNat hu, putAt_append _ _ _ (by simp; omega)]
  simp only [ok_bind, beBytes_length]
  rw [show out.length + 4 = (out ++ beBytes 4 u.length).length by simp, copyAt_append _ _ _ (by simp; omega)]
  simp only [ok_bind, List.drop_drop]
  simp only [avccUnit, List.append_assoc]

theorem annexB2AVCCLoop_spec (u : Bytes) (xs : List (Bool × Bytes)) (hu : Clean u) (hxs : ∀ x ∈ xs, Clean x.2)
    (hul : u.length < 2 ^ 32) (hxl : ∀ x ∈ xs, x.2.length < 2 ^ 32) (out r : Bytes)
    (hfit : (avcc (u :: xs.map (·.2))).length ≤ r.length) :
    annexB2AVCCLoop (out ++ r) (u ++ annexB xs) out.length =
      ok ((out ++ avcc (u :: xs.map (·.2))).length,
        out ++ avcc (u :: xs.map (·.2)) ++ r.drop (avcc (u :: xs.map (·.2))).length) := by
  induction xs generalizing u out r with
  | nil =>
    have hz : skipZeros (u ++ annexB []) = u := by simpa [annexB] using skipZeros_id hu.head
    have hfit' : (avccUnit 4 u).length ≤ r.length := by simpa [avcc] using hfit
    rw [annexB2AVCCLoop_last hz hu.ne (findStartCode_noCode hu.noCode),
      writeUnit out r u hul hfit' (fun dst => pure (out.length + 4 + u.length, dst))]
    simp [avcc, avccUnit]; omega
  | cons y ys ih =>
    have hy := hxs y (by simp)
    obtain ⟨a, v, hv⟩ := List.exists_cons_of_ne_nil hy.ne
    have hform : u ++ annexB (y :: ys) = u ++ code y.1 ++ a :: (v ++ annexB ys) := by
      rw [annexB_cons, hv]; simp
    have hz : skipZeros (u ++ annexB (y :: ys)) = u ++ annexB (y :: ys) := by
      apply skipZeros_id
      obtain ⟨b, w, rfl⟩ := List.exists_cons_of_ne_nil hu.ne
      exact hu.head
    have hf : findStartCode (u ++ annexB (y :: ys)) = ok (some (u.length + (code y.1).length, (code y.1).length)) := by
      rw [hform]; exact findStartCode_code hu.noCode hu.last _ _ _
    have hup : 0 < u.length := List.length_pos_iff.2 hu.ne
    rw [annexB2AVCCLoop_next hz hf (by omega), Nat.add_sub_cancel, List.take_left]
    rw [List.map_cons, avcc_cons, List.length_append] at hfit
    rw [writeUnit out r u hul (by omega)]
    have hd : (u ++ annexB (y :: ys)).drop (u.length + (code y.1).length) = y.2 ++ annexB ys := by
      rw [← List.drop_drop, List.drop_left, annexB_cons, List.append_assoc, List.drop_left]
    rw [hd, show out.length + 4 + u.length = (out ++ avccUnit 4 u).length by simp [length_avccUnit]; omega,
      ih y.2 hy (fun x hx => hxs x (by simp [hx])) (hxl y (by simp)) (fun x hx => hxl x (by simp [hx])) (out ++ avccUnit 4 u)
        (r.drop (avccUnit 4 u).length) (by rw [List.length_drop]; omega)]
    rw [List.map_cons, avcc_cons u, List.drop_drop, ← List.length_append, List.append_assoc, ← List.append_assoc, List.append_assoc]

theorem annexB2AVCC_spec (pre : Bytes) (hpre : NoCode pre) (xs : List (Bool × Bytes)) (hne : xs ≠ []) (hxs : ∀ x ∈ xs, Clean x.2)
    (hxl : ∀ x ∈ xs, x.2.length < 2 ^ 32) (dst : Bytes) (hfit : (avcc (xs.map (·.2))).length ≤ dst.length) :
    annexB2AVCC dst (pre ++ annexB xs) =
      ok ((avcc (xs.map (·.2))).length, avcc (xs.map (·.2)) ++ dst.drop (avcc (xs.map (·.2))).length) := by
  obtain ⟨x, xs, rfl⟩ := List.exists_cons_of_ne_nil hne
  have hx := hxs x (by simp)
  obtain ⟨a, v, hv⟩ := List.exists_cons_of_ne_nil hx.ne
  have hf : ∃ n, findStartCode (pre ++ annexB (x :: xs)) = ok (some (pre.length + (code x.1).length, n)) := by
    rw [annexB_cons, hv]
    cases x.1 with
    | false =>
      have := findStartCode_append hpre a (v ++ annexB xs)
      exact ⟨_, by simpa [code] using this⟩
    | true =>
      have := findStartCode_append (noCode_append_zero hpre) a (v ++ annexB xs)
      exact ⟨_, by simpa [code] using this⟩
  obtain ⟨n, hf⟩ := hf
  unfold annexB2AVCC
  rw [hf]
  simp only [ok_bind]
  have hd : (pre ++ annexB (x :: xs)).drop (pre.length + (code x.1).length) = x.2 ++ annexB xs := by
    rw [← List.drop_drop, List.drop_left, annexB_cons, List.append_assoc, List.drop_left]
  rw [hd]
  have := annexB2AVCCLoop_spec x.2 xs hx (fun y hy => hxs y (by simp [hy])) (hxl x (by simp)) (fun y hy => hxl y (by simp [hy]))
    [] dst hfit
  simpa using this

/-! ## Any input -/

theorem headers_drop_le (p : Bytes) (k : Nat) : (headers (p.drop k)).length ≤ (headers p).length := by
  induction k generalizing p with
  | zero => simp
  | succ k ih =>
    cases p with
    | nil => simp
    | cons a t =>
      rw [List.drop_succ_cons, headers_cons, List.length_append]
      have := ih t
      omega

theorem length_overwrite' {α : Type} (dst : List α) (off : Nat) (x : List α) (h : off ≤ dst.length) :
    (overwrite dst off x).length = dst.length := by
  unfold overwrite; simp; omega

theorem annexB2AVCCLoop_total (dst rest : Bytes) (size : Nat)
    (h : size + rest.length + 4 + (headers rest).length ≤ dst.length) :
    ∃ n dst', annexB2AVCCLoop dst rest size = ok (n, dst') ∧ n ≤ size + rest.length + 4 + (headers rest).length ∧
      dst'.length = dst.length := by
  induction hn : rest.length using Nat.strongRecOn generalizing rest dst size with
  | ind N ih =>
  subst hn
  obtain ⟨k, hk⟩ := skipZeros_drop rest
  have hkl : (skipZeros rest).length ≤ rest.length := length_skipZeros rest
  have hkh : (headers (skipZeros rest)).length ≤ (headers rest).length := by rw [hk]; exact headers_drop_le _ _
  have hhd := skipZeros_head rest
  generalize hp : skipZeros rest = p at *
  by_cases hne : p = []
  · rw [annexB2AVCCLoop_zeros (by rw [hp, hne])]
    exact ⟨_, _, rfl, by omega, rfl⟩
  rcases findStartCode_cases p with ⟨hf, _⟩ | ⟨j, hf, hs, hm⟩
  · rw [annexB2AVCCLoop_last hp hne hf]
    rw [if_pos (by omega)]
    unfold putAt
    rw [if_pos (by simp [be32]; omega)]
    simp only [ok_bind]
    rw [copyAt_of_le (by rw [length_overwrite' _ _ _ (by omega)]; omega)]
    simp only [ok_bind]
    refine ⟨_, _, rfl, by omega, ?_⟩
    rw [length_overwrite' _ _ _ (by rw [length_overwrite' _ _ _ (by omega)]; omega), length_overwrite' _ _ _ (by omega)]
  · have hj := hs.1
    have hjl := hs.2.1
    have hcl := codeLen_le p j hj
    obtain ⟨b, _, hh⟩ := headers_some hs hm
    have hlt : codeLen p j < j := by
      apply Nat.lt_of_not_le
      intro hle
      have h0 : HasCode p := by
        have := hasCode_drop hs
        rwa [show j - codeLen p j = 0 by omega, List.drop_zero] at this
      apply hhd
      rcases h0 with h0 | h0
      · rw [← List.take_append_drop 3 p, h0]; rfl
      · rw [← List.take_append_drop 4 p, h0]; rfl
    have hh' : (headers p).length = (headers (p.drop j)).length + 1 := by rw [hh]; simp
    rw [annexB2AVCCLoop_next hp hf hlt, if_pos (by omega)]
    unfold putAt
    rw [if_pos (by simp [be32]; omega)]
    simp only [ok_bind]
    rw [copyAt_of_le (by rw [length_overwrite' _ _ _ (by omega)]; omega)]
    simp only [ok_bind]
    have hlen : (overwrite (overwrite dst size (be32 (BitVec.ofNat 32 (j - codeLen p j)))) (size + 4)
        (p.take (j - codeLen p j))).length = dst.length := by
      rw [length_overwrite' _ _ _ (by rw [length_overwrite' _ _ _ (by omega)]; omega), length_overwrite' _ _ _ (by omega)]
    obtain ⟨n, dst', h1, h2, h3⟩ := ih (p.drop j).length (by rw [List.length_drop]; omega)
      (overwrite (overwrite dst size (be32 (BitVec.ofNat 32 (j - codeLen p j)))) (size + 4) (p.take (j - codeLen p j)))
      (p.drop j) (size + 4 + (j - codeLen p j)) (by rw [hlen, List.length_drop]; omega) rfl
    rw [List.length_drop] at h2
    exact ⟨n, dst', h1, by omega, by rw [h3, hlen]⟩

theorem annexB2AVCC_total (dst p : Bytes) (h : p.length + (headers p).length ≤ dst.length) :
    ∃ n dst', annexB2AVCC dst p = ok (n, dst') ∧ n ≤ p.length + (headers p).length ∧ dst'.length = dst.length := by
  unfold annexB2AVCC
  rcases findStartCode_cases p with ⟨hf, _⟩ | ⟨j, hf, hs, hm⟩
  · rw [hf]; exact ⟨0, dst, rfl, by omega, rfl⟩
  · rw [hf]
    have hj := hs.1
    have hjl := hs.2.1
    obtain ⟨b, _, hh⟩ := headers_some hs hm
    have hh' : (headers p).length = (headers (p.drop j)).length + 1 := by rw [hh]; simp
    simp only [ok_bind]
    obtain ⟨n, dst', h1, h2, h3⟩ := annexB2AVCCLoop_total dst (p.drop j) 0 (by rw [List.length_drop]; omega)
    rw [List.length_drop] at h2
    exact ⟨n, dst', h1, by omega, h3⟩

/-! ## Clean units, any destination -/

theorem writeUnit_any (dst u : Bytes) (size : Nat) (b : BitVec 32) {α : Type} (k : Bytes → Go α) :
    ((if size ≤ dst.length then putAt dst size (be32 b) else panic) >>= fun d => copyAt d (size + 4) u >>= k) = panic ∨
    ∃ d, d.length = dst.length ∧
      ((if size ≤ dst.length then putAt dst size (be32 b) else panic) >>= fun d => copyAt d (size + 4) u >>= k) = k d := by
  by_cases h1 : size ≤ dst.length
  · rw [if_pos h1]
    unfold putAt
    by_cases h2 : size + (be32 b).length ≤ dst.length
    · right
      have h2' : size + 4 ≤ dst.length := by simpa [be32] using h2
      rw [if_pos h2, ok_bind, copyAt_of_le (by rw [length_overwrite' _ _ _ h1]; exact h2'), ok_bind]
      exact ⟨_, by rw [length_overwrite' _ _ _ (by rw [length_overwrite' _ _ _ h1]; exact h2'), length_overwrite' _ _ _ h1], rfl⟩
    · left; rw [if_neg h2]; rfl
  · left; rw [if_neg h1]; rfl

theorem annexB2AVCCLoop_any (u : Bytes) (xs : List (Bool × Bytes)) (hu : Clean u) (hxs : ∀ x ∈ xs, Clean x.2) (dst : Bytes) (size : Nat) :
    annexB2AVCCLoop dst (u ++ annexB xs) size = panic ∨
    ∃ d, d.length = dst.length ∧ annexB2AVCCLoop dst (u ++ annexB xs) size = ok (size + (avcc (u :: xs.map (·.2))).length, d) := by
  induction xs generalizing u dst size with
  | nil =>
    have hz : skipZeros (u ++ annexB []) = u := by simpa [annexB] using skipZeros_id hu.head
    rw [annexB2AVCCLoop_last hz hu.ne (findStartCode_noCode hu.noCode)]
    rcases writeUnit_any dst u size (BitVec.ofNat 32 u.length) (fun dst => (pure (size + 4 + u.length, dst) : Go (Nat × Bytes))) with h | ⟨d, hd, h⟩
    · exact Or.inl h
    · refine Or.inr ⟨d, hd, h.trans ?_⟩
      simp [avcc, avccUnit]; omega
  | cons y ys ih =>
    have hy := hxs y (by simp)
    obtain ⟨a, v, hv⟩ := List.exists_cons_of_ne_nil hy.ne
    have hform : u ++ annexB (y :: ys) = u ++ code y.1 ++ a :: (v ++ annexB ys) := by
      rw [annexB_cons, hv]; simp
    have hz : skipZeros (u ++ annexB (y :: ys)) = u ++ annexB (y :: ys) := by
      apply skipZeros_id
      obtain ⟨b, w, rfl⟩ := List.exists_cons_of_ne_nil hu.ne
      exact hu.head
    have hf : findStartCode (u ++ annexB (y :: ys)) = ok (some (u.length + (code y.1).length, (code y.1).length)) := by
      rw [hform]; exact findStartCode_code hu.noCode hu.last _ _ _
    have hup : 0 < u.length := List.length_pos_iff.2 hu.ne
    rw [annexB2AVCCLoop_next hz hf (by omega), Nat.add_sub_cancel, List.take_left]
    have hd : (u ++ annexB (y :: ys)).drop (u.length + (code y.1).length) = y.2 ++ annexB ys := by
      rw [← List.drop_drop, List.drop_left, annexB_cons, List.append_assoc, List.drop_left]
    rw [hd]
    rcases writeUnit_any dst u size (BitVec.ofNat 32 u.length) (fun dst => annexB2AVCCLoop dst (y.2 ++ annexB ys) (size + 4 + u.length)) with h | ⟨d, hd, h⟩
    · exact Or.inl h
    · rcases ih y.2 hy (fun x hx => hxs x (by simp [hx])) d (size + 4 + u.length) with h' | ⟨d', hd', h'⟩
      · exact Or.inl (h.trans h')
      · refine Or.inr ⟨d', hd'.trans hd, h.trans (h'.trans ?_)⟩
        rw [List.map_cons, avcc_cons u, List.length_append, length_avccUnit]
        congr 2; omega

/-- Whatever the size of the destination: a panic, or the number of bytes that the output has. -/
theorem annexB2AVCC_any (pre : Bytes) (hpre : NoCode pre) (xs : List (Bool × Bytes)) (hne : xs ≠ []) (hxs : ∀ x ∈ xs, Clean x.2)
    (dst : Bytes) : annexB2AVCC dst (pre ++ annexB xs) = panic ∨
    ∃ d, d.length = dst.length ∧ annexB2AVCC dst (pre ++ annexB xs) = ok ((avcc (xs.map (·.2))).length, d) := by
  obtain ⟨x, xs, rfl⟩ := List.exists_cons_of_ne_nil hne
  have hx := hxs x (by simp)
  obtain ⟨a, v, hv⟩ := List.exists_cons_of_ne_nil hx.ne
  have hf : ∃ n, findStartCode (pre ++ annexB (x :: xs)) = ok (some (pre.length + (code x.1).length, n)) := by
    rw [annexB_cons, hv]
    cases x.1 with
    | false =>
      have := findStartCode_append hpre a (v ++ annexB xs)
      exact ⟨_, by simpa [code] using this⟩
    | true =>
      have := findStartCode_append (noCode_append_zero hpre) a (v ++ annexB xs)
      exact ⟨_, by simpa [code] using this⟩
  obtain ⟨n, hf⟩ := hf
  unfold annexB2AVCC
  rw [hf]
  simp only [ok_bind]
  have hd : (pre ++ annexB (x :: xs)).drop (pre.length + (code x.1).length) = x.2 ++ annexB xs := by
    rw [← List.drop_drop, List.drop_left, annexB_cons, List.append_assoc, List.drop_left]
  rw [hd]
  have := annexB2AVCCLoop_any x.2 xs hx (fun y hy => hxs y (by simp [hy])) dst 0
  rwa [Nat.zero_add] at this

end Avf
