import Verif.Lemmas.StartCode
/-! # `FindStartCode2`, `SplitNalU`, `RemoveStartCode`: lemmas -/
namespace Avf
open Go

theorem findStartCode2_cases (q : Bytes) :
    (findStartCode2 q = ok none ∧ ∀ j, ¬ StartAt q j) ∨
    ∃ j, findStartCode2 q = ok (some (j - codeLen q j)) ∧ StartAt q j ∧ ∀ k, k < j → ¬ StartAt q k := by
  rcases findStartCode_cases q with ⟨h, hn⟩ | ⟨j, h, hs, hm⟩
  · left; exact ⟨by rw [findStartCode2, h]; rfl, hn⟩
  · right; exact ⟨j, by rw [findStartCode2, h]; rfl, hs, hm⟩

/-- What stands at the position found by `FindStartCode2`. -/
theorem codeLen_spec {q : Bytes} {j : Nat} (h : StartAt q j) :
    (codeLen q j = 3 ∧ (q.drop (j - 3)).take 3 = [0, 0, 1] ∧ (q.take (j - 3)).getLast? ≠ some 0) ∨
    (codeLen q j = 4 ∧ 4 ≤ j ∧ (q.drop (j - 4)).take 4 = [0, 0, 0, 1]) := by
  have hj := h.1
  have hl := h.2.1
  unfold codeLen
  by_cases hc : 3 < j ∧ q[j - 4]? = some 0
  · right
    rw [if_pos hc]
    refine ⟨rfl, by omega, ?_⟩
    have : q.drop (j - 4) = 0 :: q.drop (j - 3) := by
      rw [List.drop_eq_getElem_cons (by omega), (List.getElem?_eq_some_iff.1 hc.2).2, show j - 4 + 1 = j - 3 by omega]
    rw [this, List.take_succ_cons, h.2.2]
  · left
    rw [if_neg hc]
    refine ⟨rfl, h.2.2, ?_⟩
    intro hg
    rw [List.getLast?_eq_getElem?, List.length_take, Nat.min_eq_left (by omega), List.getElem?_take] at hg
    split at hg
    · rename_i hlt
      exact hc ⟨by omega, by rw [show j - 4 = j - 3 - 1 by omega]; exact hg⟩
    · simp at hg

theorem hasCode_drop {q : Bytes} {j : Nat} (h : StartAt q j) : HasCode (q.drop (j - codeLen q j)) := by
  rcases codeLen_spec h with ⟨e, h1, _⟩ | ⟨e, _, h1⟩ <;> rw [e]
  · exact .inl h1
  · exact .inr h1

/-- The result of the splitting of `p` into `ss`. -/
structure IsSplit (p : Bytes) (ss : List Bytes) : Prop where
  flatten : ss.flatten = p
  ne : ss ≠ []
  inner : ∀ s ∈ ss, 3 ≤ s.length ∧ ∀ j, ¬ StartAt (s.drop 3) j
  next : ∀ a s t b, ss = a ++ s :: t :: b → HasCode t ∧ (t.take 3 = [0, 0, 1] → (s.drop 3).getLast? ≠ some 0)
  first : HasCode p → ∀ s ∈ ss, HasCode s

theorem take_of_take {p : Bytes} {k n : Nat} (h : k ≤ n) : (p.take n).take k = p.take k := by
  rw [List.take_take, Nat.min_eq_left h]

theorem splitNalU_spec (p : Bytes) (hl : 3 ≤ p.length) : ∃ ss, splitNalU p = ok ss ∧ IsSplit p ss := by
  induction hn : p.length using Nat.strongRecOn generalizing p with
  | ind N ih =>
  subst hn
  rw [splitNalU, dif_pos hl]
  rcases findStartCode2_cases (p.drop 3) with ⟨h, hno⟩ | ⟨j, h, hs, hm⟩
  · rw [h]
    refine ⟨[p], rfl, by simp, by simp, by simpa using ⟨hl, hno⟩, ?_, by simp⟩
    intro a s t b he
    have := congrArg List.length he
    simp at this; omega
  · rw [h]
    have hj := hs.1
    have hjl := hs.2.1
    have hcl := codeLen_le (p.drop 3) j hj
    rw [List.length_drop] at hjl
    generalize hk : j - codeLen (p.drop 3) j = n at *
    simp only
    rw [slice_of_le (by omega) (by omega)]
    obtain ⟨ss, hss, hsp⟩ := ih (p.drop (n + 3)).length (by simp; omega) (p.drop (n + 3)) (by simp; omega) rfl
    simp only [ok_bind, hss, List.drop_zero, pure_def]
    have hcode : HasCode (p.drop (n + 3)) := by
      have := hasCode_drop hs
      rwa [hk, List.drop_drop, Nat.add_comm 3 n] at this
    refine ⟨_, rfl, ?_, by simp, ?_, ?_, ?_⟩
    · rw [List.flatten_cons, hsp.flatten, List.take_append_drop]
    · intro s hs'
      rcases List.mem_cons.1 hs' with rfl | hs'
      · refine ⟨by simp; omega, fun k hk' => ?_⟩
        have hkl := hk'.2.1
        simp only [List.length_drop, List.length_take] at hkl
        refine hm k (by omega) ⟨hk'.1, by simp; omega, ?_⟩
        have h3 := hk'.2.2
        have hlt := codeAt_lt h3
        rw [List.drop_take, show n + 3 - 3 = n by omega] at h3
        have : p.drop 3 = (p.drop 3).take n ++ (p.drop 3).drop n := (List.take_append_drop _ _).symm
        rw [this, codeAt_append_left]
        · exact h3
        · simp only [List.length_drop, List.length_take] at hlt ⊢; omega
      · exact hsp.inner s hs'
    · intro a s t b he
      cases a with
      | nil =>
        simp only [List.nil_append, List.cons.injEq] at he
        obtain ⟨rfl, he⟩ := he
        refine ⟨hsp.first hcode t (by rw [he]; simp), fun ht => ?_⟩
        have hp : (p.drop (n + 3)).take 3 = t.take 3 := by
          rw [← hsp.flatten, he, List.flatten_cons, List.take_append_of_le_length]
          exact (hsp.inner t (by rw [he]; simp)).1
        rcases codeLen_spec hs with ⟨e, h1, h2⟩ | ⟨e, h4, h1⟩
        · rw [List.drop_take, show n + 3 - 3 = n by omega]
          rwa [show j - 3 = n by omega] at h2
        · exfalso
          rw [show j - 4 = n by omega, List.drop_drop, Nat.add_comm 3 n] at h1
          rw [ht] at hp
          have := congrArg (List.take 3) h1
          rw [take_of_take (by omega), hp] at this
          exact absurd this (by decide)
      | cons x a =>
        simp only [List.cons_append, List.cons.injEq] at he
        exact hsp.next a s t b he.2
    · intro hp s hs'
      rcases List.mem_cons.1 hs' with rfl | hs'
      · rcases hp with hp | hp
        · left; rw [take_of_take (by omega)]; exact hp
        · right
          rw [take_of_take]
          · exact hp
          · -- the byte behind `00 00 00` is 1, so the next code does not begin there
            have h0 : (p.drop 3)[0]? = some 1 := by
              have : (p.take 4)[3]? = some 1 := by rw [hp]; rfl
              rw [List.getElem?_take] at this
              rw [List.getElem?_drop]; simpa using this
            have : n ≠ 0 := by
              intro h0'
              have hc := hasCode_drop hs
              rw [hk, h0', List.drop_zero] at hc
              rcases hc with hc | hc
              · have := congrArg (fun l => l[0]?) hc
                simp only [List.getElem?_take, h0] at this
                exact absurd this (by decide)
              · have := congrArg (fun l => l[0]?) hc
                simp only [List.getElem?_take, h0] at this
                exact absurd this (by decide)
            omega
      · exact hsp.first hcode s hs'

/-! ## Splitting an Annex B stream -/

theorem length_code (b : Bool) : (code b).length = if b then 4 else 3 := by cases b <;> rfl

theorem annexB_cons (x : Bool × Bytes) (xs : List (Bool × Bytes)) : annexB (x :: xs) = code x.1 ++ x.2 ++ annexB xs := rfl

/-- `NoCode` survives a byte 1 in front. -/
theorem noCode_one_cons {u : Bytes} (h : NoCode u) : NoCode ((1 : Byte) :: u) := by
  intro j hj hc
  cases j with
  | zero => rw [codeAt_iff] at hc; simp at hc
  | succ j =>
    exact h.not_codeAt j ((codeAt_drop (p := (1 : Byte) :: u) (k := 1)).2 (by rwa [Nat.add_comm 1 j]))

theorem findStartCode2_code {u : Bytes} (h : NoCode u) (hl : u.getLast? ≠ some 0) (b : Bool) (v : Bytes) (hv : v ≠ []) :
    findStartCode2 (u ++ (code b ++ v)) = ok (some u.length) := by
  obtain ⟨a, v, rfl⟩ := List.exists_cons_of_ne_nil hv
  rw [findStartCode2, ← List.append_assoc, findStartCode_code h hl]
  simp

theorem findStartCode2_noCode {u : Bytes} (h : NoCode u) : findStartCode2 u = ok none := by
  rw [findStartCode2, findStartCode_noCode h]; rfl

theorem splitNalU_annexB {xs : List (Bool × Bytes)} (hne : xs ≠ []) (h : ∀ x ∈ xs, Framed x.2) :
    splitNalU (annexB xs) = ok (xs.map annexUnit) := by
  induction xs with
  | nil => exact absurd rfl hne
  | cons x xs ih =>
    have hx := h x (by simp)
    -- the first unit behind the three bytes that are skipped
    obtain ⟨w, hw1, hw2, hw3, hw4⟩ : ∃ w, (code x.1 ++ x.2).drop 3 = w ∧ NoCode w ∧ w.getLast? ≠ some 0 ∧
        w.length + 3 = (code x.1 ++ x.2).length := by
      obtain ⟨b, u⟩ := x
      cases b with
      | false => exact ⟨u, by simp [code], hx.noCode, hx.last, by simp [code]⟩
      | true =>
        refine ⟨1 :: u, by simp [code], noCode_one_cons hx.noCode, ?_, by simp [code]⟩
        rw [List.getLast?_cons]
        have := hx.last
        have h2 := hx.ne
        cases hu : u.getLast? with
        | none => simp at hu; exact absurd hu h2
        | some z => rw [hu] at this; simpa using this
    rw [splitNalU, dif_pos (by rw [annexB_cons, List.length_append]; omega)]
    have hd : (annexB (x :: xs)).drop 3 = w ++ annexB xs := by
      rw [annexB_cons, List.drop_append_of_le_length (by omega), hw1]
    rw [hd]
    cases xs with
    | nil =>
      have : w ++ annexB [] = w := by simp [annexB]
      rw [this, findStartCode2_noCode hw2]
      simp [annexB, annexUnit]
    | cons y ys =>
      have hy := h y (by simp)
      rw [annexB_cons y, List.append_assoc, findStartCode2_code hw2 hw3 _ _ (by simp [hy.ne])]
      simp only
      have hlen : w.length + 3 = (annexUnit x).length := hw4
      have hform : annexB (x :: y :: ys) = annexUnit x ++ annexB (y :: ys) := rfl
      rw [slice_of_le (by omega) (by rw [hform, List.length_append]; omega), hlen, hform, List.take_left, List.drop_left,
        ih (by simp) (fun z hz => h z (by simp [hz]))]
      simp

theorem removeStartCode_unit (x : Bool × Bytes) : removeStartCode (annexUnit x) = ok x.2 := by
  obtain ⟨b, u⟩ := x
  cases b <;> simp [removeStartCode, annexUnit, code, idx, sliceFrom]

end Avf
