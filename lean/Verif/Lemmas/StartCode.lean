import Verif.Model.Nal
import Verif.Spec.Nal
/-! # Start code search: lemmas -/
namespace Avf
open Go

theorem codeAt_iff {p : Bytes} {j : Nat} :
    CodeAt p j ↔ p[j]? = some 0 ∧ p[j + 1]? = some 0 ∧ p[j + 2]? = some 1 := by
  unfold CodeAt
  have h0 : p[j]? = (p.drop j)[0]? := by simp
  have h1 : p[j + 1]? = (p.drop j)[1]? := by simp
  have h2 : p[j + 2]? = (p.drop j)[2]? := by simp
  rw [h0, h1, h2]
  generalize p.drop j = q
  match q with
  | [] => simp
  | [_] => simp
  | [_, _] => simp
  | a :: b :: c :: t => simp

theorem codeAt_lt {p : Bytes} {j : Nat} (h : CodeAt p j) : j + 2 < p.length := by
  rw [codeAt_iff] at h
  exact (List.getElem?_eq_some_iff.1 h.2.2).1

theorem scanStart_spec {p : Bytes} {i : Nat} (hi : 2 ≤ i) :
    ∃ k, scanStart p i = ok k ∧ (p.length ≤ k ∨ i < k ∧ CodeAt p (k - 3)) ∧
      ∀ j, i < j → j < k → ¬ CodeAt p (j - 3) := by
  induction i using scanStart.induct p with
  | case1 i h i1 i2 i3 =>
    rw [scanStart, dif_pos h, idx_of_lt h]
    have h1 : i - 1 < p.length := by omega
    have h2 : i - 2 < p.length := by omega
    simp only [ok_bind, idx_of_lt h1, idx_of_lt h2]
    have g0 := List.getElem?_eq_getElem h
    have g1 := List.getElem?_eq_getElem h1
    have g2 := List.getElem?_eq_getElem h2
    generalize p[i] = a at *
    generalize p[i - 1] = b at *
    generalize p[i - 2] = c at *
    split
    · rename_i ha
      obtain ⟨k, hk, hd, hn⟩ := i1 (by omega)
      refine ⟨k, hk, ?_, ?_⟩
      · rcases hd with hd | hd
        · exact .inl hd
        · exact .inr ⟨by omega, hd.2⟩
      · intro j hj hjk hc
        by_cases h3 : i + 3 < j
        · exact hn j h3 hjk hc
        · rw [codeAt_iff] at hc
          have : j = i + 1 ∨ j = i + 2 ∨ j = i + 3 := by omega
          rcases this with rfl | rfl | rfl
          · rw [show i + 1 - 3 + 2 = i by omega, g0] at hc
            simp only [Option.some.injEq] at hc; rw [hc.2.2] at ha; exact absurd ha (by decide)
          · rw [show i + 2 - 3 + 1 = i by omega, g0] at hc
            simp only [Option.some.injEq] at hc; rw [hc.2.1] at ha; exact absurd ha (by decide)
          · rw [show i + 3 - 3 = i by omega, g0] at hc
            simp only [Option.some.injEq] at hc; rw [hc.1] at ha; exact absurd ha (by decide)
    · rename_i ha
      split
      · rename_i hb
        obtain ⟨k, hk, hd, hn⟩ := i2 (by omega)
        refine ⟨k, hk, ?_, ?_⟩
        · rcases hd with hd | hd
          · exact .inl hd
          · exact .inr ⟨by omega, hd.2⟩
        · intro j hj hjk hc
          by_cases h3 : i + 2 < j
          · exact hn j h3 hjk hc
          · rw [codeAt_iff] at hc
            have : j = i + 1 ∨ j = i + 2 := by omega
            rcases this with rfl | rfl
            · rw [show i + 1 - 3 + 1 = i - 1 by omega, g1] at hc
              simp only [Option.some.injEq] at hc; exact hb hc.2.1
            · rw [show i + 2 - 3 = i - 1 by omega, g1] at hc
              simp only [Option.some.injEq] at hc; exact hb hc.1
      · rename_i hb
        split
        · rename_i hca
          obtain ⟨k, hk, hd, hn⟩ := i3 (by omega)
          refine ⟨k, hk, ?_, ?_⟩
          · rcases hd with hd | hd
            · exact .inl hd
            · exact .inr ⟨by omega, hd.2⟩
          · intro j hj hjk hc
            by_cases h3 : i + 1 < j
            · exact hn j h3 hjk hc
            · rw [codeAt_iff] at hc
              have : j = i + 1 := by omega
              subst this
              rw [show i + 1 - 3 + 2 = i by omega, show i + 1 - 3 = i - 2 by omega, g0, g2] at hc
              simp only [Option.some.injEq] at hc
              rw [hc.1, hc.2.2] at hca
              exact hca (by decide)
        · rename_i hca
          refine ⟨i + 1, rfl, .inr ⟨by omega, ?_⟩, fun j h1 h2 => by omega⟩
          rw [codeAt_iff, show i + 1 - 3 = i - 2 by omega, show i - 2 + 1 = i - 1 by omega, show i - 2 + 2 = i by omega,
            g0, g1, g2]
          have hb : b = 0 := by simpa using hb
          have hca : c ||| (a - 1) = 0 := by simpa using hca
          have hc : c = 0 := by
            apply BitVec.eq_of_getLsbD_eq; intro n hn
            have := congrArg (fun v => v.getLsbD n) hca
            simp at this ⊢; exact this.1
          have ha' : a - 1 = 0 := by rw [hc] at hca; simpa using hca
          have ha' : a = 1 := by
            have := congrArg (· + 1) ha'
            simpa [BitVec.sub_add_cancel] using this
          rw [hb, hc, ha']; simp
  | case2 i h =>
    rw [scanStart, dif_neg h]
    exact ⟨i, rfl, .inl (by omega), fun j h1 h2 => by omega⟩

/-- Length of the start code before the header at `j`. -/
def codeLen (p : Bytes) (j : Nat) : Nat := if 3 < j ∧ p[j - 4]? = some 0 then 4 else 3

theorem findStartCode_cases (p : Bytes) :
    (findStartCode p = ok none ∧ ∀ j, ¬ StartAt p j) ∨
    ∃ j, findStartCode p = ok (some (j, codeLen p j)) ∧ StartAt p j ∧ ∀ k, k < j → ¬ StartAt p k := by
  obtain ⟨k, hk, hd, hn⟩ := scanStart_spec (p := p) (i := 2) (by omega)
  by_cases hl : k < p.length
  · right
    have hd : 2 < k ∧ CodeAt p (k - 3) := by rcases hd with hd | hd; omega; exact hd
    refine ⟨k, ?_, ⟨by omega, hl, hd.2⟩, ?_⟩
    · simp only [findStartCode, hk, ok_bind, if_pos hl, codeLen]
      by_cases h3 : k > 3
      · rw [if_pos h3, idx_of_lt (by omega : k - 4 < p.length), List.getElem?_eq_getElem (by omega : k - 4 < p.length)]
        simp only [ok_bind, Option.some.injEq]
        by_cases hz : p[k - 4] = 0
        · rw [if_pos hz, if_pos ⟨h3, hz⟩]; rfl
        · rw [if_neg hz, if_neg (fun h => hz h.2)]; rfl
      · rw [if_neg h3, if_neg (by omega)]; rfl
    · intro j hj hs
      exact hn j (by have := hs.1; omega) hj hs.2.2
  · left
    refine ⟨by simp only [findStartCode, hk, ok_bind, if_neg hl]; rfl, ?_⟩
    intro j hs
    exact hn j (by have := hs.1; omega) (by have := hs.2.1; omega) hs.2.2

theorem findStartCode_some {p : Bytes} {j : Nat} (h : StartAt p j) (hm : ∀ k, k < j → ¬ StartAt p k) :
    findStartCode p = ok (some (j, codeLen p j)) := by
  rcases findStartCode_cases p with ⟨_, h'⟩ | ⟨j', h', hs, hm'⟩
  · exact absurd h (h' j)
  · have : j' = j := by
      rcases Nat.lt_trichotomy j j' with hl | hl | hl
      · exact absurd h (hm' _ hl)
      · exact hl.symm
      · exact absurd hs (hm _ hl)
    rw [h', this]

theorem findStartCode_none {p : Bytes} (h : ∀ k, ¬ StartAt p k) : findStartCode p = ok none := by
  rcases findStartCode_cases p with ⟨h', _⟩ | ⟨j', h', hs, hm'⟩
  · exact h'
  · exact absurd hs (h _)

theorem codeLen_le (p : Bytes) (j : Nat) (h : 3 ≤ j) : codeLen p j ≤ j ∧ 3 ≤ codeLen p j ∧ codeLen p j ≤ 4 := by
  unfold codeLen; split <;> omega

theorem findStartCode_inv {p : Bytes} {j n : Nat} (h : findStartCode p = ok (some (j, n))) :
    StartAt p j ∧ n = codeLen p j ∧ ∀ k, k < j → ¬ StartAt p k := by
  rcases findStartCode_cases p with ⟨h', _⟩ | ⟨j', h', hs, hm'⟩
  · rw [h'] at h; simp at h
  · rw [h'] at h
    simp only [Go.ok.injEq, Option.some.injEq, Prod.mk.injEq] at h
    obtain ⟨rfl, rfl⟩ := h
    exact ⟨hs, rfl, hm'⟩

theorem findStartCode_inv_none {p : Bytes} (h : findStartCode p = ok none) (j : Nat) : ¬ StartAt p j := by
  rcases findStartCode_cases p with ⟨_, h'⟩ | ⟨j', h', hs, hm'⟩
  · exact h' j
  · rw [h'] at h; simp at h

/-! ## Positions under `drop` and `append` -/

theorem codeAt_drop {p : Bytes} {k j : Nat} : CodeAt (p.drop k) j ↔ CodeAt p (k + j) := by
  unfold CodeAt; rw [List.drop_drop]

theorem codeAt_append_left {u v : Bytes} {j : Nat} (h : j + 3 ≤ u.length) : CodeAt (u ++ v) j ↔ CodeAt u j := by
  unfold CodeAt
  rw [List.drop_append_of_le_length (by omega), List.take_append_of_le_length (by simp; omega)]

theorem codeAt_append_right {u v : Bytes} {j : Nat} : CodeAt (u ++ v) (u.length + j) ↔ CodeAt v j := by
  unfold CodeAt
  rw [← List.drop_drop, List.drop_left]

theorem startAt_drop {p : Bytes} {k j : Nat} (h : 3 ≤ j) : StartAt (p.drop k) j ↔ StartAt p (k + j) := by
  unfold StartAt
  rw [codeAt_drop, List.length_drop, show k + j - 3 = k + (j - 3) by omega]
  constructor <;> rintro ⟨a, b, c⟩ <;> exact ⟨by omega, by omega, c⟩

/-- Two start codes do not overlap. -/
theorem startAt_gap {p : Bytes} {j k : Nat} (hj : StartAt p j) (hk : StartAt p k) (h : j < k) : j + 3 ≤ k := by
  have h1 := codeAt_iff.1 hj.2.2
  have h2 := codeAt_iff.1 hk.2.2
  have := hj.1
  by_cases hlt : j + 3 ≤ k
  · exact hlt
  have : k = j + 1 ∨ k = j + 2 := by omega
  rcases this with rfl | rfl
  · rw [show j + 1 - 3 + 1 = j - 3 + 2 by omega, h1.2.2] at h2
    exact absurd h2.2.1 (by decide)
  · rw [show j + 2 - 3 = j - 3 + 2 by omega, h1.2.2] at h2
    exact absurd h2.1 (by decide)

theorem NoCode.not_startAt {u : Bytes} (h : NoCode u) (j : Nat) : ¬ StartAt u j := fun hs =>
  h (j - 3) (by have := hs.2.1; omega) hs.2.2

theorem NoCode.not_codeAt {u : Bytes} (h : NoCode u) (j : Nat) : ¬ CodeAt u j := fun hs =>
  h j (by have := codeAt_lt hs; omega) hs

/-- A `00 00 01` behind a string without one is the first. -/
theorem not_codeAt_append {u v : Bytes} (h : NoCode u) {j : Nat} (hj : j < u.length) : ¬ CodeAt (u ++ [0, 0, 1] ++ v) j := by
  intro hc
  by_cases hle : j + 3 ≤ u.length
  · rw [List.append_assoc, codeAt_append_left hle] at hc
    exact h j hj hc
  · rw [codeAt_iff] at hc
    have h2 := hc.2.2
    have : j + 2 = u.length ∨ j + 2 = u.length + 1 := by omega
    rcases this with he | he
    · rw [he] at h2; simp at h2
    · rw [he, List.append_assoc, List.getElem?_append_right (by omega)] at h2; simp at h2

theorem findStartCode_append {u : Bytes} (h : NoCode u) (a : Byte) (v : Bytes) :
    findStartCode (u ++ [0, 0, 1] ++ a :: v) = ok (some (u.length + 3, if u.getLast? = some 0 then 4 else 3)) := by
  have hs : StartAt (u ++ [0, 0, 1] ++ a :: v) (u.length + 3) := by
    refine ⟨by omega, by simp, ?_⟩
    rw [show u.length + 3 - 3 = u.length + 0 by omega, List.append_assoc, codeAt_append_right]
    simp [CodeAt]
  have hm : ∀ k, k < u.length + 3 → ¬ StartAt (u ++ [0, 0, 1] ++ a :: v) k := by
    intro k hk hs
    have := hs.1
    exact not_codeAt_append h (by omega) hs.2.2
  rw [findStartCode_some hs hm]
  congr 3
  unfold codeLen
  rcases List.eq_nil_or_concat u with rfl | ⟨w, z, rfl⟩
  · simp
  · simp

theorem findStartCode_noCode {u : Bytes} (h : NoCode u) : findStartCode u = ok none :=
  findStartCode_none h.not_startAt

theorem noCode_append_zero {u : Bytes} (h : NoCode u) : NoCode (u ++ [0]) := by
  intro j hj hc
  simp only [List.length_append, List.length_singleton] at hj
  by_cases hle : j + 3 ≤ u.length
  · rw [codeAt_append_left hle] at hc; exact h j (by omega) hc
  · have := codeAt_lt hc
    simp only [List.length_append, List.length_singleton] at this
    rw [codeAt_iff, show j + 2 = u.length by omega] at hc
    simp at hc

/-- The search behind a clean unit finds the next unit, with the length of its start code. -/
theorem findStartCode_code {u : Bytes} (h : NoCode u) (hl : u.getLast? ≠ some 0) (b : Bool) (a : Byte) (v : Bytes) :
    findStartCode (u ++ code b ++ a :: v) = ok (some (u.length + (code b).length, (code b).length)) := by
  cases b with
  | false =>
    have := findStartCode_append h a v
    rw [if_neg hl] at this; simpa [code] using this
  | true =>
    have := findStartCode_append (noCode_append_zero h) a v
    simp only [List.getLast?_append, List.length_append] at this
    simpa [code] using this

/-! ## `headers` -/

theorem headers_cons (a : Byte) (t : Bytes) :
    headers (a :: t) = (if CodeAt (a :: t) 0 then ((a :: t)[3]?).toList else []) ++ headers t := by
  rw [headers]; unfold CodeAt; simp only [List.drop_zero]

theorem headers_drop_one {p : Bytes} (h : ¬ StartAt p 3) : headers p = headers (p.drop 1) := by
  cases p with
  | nil => rfl
  | cons a t =>
    rw [headers_cons]
    by_cases hc : CodeAt (a :: t) 0
    · rw [if_pos hc]
      have : (a :: t)[3]? = none := by
        rw [List.getElem?_eq_none_iff]
        exact Nat.le_of_not_lt fun hl => h ⟨by omega, hl, hc⟩
      rw [this]; rfl
    · rw [if_neg hc]; rfl

theorem headers_none {p : Bytes} (h : ∀ j, ¬ StartAt p j) : headers p = [] := by
  induction p with
  | nil => rfl
  | cons a t ih =>
    rw [headers_drop_one (h 3)]
    refine ih fun j hj => h (1 + j) ?_
    exact (startAt_drop (p := a :: t) (k := 1) hj.1).1 hj

theorem headers_skip {p : Bytes} (n : Nat) (h : ∀ j, j < n + 3 → ¬ StartAt p j) : headers p = headers (p.drop n) := by
  induction n generalizing p with
  | zero => rfl
  | succ n ih =>
    rw [headers_drop_one (h 3 (by omega)), ih (p := p.drop 1), List.drop_drop, Nat.add_comm]
    intro j hj hs
    exact h (1 + j) (by omega) ((startAt_drop hs.1).1 hs)

theorem headers_some {p : Bytes} {j : Nat} (h : StartAt p j) (hm : ∀ k, k < j → ¬ StartAt p k) :
    ∃ b, p[j]? = some b ∧ headers p = b :: headers (p.drop j) := by
  have hj := h.1
  have hl := h.2.1
  refine ⟨p[j], List.getElem?_eq_getElem hl, ?_⟩
  rw [headers_skip (j - 3) (fun k hk => hm k (by omega))]
  have hc := h.2.2
  have hcc := codeAt_iff.1 hc
  have hne : p.drop (j - 3) = 0 :: p.drop (j - 3 + 1) := by
    rw [List.drop_eq_getElem_cons (by omega : j - 3 < p.length)]
    have := (List.getElem?_eq_some_iff.1 hcc.1).2
    rw [this]
  rw [hne, headers_cons, ← hne, if_pos (codeAt_drop.2 (by simpa using hc))]
  have h3 : (p.drop (j - 3))[3]? = some p[j] := by
    rw [List.getElem?_drop, show j - 3 + 3 = j by omega, List.getElem?_eq_getElem hl]
  rw [h3]
  have : headers (p.drop (j - 3 + 1)) = headers (p.drop j) := by
    rw [headers_skip (p := p.drop (j - 3 + 1)) 2, List.drop_drop, show j - 3 + 1 + 2 = j by omega]
    intro k hk hs
    have hs' := (startAt_drop hs.1).1 hs
    have := startAt_gap h hs' (by have := hs.1; omega)
    omega
  rw [this]; rfl

end Avf
