import Verif.Lemmas.RecordLists
import Verif.Props.Record
/-!
# Property C95: which parameter sets an HEVC record lists
-/
namespace Avf
open Go

/-- **C95**: after a successful `Unmarshal` the bytes behind the header are arrays of units, as many as announced; the VPS and PPS lists hold the units of
the arrays of types 32 and 34, in order; the SPS list holds the PPS in front of the last SPS, and that SPS or the PPS that has overwritten it. -/
theorem C95_lists (grow : Nat → Nat) (data : Bytes) (hlen : data.length < 2 ^ 62) (r : HEVCRecord)
    (h : hevcUnmarshal grow {} data = ok (.ok (), r)) :
    ∃ (h23 : 23 ≤ data.length) (xs : List (Byte × List Bytes)) (trailing : Bytes), xs.length = data[22].toNat ∧ ArraysOk xs ∧
      data = data.take 23 ++ (hevcArrays xs ++ trailing) ∧
      r.vpsList = setsOfType 32 (recordSets xs) ∧ r.ppsList = setsOfType 34 (recordSets xs) ∧ SpsListed grow (recordSets xs) r.spsList := by
  rcases hevcUnmarshal_spec grow {} data hlen with ⟨_, e, he⟩ | ⟨h23, r0, hr, ⟨xs, t, y1, y2, y3, he⟩ | ⟨_, e, s', he⟩⟩
  · rw [he] at h; cases h
  · obtain ⟨r0', hr', _, hv, hs, hp, hc, _⟩ := hevcHeader_ok {} data h23
    rw [hr] at hr'
    cases hr'
    have h0 : Listed grow [] r0 := ⟨by rw [hv]; rfl, by rw [hp]; rfl, by rw [hc, hp]; rfl, .inl ⟨rfl, hs⟩⟩
    have hL := h0.arrays xs
    rw [List.nil_append] at hL
    have e : xs.foldl (hevcArrayAdd grow) r0 = r := by
      rw [he] at h
      change (if _ then ok (Except.error _, _) else if _ then ok (Except.error _, _) else if _ then ok (Except.error _, _) else
        ok (Except.ok (), xs.foldl (hevcArrayAdd grow) r0)) = _ at h
      split at h
      · cases h
      split at h
      · cases h
      split at h
      · cases h
      injection h with h
      exact (Prod.mk.inj h).2
    rw [e] at hL
    refine ⟨h23, xs, t, y1, y2, y3, hL.vps, hL.pps, ?_⟩
    rcases hL.sps with h1 | ⟨before, s, after, a, b, _, c⟩
    · exact .inl h1
    · exact .inr ⟨before, s, after, a, b, c⟩
  · rw [he] at h; cases h

/-- **C95**: the SPS list is right if there is one SPS and no PPS in front of it. -/
theorem C95_right (grow : Nat → Nat) (before after : List (Nat × Bytes)) (s : Bytes) (l : List Bytes) (hb : setsOfType 33 before = [])
    (ha : setsOfType 33 after = []) (hp : setsOfType 34 before = []) (h : SpsListed grow (before ++ (33, s) :: after) l) :
    l = setsOfType 33 (before ++ (33, s) :: after) := by
  have hone : ∀ (t : List (Nat × Bytes)), setsOfType 33 ((33, s) :: t) = s :: setsOfType 33 t := by intro t; simp [setsOfType]
  have hall : setsOfType 33 (before ++ (33, s) :: after) = [s] := by rw [setsOfType_append, hb, hone, ha]; rfl
  rcases h with ⟨h1, _⟩ | ⟨b', s', a', e, e33, hl⟩
  · rw [hall] at h1; cases h1
  · have no33 : ∀ (z : List (Nat × Bytes)), setsOfType 33 z = [] → ∀ x, (33, x) ∉ z := by
      intro z hz x hx
      have : x ∈ setsOfType 33 z := List.mem_map.2 ⟨(33, x), List.mem_filter.2 ⟨hx, by simp⟩, rfl⟩
      rw [hz] at this
      cases this
    have key : before = b' ∧ s = s' := by
      rcases List.append_eq_append_iff.1 e with ⟨c, e1, e2⟩ | ⟨c, e1, e2⟩
      · cases c with
        | nil => simp at e1 e2; exact ⟨e1.symm, e2.1⟩
        | cons y c =>
          obtain ⟨e3, e4⟩ := List.cons.inj e2
          exact absurd (by rw [e4]; simp : (33, s') ∈ after) (no33 _ ha s')
      · cases c with
        | nil => simp at e1 e2; exact ⟨e1, e2.1.symm⟩
        | cons y c =>
          obtain ⟨e3, e4⟩ := List.cons.inj e2
          exact absurd (by rw [e1, ← e3]; simp : (33, s') ∈ before) (no33 _ hb s')
    obtain ⟨rfl, rfl⟩ := key
    rw [hall, hl, hp]
    simp [appendCap]

/-- **C95**, memory: whatever sets come in whatever order, the values that `hevcAdd` computes are the elements of the three slices in memory under
Go's `append`. -/
theorem C95_memory (grow : Nat → Nat) (es : List (Byte × Bytes)) :
    let l := es.foldl (fun l e => l.add grow e.1 e.2) SetLists.new
    let r : HEVCRecord := es.foldl (fun r e => hevcAdd grow e.1 r e.2) {}
    l.mem.view l.vps = r.vpsList ∧ l.mem.view l.sps = r.spsList ∧ l.mem.view l.pps = r.ppsList := by
  have key : ∀ (es : List (Byte × Bytes)) (l : SetLists) (r : HEVCRecord), SameLists l r →
      SameLists (es.foldl (fun l e => l.add grow e.1 e.2) l) (es.foldl (fun r e => hevcAdd grow e.1 r e.2) r) := by
    intro es
    induction es with
    | nil => intro l r h; exact h
    | cons e es ih => intro l r h; exact ih _ _ (h.step e.1 e.2)
  have := key es SetLists.new {} {
    ltv := by decide, lts := by decide, ltp := by decide, lenv := Nat.zero_le _, lens := Nat.zero_le _, lenp := Nat.zero_le _
    vps := rfl, sps := rfl, pps := rfl, cap := rfl, apartS := fun _ => rfl, apartP := fun _ => rfl
    joint := fun _ => .inl (Nat.le_refl _), shared := fun h => by cases h
    ahead := Nat.zero_le _ }
  exact ⟨this.vps, this.sps, this.pps⟩

/-- **C95**, memory: the closed form for the slices in memory. -/
theorem C95_memory_lists (grow : Nat → Nat) (es : List (Byte × Bytes)) :
    let l := es.foldl (fun l e => l.add grow e.1 e.2) SetLists.new
    let ns := es.map fun e => (e.1.toNat, e.2)
    l.mem.view l.vps = setsOfType 32 ns ∧ l.mem.view l.pps = setsOfType 34 ns ∧ SpsListed grow ns (l.mem.view l.sps) := by
  have key : ∀ (es : List (Byte × Bytes)) (ns : List (Nat × Bytes)) (r : HEVCRecord), Listed grow ns r →
      Listed grow (ns ++ es.map fun e => (e.1.toNat, e.2)) (es.foldl (fun r e => hevcAdd grow e.1 r e.2) r) := by
    intro es
    induction es with
    | nil => intro ns r h; simpa using h
    | cons e es ih => intro ns r h; simpa using ih _ _ (h.step e.1 e.2)
  obtain ⟨h1, h2, h3⟩ := C95_memory grow es
  have hL := key es [] {} ⟨rfl, rfl, rfl, .inl ⟨rfl, rfl⟩⟩
  rw [List.nil_append] at hL
  refine ⟨h1.trans hL.vps, h3.trans hL.pps, ?_⟩
  rw [h2]
  rcases hL.sps with h1 | ⟨before, s, after, a, b, _, c⟩
  · exact .inl h1
  · exact .inr ⟨before, s, after, a, b, c⟩

/-- Doubling the capacity as Go does: three PPS leave room for a fourth element. -/
def exGrow (n : Nat) : Nat := 2 * (n - 1)

/-- VPS, three PPS, an SPS, a PPS: the fourth PPS replaces the SPS in the SPS list. With two PPS in front there is no room, and the SPS stays. -/
example :
    let run := fun es : List (Byte × Bytes) => es.foldl (fun l e => l.add exGrow e.1 e.2) SetLists.new
    let l := run [(32, [1]), (34, [2]), (34, [3]), (34, [4]), (33, [5]), (34, [6])]
    let k := run [(32, [1]), (34, [2]), (34, [3]), (33, [5]), (34, [6])]
    l.mem.view l.sps = [[2], [3], [4], [6]] ∧ l.mem.view l.pps = [[2], [3], [4], [6]] ∧
    k.mem.view k.sps = [[2], [3], [5]] ∧ k.mem.view k.pps = [[2], [3], [6]] ∧ (List.range 6).map (appendCap exGrow) = [0, 1, 2, 4, 4, 8] := by
  decide +kernel

/-- The same from the bytes of a record: three arrays of types 32, 34, 33, and one more of type 34. -/
example : (match hevcUnmarshal exGrow {} ([1] ++ List.replicate 20 0 ++ [3, 4] ++ hevcArrays [(32, [[1]]), (34, [[2], [3], [4]]), (33, [[5]]), (34, [[6]])]) with
    | .ok (.ok (), r) => decide (r.spsList = [[2], [3], [4], [6]].map ([0, 0, 0, 1] ++ ·)) | _ => false) = true := by decide +kernel

/-- The usual order: the SPS list is right. -/
example : (match hevcUnmarshal exGrow {} ([1] ++ List.replicate 20 0 ++ [3, 3] ++ hevcArrays [(32, [[1]]), (33, [[5]]), (34, [[2], [3]])]) with
    | .ok (.ok (), r) => decide (r.spsList = [[0, 0, 0, 1, 5]]) | _ => false) = true := by decide +kernel

end Avf
