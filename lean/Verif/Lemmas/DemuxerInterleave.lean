import Verif.Spec.DemuxerInterleave
import Verif.Props.DemuxerLanes
/-! # Helper lemmas: beginnings and ends of delivered packets -/
namespace Avf
open Go

theorem lanes_sublist (ps : List AVPacket) : ∀ l ∈ lanes ps, l.Sublist ps := by
  induction ps using List.reverseRecOn with
  | nil => intro l hl; cases hl
  | append_singleton ps p ih =>
    intro l hl
    rw [lanes_concat] at hl
    unfold putLane at hl
    split at hl
    · obtain ⟨i, hi, rfl⟩ := List.mem_iff_getElem.1 hl
      rw [List.length_modify] at hi
      have := ih _ (List.getElem_mem hi)
      rw [List.getElem_modify]
      split
      · exact this.append_right [p]
      · exact this.trans (List.sublist_append_left _ _)
    · rcases List.mem_append.1 hl with h | h
      · exact (ih l h).trans (List.sublist_append_left _ _)
      · rw [List.mem_singleton] at h; subst h; exact List.sublist_append_right _ _

theorem wrap_span {x y : Int} (hx : -2 ^ 62 ≤ x ∧ x < 2 ^ 62) (hy : -2 ^ 62 ≤ y ∧ y < 2 ^ 62) (h : x ≤ y) : wrap64 (y - x) = y - x := by
  unfold wrap64; omega

/-- The packets of a lane but the last: each ends when another one begins. -/
theorem timed_finish : ∀ (l : List AVPacket), InTime l → ∀ y ∈ timed l,
    ∃ x ∈ l, ∃ z ∈ l, y.dts = x.dts ∧ y.finish = z.dts ∧ 0 ≤ y.duration := by
  intro l
  induction l with
  | nil => intro _ y hy; cases hy
  | cons p l ih =>
    intro hl y hy
    cases l with
    | nil => cases hy
    | cons q l =>
      have hl' : InTime (q :: l) := ⟨(List.pairwise_cons.1 hl.order).2, fun x hx => hl.range x (List.mem_cons_of_mem _ hx)⟩
      rcases List.mem_cons.1 hy with rfl | hy
      · have hpq := (List.pairwise_cons.1 hl.order).1 q (List.mem_cons_self ..)
        have hw := wrap_span (hl.range p (List.mem_cons_self ..)) (hl.range q (by simp)) hpq
        refine ⟨p, List.mem_cons_self .., q, by simp, rfl, ?_, ?_⟩
        · show p.dts + wrap64 (q.dts - p.dts) = _
          omega
        · show 0 ≤ wrap64 (q.dts - p.dts)
          omega
      · obtain ⟨x, hx, z, hz, h⟩ := ih hl' y hy
        exact ⟨x, List.mem_cons_of_mem _ hx, z, List.mem_cons_of_mem _ hz, h⟩

/-- The packets that are delivered one by one. -/
theorem late_finish : ∀ (after : List AVPacket) (ps : List AVPacket), InTime (ps ++ after) →
    ((lateOf (lanes ps) after).map AVPacket.finish).Sublist (after.map AVPacket.dts) ∧
    ∀ y ∈ lateOf (lanes ps) after, 0 ≤ y.duration ∧ ∃ x ∈ ps ++ after, y.dts = x.dts := by
  intro after
  induction after with
  | nil => intro ps _; exact ⟨.slnil, by intro y hy; cases hy⟩
  | cons p after ih =>
    intro ps h
    have h' : InTime (ps ++ [p] ++ after) := by rw [List.append_assoc]; exact h
    obtain ⟨i1, i2⟩ := ih (ps ++ [p]) h'
    rw [lanes_concat] at i1 i2
    unfold lateOf
    have i3 : ∀ y ∈ lateOf (putLane (lanes ps) p) after, 0 ≤ y.duration ∧ ∃ x ∈ ps ++ p :: after, y.dts = x.dts := by
      intro y hy
      obtain ⟨a, x, hx, b⟩ := i2 y hy
      exact ⟨a, x, by rw [List.append_assoc] at hx; exact hx, b⟩
    cases hf : inFront (lanes ps) p with
    | none =>
      refine ⟨?_, ?_⟩
      · simpa using i1.trans (List.sublist_cons_self _ _)
      · simpa using i3
    | some x =>
      have hx : x ∈ ps := by
        unfold inFront at hf
        split at hf
        · obtain ⟨l, hl, e⟩ := Option.bind_eq_some_iff.1 hf
          exact (lanes_sublist ps l (List.mem_of_getElem? hl)).subset (List.mem_of_getLast? e)
        · cases hf
      have hxp : x.dts ≤ p.dts := (List.pairwise_append.1 h.order).2.2 x hx p (List.mem_cons_self ..)
      have hw := wrap_span (h.range x (by simp [hx])) (h.range p (by simp)) hxp
      refine ⟨?_, ?_⟩
      · show ((x.dts + wrap64 (p.dts - x.dts)) :: (lateOf (putLane (lanes ps) p) after).map AVPacket.finish).Sublist _
        rw [hw, show x.dts + (p.dts - x.dts) = p.dts by omega]
        exact i1.cons_cons _
      · intro y hy
        rcases List.mem_cons.1 (show y ∈ _ :: _ from hy) with rfl | hy
        · exact ⟨by show 0 ≤ wrap64 (p.dts - x.dts); omega, x, by simp [hx], rfl⟩
        · exact i3 y hy

end Avf
