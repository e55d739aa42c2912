import Verif.Spec.PacketPool
import Mathlib.Data.List.Nodup
/-! # Helper lemmas: the packet pool -/
namespace Avf
open Go PacketPool

/-- A packet without contents: fresh (`t = 0`) or recycled (`t = PacketTypeNONE`). -/
def BlankPacket (x : AVPacket) : Prop :=
  x = {} ∨ x = { packetType := packNone, mediaType := mediaUnknown, codecID := codecNone }

structure PoolInv (s : PacketPool) (live : List Nat) : Prop where
  distinct : live.Nodup
  pool : s.pool.Nodup
  apart : ∀ p ∈ s.pool, p ∉ live
  liveIn : ∀ p ∈ live, p < s.objs.length
  blank : ∀ p ∈ s.pool, ∃ x, s.objs[p]? = some x ∧ BlankPacket x

theorem modify_self {α : Type} {l : List α} {i : Nat} {x : α} (f : α → α) (h : l[i]? = some x) : (l.modify i f)[i]? = some (f x) := by
  rw [List.getElem?_modify, h]; simp

theorem modify_other {α : Type} {l : List α} {i j : Nat} (f : α → α) (h : i ≠ j) : (l.modify i f)[j]? = l[j]? := by
  rw [List.getElem?_modify]; simp [h]

theorem get_spec {s : PacketPool} {live : List Nat} (h : PoolInv s live) (pick : Option Nat) :
    let r := s.get pick
    r.1 ∉ live ∧ r.1 ∉ r.2.pool ∧ r.2.pool.Sublist s.pool ∧ (∃ x, r.2.objs[r.1]? = some x ∧ BlankPacket x) ∧
      s.objs.length ≤ r.2.objs.length ∧ ∀ q, q < s.objs.length → r.2.objs[q]? = s.objs[q]? := by
  have fresh : (s.objs.length ∉ live ∧ s.objs.length ∉ s.pool ∧ s.pool.Sublist s.pool ∧
      (∃ x, (s.objs ++ [({} : AVPacket)])[s.objs.length]? = some x ∧ BlankPacket x) ∧
      s.objs.length ≤ (s.objs ++ [({} : AVPacket)]).length ∧
      ∀ q, q < s.objs.length → (s.objs ++ [({} : AVPacket)])[q]? = s.objs[q]?) := by
    refine ⟨fun hm => absurd (h.liveIn _ hm) (by omega), fun hm => ?_, List.Sublist.refl _, ⟨{}, by simp, Or.inl rfl⟩, by simp, ?_⟩
    · obtain ⟨x, hx, _⟩ := h.blank _ hm
      simp at hx
    · intro q hq; rw [List.getElem?_append_left hq]
  cases pick with
  | none => exact fresh
  | some i =>
    cases hi : s.pool[i]? with
    | none =>
      have : s.get (some i) = (s.objs.length, { s with objs := s.objs ++ [{}] }) := by simp only [PacketPool.get, hi]
      rw [this]; exact fresh
    | some id =>
      have hg : s.get (some i) = (id, { s with pool := s.pool.eraseIdx i }) := by simp only [PacketPool.get, hi]
      rw [hg]
      have hm : id ∈ s.pool := List.mem_of_getElem? hi
      obtain ⟨hl, he⟩ := List.getElem?_eq_some_iff.1 hi
      refine ⟨h.apart _ hm, ?_, List.eraseIdx_sublist _ _, h.blank _ hm, Nat.le_refl _, fun q _ => rfl⟩
      show id ∉ s.pool.eraseIdx i
      intro hx
      obtain ⟨j, hj, hne⟩ := List.mem_eraseIdx_iff_getElem.1 hx
      obtain ⟨h1, h2⟩ := hne
      have := (List.Nodup.getElem_inj_iff h.pool (hi := hj) (hj := hl)).1 (h2.trans he.symm)
      exact h1 this

theorem modify_new {s : PacketPool} {live : List Nat} (h : PoolInv s live) (pick : Option Nat) (f : AVPacket → AVPacket) :
    PoolInv ((s.get pick).2.modify (s.get pick).1 f) ((s.get pick).1 :: live) ∧
      (∃ x, ((s.get pick).2.modify (s.get pick).1 f).objs[(s.get pick).1]? = some (f x) ∧ BlankPacket x) ∧
      ∀ q ∈ live, ((s.get pick).2.modify (s.get pick).1 f).objs[q]? = s.objs[q]? := by
  obtain ⟨h1, h2, h3, ⟨x, hx, hb⟩, h5, h6⟩ := get_spec h pick
  have hlt : (s.get pick).1 < (s.get pick).2.objs.length := (List.getElem?_eq_some_iff.1 hx).1
  refine ⟨⟨List.nodup_cons.2 ⟨h1, h.distinct⟩, h.pool.sublist h3, ?_, ?_, ?_⟩, ⟨x, ?_, hb⟩, ?_⟩
  · intro p hp hm
    rcases List.mem_cons.1 hm with rfl | hm
    · exact h2 hp
    · exact h.apart _ (h3.subset hp) hm
  · intro p hp
    show p < (List.modify _ _ _).length
    rw [List.length_modify]
    rcases List.mem_cons.1 hp with rfl | hm
    · exact hlt
    · exact Nat.lt_of_lt_of_le (h.liveIn _ hm) h5
  · intro p hp
    obtain ⟨y, hy, hyb⟩ := h.blank _ (h3.subset hp)
    have hne : (s.get pick).1 ≠ p := fun e => h2 (e ▸ hp)
    refine ⟨y, ?_, hyb⟩
    show (List.modify _ _ _)[p]? = _
    rw [modify_other f hne, h6 _ (List.getElem?_eq_some_iff.1 hy).1, hy]
  · exact modify_self f hx
  · intro q hq
    show (List.modify _ _ _)[_]? = _
    have hne : (s.get pick).1 ≠ q := fun e => h1 (e ▸ hq)
    rw [modify_other f hne, h6 _ (h.liveIn _ hq)]

theorem PoolRun.inv {s : PacketPool} {live : List Nat} (h : PoolRun s live) : PoolInv s live := by
  induction h with
  | init => exact ⟨by simp, by simp, by simp, by simp, by simp⟩
  | audio pick data ts id index timebase _ ih => exact (modify_new ih pick _).1
  | video pick data dts pts key t id index timebase _ ih => exact (modify_new ih pick _).1
  | use p f _ hp ih =>
    refine ⟨ih.distinct, ih.pool, ih.apart, ?_, ?_⟩
    · intro q hq
      show q < (List.modify _ _ _).length
      rw [List.length_modify]; exact ih.liveIn q hq
    · intro q hq
      obtain ⟨y, hy, hyb⟩ := ih.blank _ hq
      have hne : p ≠ q := fun e => ih.apart q hq (e ▸ hp)
      refine ⟨y, ?_, hyb⟩
      show (List.modify _ _ _)[q]? = _
      rw [modify_other _ hne, hy]
  | @free s live p _ hp ih =>
    have hnp : p ∉ s.pool := fun e => ih.apart p e hp
    refine ⟨ih.distinct.erase p, ?_, ?_, ?_, ?_⟩
    · show (s.pool ++ [p]).Nodup
      rw [List.nodup_append]
      exact ⟨ih.pool, by simp, by intro a ha b hb; simp at hb; subst hb; rintro rfl; exact hnp ha⟩
    · intro q hq
      have hq : q ∈ s.pool ++ [p] := hq
      rcases List.mem_append.1 hq with hq | hq
      · exact fun hm => ih.apart q hq (List.mem_of_mem_erase hm)
      · simp at hq; subst hq; exact fun hm => absurd hm (by rw [ih.distinct.mem_erase_iff]; simp)
    · intro q hq
      show q < (List.modify _ _ _).length
      rw [List.length_modify]; exact ih.liveIn q (List.mem_of_mem_erase hq)
    · intro q hq
      have hq : q ∈ s.pool ++ [p] := hq
      show ∃ x, (List.modify _ _ _)[q]? = some x ∧ _
      rcases List.mem_append.1 hq with hq | hq
      · obtain ⟨y, hy, hyb⟩ := ih.blank _ hq
        have hne : p ≠ q := fun e => hnp (e ▸ hq)
        exact ⟨y, by rw [modify_other _ hne, hy], hyb⟩
      · simp at hq
        subst hq
        have hl := ih.liveIn q hp
        exact ⟨reset s.objs[q], modify_self _ (List.getElem?_eq_getElem hl), Or.inr rfl⟩
  | collect pool' _ hs ih =>
    exact ⟨ih.distinct, ih.pool.sublist hs, fun p hp => ih.apart p (hs.subset hp), ih.liveIn, fun p hp => ih.blank p (hs.subset hp)⟩

end Avf
