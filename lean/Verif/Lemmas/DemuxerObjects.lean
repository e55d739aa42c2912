import Verif.Spec.DemuxerObjects
import Verif.Lemmas.PacketPool
import Verif.Props.LinkedList
import Mathlib.Data.List.Forall2
/-! # Helper lemmas: demuxers with packet objects behave like demuxers with packet values -/
namespace Avf
open Go PacketPool

/-! ## The pool -/

theorem PoolInv.perm {s : PacketPool} {l l' : List Nat} (h : PoolInv s l) (hp : l.Perm l') : PoolInv s l' :=
  ⟨hp.nodup_iff.1 h.distinct, h.pool, fun p hm hl => h.apart p hm (hp.mem_iff.2 hl), fun p hl => h.liveIn p (hp.mem_iff.2 hl), h.blank⟩

theorem PoolInv.use {s : PacketPool} {live : List Nat} (ih : PoolInv s live) {p : Nat} (hp : p ∈ live) (f : AVPacket → AVPacket) :
    PoolInv (s.modify p f) live := by
  refine ⟨ih.distinct, ih.pool, ih.apart, ?_, ?_⟩
  · intro q hq
    show q < (List.modify _ _ _).length
    rw [List.length_modify]; exact ih.liveIn q hq
  · intro q hq
    obtain ⟨y, hy, hyb⟩ := ih.blank _ hq
    have hne : p ≠ q := fun e => ih.apart q hq (e ▸ hp)
    refine ⟨y, ?_, hyb⟩
    show (List.modify _ _ _)[q]? = _
    rw [modify_other _ hne, hy]

theorem PoolInv.free {s : PacketPool} {live : List Nat} {p : Nat} (ih : PoolInv s (p :: live)) : PoolInv (s.freePacket p) live := by
  have hp : p ∈ p :: live := List.mem_cons_self ..
  have hnp : p ∉ s.pool := fun e => ih.apart p e hp
  have hnl : p ∉ live := (List.nodup_cons.1 ih.distinct).1
  refine ⟨(List.nodup_cons.1 ih.distinct).2, ?_, ?_, ?_, ?_⟩
  · show (s.pool ++ [p]).Nodup
    rw [List.nodup_append]
    exact ⟨ih.pool, by simp, by intro a ha b hb; simp at hb; subst hb; rintro rfl; exact hnp ha⟩
  · intro q hq
    have hq : q ∈ s.pool ++ [p] := hq
    rcases List.mem_append.1 hq with hq | hq
    · exact fun hm => ih.apart q hq (List.mem_cons_of_mem _ hm)
    · simp at hq; subst hq; exact hnl
  · intro q hq
    show q < (List.modify _ _ _).length
    rw [List.length_modify]; exact ih.liveIn q (List.mem_cons_of_mem _ hq)
  · intro q hq
    have hq : q ∈ s.pool ++ [p] := hq
    show ∃ x, (List.modify _ _ _)[q]? = some x ∧ _
    rcases List.mem_append.1 hq with hq | hq
    · obtain ⟨y, hy, hyb⟩ := ih.blank _ hq
      have hne : p ≠ q := fun e => hnp (e ▸ hq)
      exact ⟨y, by rw [modify_other _ hne, hy], hyb⟩
    · simp at hq
      subst hq
      have hl := ih.liveIn q hp
      exact ⟨reset s.objs[q], modify_self _ (List.getElem?_eq_getElem hl), Or.inr rfl⟩

theorem PoolInv.collect {s : PacketPool} {live pool' : List Nat} (ih : PoolInv s live) (hs : pool'.Sublist s.pool) :
    PoolInv { s with pool := pool' } live :=
  ⟨ih.distinct, ih.pool.sublist hs, fun p hp => ih.apart p (hs.subset hp), ih.liveIn, fun p hp => ih.blank p (hs.subset hp)⟩

theorem freePacket_other (s : PacketPool) {p q : Nat} (h : p ≠ q) : (s.freePacket p).objs[q]? = s.objs[q]? := modify_other _ h

/-- Others do not disturb what is not theirs; they may write to the packet that is lent to them. -/
theorem acts_keep {lent : Option Nat} {mine : List Nat} (hl : ∀ p, lent = some p → p ∈ mine) (as : List Act)
    (hf : ∀ a ∈ as, a.Fair) (sh : Shared) (h : PoolInv sh.pool (mine ++ sh.theirs)) :
    let sh' := as.foldl (Act.run lent) sh
    PoolInv sh'.pool (mine ++ sh'.theirs) ∧ (∀ q ∈ mine, lent ≠ some q → sh'.pool.objs[q]? = sh.pool.objs[q]?) ∧
      ∀ p x, lent = some p → sh.pool.objs[p]? = some x → ∃ y, sh'.pool.objs[p]? = some y ∧ y.index = x.index := by
  induction as generalizing sh with
  | nil => exact ⟨h, fun _ _ _ => rfl, fun p x _ hx => ⟨x, hx, rfl⟩⟩
  | cons a as ih =>
    have step : PoolInv (a.run lent sh).pool (mine ++ (a.run lent sh).theirs) ∧
        (∀ q ∈ mine, lent ≠ some q → (a.run lent sh).pool.objs[q]? = sh.pool.objs[q]?) ∧
        ∀ p x, lent = some p → sh.pool.objs[p]? = some x → ∃ y, (a.run lent sh).pool.objs[p]? = some y ∧ y.index = x.index := by
      have ha := hf a (List.mem_cons_self ..)
      have fresh : ∀ (pick : Option Nat) (f : AVPacket → AVPacket),
          PoolInv ((sh.pool.get pick).2.modify (sh.pool.get pick).1 f) (mine ++ (sh.pool.get pick).1 :: sh.theirs) ∧
          (∀ q ∈ mine, lent ≠ some q → ((sh.pool.get pick).2.modify (sh.pool.get pick).1 f).objs[q]? = sh.pool.objs[q]?) ∧
          ∀ p x, lent = some p → sh.pool.objs[p]? = some x →
            ∃ y, ((sh.pool.get pick).2.modify (sh.pool.get pick).1 f).objs[p]? = some y ∧ y.index = x.index := by
        intro pick f
        obtain ⟨h1, _, h3⟩ := modify_new h pick f
        refine ⟨h1.perm List.perm_middle.symm, fun q hq _ => h3 q (List.mem_append_left _ hq), fun p x hp hx => ⟨x, ?_, rfl⟩⟩
        rw [h3 p (List.mem_append_left _ (hl p hp)), hx]
      cases a with
      | audio pick data ts id index timebase => exact fresh pick _
      | video pick data dts pts key t id index timebase => exact fresh pick _
      | use p f =>
        by_cases hm : p ∈ sh.theirs
        · have e : Act.run lent sh (.use p f) = { sh with pool := sh.pool.modify p f } := by simp only [Act.run, if_pos hm]
          rw [e]
          have hne : ∀ q ∈ mine, p ≠ q := by
            rintro q hq rfl
            exact (List.nodup_append.1 h.distinct).2.2 p hq p hm rfl
          refine ⟨h.use (List.mem_append_right _ hm) f, fun q hq _ => modify_other _ (hne q hq), fun q x hq hx => ⟨x, ?_, rfl⟩⟩
          rw [← hx]; exact modify_other _ (hne q (hl q hq))
        · have e : Act.run lent sh (.use p f) = sh := by simp only [Act.run, if_neg hm]
          rw [e]
          exact ⟨h, fun _ _ _ => rfl, fun p x _ hx => ⟨x, hx, rfl⟩⟩
      | touch f =>
        cases lent with
        | none => exact ⟨h, fun _ _ _ => rfl, fun p x _ hx => ⟨x, hx, rfl⟩⟩
        | some p =>
          have hm := hl p rfl
          refine ⟨h.use (List.mem_append_left _ hm) f, fun q hq hne => modify_other _ (fun e => hne (e ▸ rfl)), fun q x hq hx => ?_⟩
          cases hq
          exact ⟨f x, modify_self _ hx, ha x⟩
      | free p =>
        by_cases hm : p ∈ sh.theirs
        · have e : Act.run lent sh (.free p) = { pool := sh.pool.freePacket p, theirs := sh.theirs.erase p } := by
            simp only [Act.run, if_pos hm]
          rw [e]
          have hne : ∀ q ∈ mine, p ≠ q := by
            rintro q hq rfl
            exact (List.nodup_append.1 h.distinct).2.2 p hq p hm rfl
          refine ⟨PoolInv.free (h.perm ?_), fun q hq _ => freePacket_other _ (hne q hq), fun q x hq hx => ⟨x, ?_, rfl⟩⟩
          · exact ((List.perm_cons_erase hm).append_left mine).trans List.perm_middle
          · rw [← hx]; exact freePacket_other _ (hne q (hl q hq))
        · have e : Act.run lent sh (.free p) = sh := by simp only [Act.run, if_neg hm]
          rw [e]
          exact ⟨h, fun _ _ _ => rfl, fun p x _ hx => ⟨x, hx, rfl⟩⟩
      | rogueFree p => exact ha.elim
      | rogueUse p f => exact ha.elim
      | collect keep => exact ⟨h.collect List.filter_sublist, fun _ _ _ => rfl, fun p x _ hx => ⟨x, hx, rfl⟩⟩
    obtain ⟨s1, s2, s3⟩ := step
    obtain ⟨r1, r2, r3⟩ := ih (fun b hb => hf b (List.mem_cons_of_mem _ hb)) (a.run lent sh) s1
    refine ⟨r1, fun q hq hne => (r2 q hq hne).trans (s2 q hq hne), fun p x hp hx => ?_⟩
    obtain ⟨y, hy, e⟩ := s3 p x hp hx
    obtain ⟨z, hz, e'⟩ := r3 p y hp hy
    exact ⟨z, hz, e'.trans e⟩

end Avf
