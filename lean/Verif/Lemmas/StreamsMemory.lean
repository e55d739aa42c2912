import Verif.Lemmas.Streams
import Verif.Lemmas.RBBufSim
import Verif.Spec.MemoryUse
/-! # The history of a buffer of a StreamsBuffer is the history of its stream -/
set_option linter.unusedSimpArgs false
namespace Avf
open Go

theorem single_runR {o : StreamOp} {s s' : RBBuf × Mem} {x : BufObs} (e : o.single s = ok (x, s')) : ∃ y, o.bufOp.runR s = ok (y, s') := by
  obtain ⟨r, m⟩ := s
  cases o with
  | write d i v =>
    simp only [StreamOp.single, bind_eq_ok, pure_def, ok.injEq, Prod.mk.injEq] at e
    obtain ⟨⟨r1, m1⟩, e1, _, rfl⟩ := e
    exact ⟨.unit, by simp [StreamOp.bufOp, BufOp.runR, e1]⟩
  | fetch i => exact ⟨x, e⟩
  | discardHead i => exact ⟨x, e⟩
  | discardBack i => exact ⟨x, e⟩
  | pending i => exact ⟨x, e⟩

theorem streamHist_cons (i : Nat) (o : StreamOp) (os : List StreamOp) :
    streamHist i (o :: os) = if o.index = i then o.bufOp :: streamHist i os else streamHist i os := by
  unfold streamHist
  by_cases h : o.index = i <;> simp [h]

theorem makes_cap {o : StreamOp} {cap : Nat} (h : o.makes = some cap) : cap = 2097152 ∨ cap = 576000 := by
  cases o with
  | write d i v => cases v <;> simp [StreamOp.makes] at h <;> omega
  | fetch i => simp [StreamOp.makes] at h; omega
  | discardHead i => simp [StreamOp.makes] at h
  | discardBack i => simp [StreamOp.makes] at h
  | pending i => simp [StreamOp.makes] at h; omega

theorem runTrace_cons_ok {Op S O : Type} {step : Op → S → Go (O × S)} {o : Op} {os : List Op} {s s1 s2 : S} {y : O} {ys : List O}
    (h1 : step o s = ok (y, s1)) (h2 : runTrace step os s1 = ok (ys, s2)) : runTrace step (o :: os) s = ok (y :: ys, s2) := by
  simp only [runTrace, h1, ok_bind, h2, pure_def]

theorem alone_history : ∀ (ops : List StreamOp) (ts ts' : List (RBBuf × Mem)) (xs : List BufObs), runTrace StreamOp.alone ops ts = ok (xs, ts') →
    ∀ (i : Nat) (t' : RBBuf × Mem), ts'[i]? = some t' →
      (∃ t ys, ts[i]? = some t ∧ runTrace BufOp.runR (streamHist i ops) t = ok (ys, t')) ∨
      (ts[i]? = none ∧ ∃ cap ys, (cap = 2097152 ∨ cap = 576000) ∧ runTrace BufOp.runR (streamHist i ops) (RBBuf.new [] cap) = ok (ys, t')) := by
  intro ops
  induction ops with
  | nil =>
    intro ts ts' xs e i t' hi
    simp only [runTrace, ok.injEq, Prod.mk.injEq] at e
    obtain ⟨_, rfl⟩ := e
    exact .inl ⟨t', [], hi, rfl⟩
  | cons o os ih =>
    intro ts ts' xs e i t' hi
    simp only [runTrace, bind_eq_ok, pure_def, ok.injEq, Prod.mk.injEq] at e
    obtain ⟨⟨x, ts1⟩, e1, ⟨ys, ts2⟩, e2, _, rfl⟩ := e
    have h2 := ih ts1 ts2 ys e2 i t' hi
    rw [streamHist_cons]
    unfold StreamOp.alone at e1
    cases ho : ts[o.index]? with
    | some t0 =>
      rw [ho] at e1
      simp only [bind_eq_ok, pure_def, ok.injEq, Prod.mk.injEq] at e1
      obtain ⟨⟨y, t1⟩, e3, _, rfl⟩ := e1
      obtain ⟨z, e4⟩ := single_runR e3
      have hlt : o.index < ts.length := (List.getElem?_eq_some_iff.mp ho).1
      by_cases hoi : o.index = i
      · subst hoi
        rw [if_pos rfl]
        rw [List.getElem?_set_self hlt] at h2
        rcases h2 with ⟨t, zs, h3, h4⟩ | ⟨h3, _⟩
        · cases h3
          exact .inl ⟨t0, _, ho, runTrace_cons_ok e4 h4⟩
        · cases h3
      · rw [if_neg hoi]
        rw [List.getElem?_set_ne hoi] at h2
        exact h2
    | none =>
      rw [ho] at e1
      dsimp only at e1
      by_cases hl : o.index = ts.length
      · rw [if_pos hl] at e1
        cases hm : o.makes with
        | none => rw [hm] at e1; cases e1
        | some cap =>
          rw [hm] at e1
          simp only [bind_eq_ok, pure_def, ok.injEq, Prod.mk.injEq] at e1
          obtain ⟨⟨y, t1⟩, e3, _, rfl⟩ := e1
          obtain ⟨z, e4⟩ := single_runR e3
          by_cases hoi : o.index = i
          · subst hoi
            rw [if_pos rfl]
            rw [hl, List.getElem?_append_right (Nat.le_refl _), Nat.sub_self] at h2
            right
            refine ⟨ho, ?_⟩
            rcases h2 with ⟨t, zs, h3, h4⟩ | ⟨h3, _⟩
            · cases h3
              rw [← hl] at h4
              exact ⟨cap, _, makes_cap hm, runTrace_cons_ok e4 h4⟩
            · cases h3
          · rw [if_neg hoi]
            rcases Nat.lt_or_ge i ts.length with hi2 | hi2
            · rw [List.getElem?_append_left hi2] at h2; exact h2
            · have h5 : (ts ++ [t1])[i]? = none := List.getElem?_eq_none (by simp; omega)
              have h6 : ts[i]? = none := List.getElem?_eq_none hi2
              rw [h5] at h2
              rw [h6]
              exact h2
      · rw [if_neg hl] at e1; cases e1

namespace StreamsBuf

theorem history (m₀ : Mem) (ops : List StreamOp) {xs : List BufObs} {s : StreamsBuf} {m : Mem} {i : Nat} {r : RBBuf}
    (e : runTrace StreamOp.run ops (⟨[]⟩, m₀) = ok (xs, (s, m))) (hr : s.buffers[i]? = some r) :
    ∃ cap ys, ∃ t : RBBuf × Mem, (cap = 2097152 ∨ cap = 576000) ∧ runTrace BufOp.runR (streamHist i ops) (RBBuf.new [] cap) = ok (ys, t) ∧
      r.data.len = t.1.data.len := by
  have ha := runTrace_agree (P := fun _ => True) (fun o _ _ _ h => StreamsBuf.R.sim h o) ops (⟨[]⟩, m₀) [] (fun _ _ => trivial) (StreamsBuf.R_new m₀)
  rw [e] at ha
  cases hs : runTrace StreamOp.alone ops [] with
  | err _ => rw [hs] at ha; exact ha.elim
  | panic => rw [hs] at ha; exact ha.elim
  | ok q =>
    obtain ⟨zs, ts⟩ := q
    rw [hs] at ha
    have hR : R (s, m) ts := ha.2
    have hi : i < ts.length := by rw [← hR.len]; exact (List.getElem?_eq_some_iff.mp hr).1
    have ht : ts[i]? = some ts[i] := List.getElem?_eq_getElem hi
    have hsame := hR.same i r _ hr ht
    rcases alone_history ops [] ts zs hs i _ ht with ⟨t, _, h3, _⟩ | ⟨_, cap, ys, hc, h4⟩
    · cases h3
    · refine ⟨cap, ys, ts[i], hc, h4, ?_⟩
      rw [hsame.eq]; rfl

end StreamsBuf
end Avf
