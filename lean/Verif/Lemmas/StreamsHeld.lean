import Verif.Lemmas.Streams
import Verif.Spec.StreamsClient
/-! # StreamsBuffer: slices fetched from one stream are out of reach of the others -/
set_option linter.unusedSimpArgs false
namespace Avf
open Go
namespace StreamsBuf

/-- The client's step is the model's step plus the bookkeeping. -/
theorem client_run {o : StreamOp} {s : StreamsBuf} {m : Mem} {h : List (Nat × SliceRef)} {s' : StreamsBuf} {m' : Mem}
    {h' : List (Nat × SliceRef)} (e : o.client (s, m, h) = ok (s', m', h')) :
    (∃ x, o.run (s, m) = ok (x, (s', m'))) ∧
    (h' = h ∨ ∃ d q, h' = (o.index, d) :: h ∧ s'.buffers[o.index]? = some q ∧ d.arr = q.data.arr) := by
  cases o with
  | write d i v =>
    simp only [StreamOp.client, bind_eq_ok] at e
    obtain ⟨⟨n, s₁, m₁⟩, e1, e2⟩ := e
    simp only [Go.pure_def, ok.injEq, Prod.mk.injEq] at e2
    obtain ⟨rfl, rfl, rfl⟩ := e2
    exact ⟨⟨_, by simp only [StreamOp.run, e1, ok_bind, Go.pure_def]; rfl⟩, .inl rfl⟩
  | discardHead i =>
    simp only [StreamOp.client, bind_eq_ok] at e
    obtain ⟨s₁, e1, e2⟩ := e
    simp only [Go.pure_def, ok.injEq, Prod.mk.injEq] at e2
    obtain ⟨rfl, rfl, rfl⟩ := e2
    exact ⟨⟨_, by simp only [StreamOp.run, e1, ok_bind, Go.pure_def]; rfl⟩, .inl rfl⟩
  | discardBack i =>
    simp only [StreamOp.client, bind_eq_ok] at e
    obtain ⟨s₁, e1, e2⟩ := e
    simp only [Go.pure_def, ok.injEq, Prod.mk.injEq] at e2
    obtain ⟨rfl, rfl, rfl⟩ := e2
    exact ⟨⟨_, by simp only [StreamOp.run, e1, ok_bind, Go.pure_def]; rfl⟩, .inl rfl⟩
  | pending i =>
    simp only [StreamOp.client, bind_eq_ok] at e
    obtain ⟨⟨n, s₁, m₁⟩, e1, e2⟩ := e
    simp only [Go.pure_def, ok.injEq, Prod.mk.injEq] at e2
    obtain ⟨rfl, rfl, rfl⟩ := e2
    exact ⟨⟨_, by simp only [StreamOp.run, e1, ok_bind, Go.pure_def]; rfl⟩, .inl rfl⟩
  | fetch i =>
    simp only [StreamOp.client, bind_eq_ok] at e
    obtain ⟨⟨d, s₁, m₁⟩, e1, e2⟩ := e
    cases d with
    | none =>
      simp only [Go.pure_def, ok.injEq, Prod.mk.injEq] at e2
      obtain ⟨rfl, rfl, rfl⟩ := e2
      exact ⟨⟨_, by simp only [StreamOp.run, e1, ok_bind, Go.pure_def]; rfl⟩, .inl rfl⟩
    | some d =>
      simp only [Go.pure_def, ok.injEq, Prod.mk.injEq] at e2
      obtain ⟨rfl, rfl, rfl⟩ := e2
      refine ⟨⟨_, by simp only [StreamOp.run, e1, ok_bind, Go.pure_def]; rfl⟩, .inr ?_⟩
      simp only [fetch, findOrCreate, bind_eq_ok, Go.pure_def, ok.injEq, Prod.mk.injEq] at e1
      obtain ⟨⟨r, s₂, m₂⟩, ⟨r₂, hr, hp⟩, ⟨d', r'⟩, hf, rfl, rfl, hm⟩ := e1
      simp only [Prod.mk.injEq] at hp
      obtain ⟨rfl, hs2, _⟩ := hp
      have hd : d.arr = r'.data.arr := by
        simp only [RBBuf.fetch, DirectBuf.fetch, bind_eq_ok, Go.pure_def, ok.injEq, Prod.mk.injEq] at hf
        obtain ⟨⟨d₂, b⟩, ⟨_, _, hf⟩, rfl, rfl⟩ := hf
        cases hg : r₂.blocks.getLast? with
        | none => rw [hg] at hf; simp at hf
        | some k =>
          rw [hg] at hf
          cases hk : k.completed with
          | true => simp [hk] at hf
          | false =>
            simp only [hk, Bool.false_eq_true, if_false, bind_eq_ok, Go.pure_def, ok.injEq, Prod.mk.injEq, Option.some.injEq] at hf
            obtain ⟨u, hu, rfl, rfl⟩ := hf
            unfold SliceRef.sub at hu
            split at hu
            · simp only [ok.injEq] at hu; subst hu; rfl
            · simp at hu
      refine ⟨d, r', rfl, ?_, hd⟩
      rw [idx_eq_ok] at hr
      rw [hs2] at hr
      have hlt := (List.getElem?_eq_some_iff.mp hr).1
      simp only [put, StreamOp.index]
      rw [List.getElem?_set_self hlt]

/-- Slices fetched from other streams are not in the array of a buffer. -/
structure Apart (s : StreamsBuf) (m : Mem) (h : List (Nat × SliceRef)) : Prop where
  rel : ∃ ts, R (s, m) ts
  apart : ∀ j d, (j, d) ∈ h → d.arr < m.length ∧
    ∀ (i : Nat) (r : RBBuf), i ≠ j → s.buffers[i]? = some r → d.arr ≠ r.data.arr

theorem Apart.step {s : StreamsBuf} {m : Mem} {h : List (Nat × SliceRef)} (H : Apart s m h) {o : StreamOp} {s' : StreamsBuf}
    {m' : Mem} {h' : List (Nat × SliceRef)} (e : o.client (s, m, h) = ok (s', m', h')) :
    Apart s' m' h' ∧ ∀ j d, (j, d) ∈ h → o.index ≠ j → m'.read d = m.read d := by
  obtain ⟨⟨ts, hR⟩, hA⟩ := H
  obtain ⟨⟨x, er⟩, eh⟩ := client_run e
  have hst := hR.frame er
  have hR' : ∃ ts', R (s', m') ts' := by
    have := hR.sim o
    rw [er] at this
    cases ha : o.alone ts with
    | ok a => rw [ha] at this; exact ⟨_, this.2⟩
    | err _ => rw [ha] at this; exact this.elim
    | panic => rw [ha] at this; exact this.elim
  have hlen := hst.len
  simp only at hlen
  obtain ⟨ts', hR''⟩ := hR'
  refine ⟨⟨⟨ts', hR''⟩, ?_⟩, ?_⟩
  · have old : ∀ j d, (j, d) ∈ h → d.arr < m'.length ∧
        ∀ (i : Nat) (r : RBBuf), i ≠ j → s'.buffers[i]? = some r → d.arr ≠ r.data.arr := by
      intro j d hm
      obtain ⟨a1, a2⟩ := hA j d hm
      refine ⟨by omega, ?_⟩
      intro i r hij hr
      rcases hst.bufs i r hr with h1 | ⟨h1, h2⟩
      · exact a2 i r hij h1
      · rcases h2 with h2 | ⟨q, hq, h2⟩
        · simp only at h2; omega
        · rw [h2]; subst h1; exact a2 _ q hij hq
    rcases eh with rfl | ⟨d, q, rfl, hq, hd⟩
    · exact old
    · intro j d' hm
      rcases List.mem_cons.mp hm with hm | hm
      · simp only [Prod.mk.injEq] at hm
        obtain ⟨rfl, rfl⟩ := hm
        refine ⟨by rw [hd]; exact hR''.lt hq, ?_⟩
        intro i r hij hr
        rw [hd]
        exact hR''.sep _ _ q r (Ne.symm hij) hq hr
      · exact old j d' hm
  · intro j d hm hne
    obtain ⟨a1, a2⟩ := hA j d hm
    rw [Mem.read_eq, Mem.read_eq]
    have := hst.arr d.arr a1 (fun r hr => a2 _ r hne hr)
    simp only at this
    rw [this]

theorem Apart.run {ops : List StreamOp} : ∀ {s : StreamsBuf} {m : Mem} {h : List (Nat × SliceRef)}, Apart s m h →
    ∀ {s' m' h'}, runStreams ops (s, m, h) = ok (s', m', h') → Apart s' m' h' := by
  induction ops with
  | nil => intro s m h H s' m' h' e; simp [runStreams] at e; obtain ⟨rfl, rfl, rfl⟩ := e; exact H
  | cons o os ih =>
    intro s m h H s' m' h' e
    simp only [runStreams, bind_eq_ok] at e
    obtain ⟨⟨s₁, m₁, h₁⟩, e1, e2⟩ := e
    exact ih (H.step e1).1 e2

theorem Apart_new (m : Mem) : Apart ⟨[]⟩ m [] := ⟨⟨[], R_new m⟩, by simp⟩

end StreamsBuf
end Avf
