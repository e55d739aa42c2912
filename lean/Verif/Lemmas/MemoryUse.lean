import Verif.Props.Sizes
import Verif.Props.RingBuffer
import Verif.Lemmas.DirectPipe
import Verif.Spec.MemoryUse
/-! # How large the arrays of buffers get -/
namespace Avf
open Go

theorem Within.here {Op S O : Type} {step : Op → S → Go (O × S)} {f : S → Nat} {N : Nat} {os : List Op} {s : S}
    (h : Within step f N os s) : f s ≤ N := by
  cases os with
  | nil => exact h
  | cons o os => exact h.1

/-- Histories: a simulation whose steps keep a bound on the concrete state, given the abstract states before and after. -/
theorem Within.run {Op S T O : Type} {R : S → T → Prop} {f : Op → S → Go (O × S)} {g : Op → T → Go (O × T)} {u : T → Nat} {N B : Nat} {len : S → Nat}
    (hs : ∀ o s t, R s t → Agree R (f o s) (g o t))
    (hl : ∀ o s t x s' t', R s t → f o s = ok (x, s') → g o t = ok (x, t') → R s' t' → u t' ≤ N → len s ≤ B → len s' ≤ B) :
    ∀ (os : List Op) (s s' : S) (t : T) (xs : List O), R s t → Within g u N os t → len s ≤ B → runTrace f os s = ok (xs, s') → len s' ≤ B := by
  intro os
  induction os with
  | nil => intro s s' t xs _ _ hb e; simp only [runTrace, ok.injEq, Prod.mk.injEq] at e; rw [← e.2]; exact hb
  | cons o os ih =>
    intro s s' t xs hr hw hb e
    simp only [runTrace, bind_eq_ok, pure_def, ok.injEq, Prod.mk.injEq] at e
    obtain ⟨⟨x, s1⟩, e1, ⟨ys, s2⟩, e2, _, rfl⟩ := e
    have ha := hs o s t hr
    rw [e1] at ha
    cases hg : g o t with
    | ok p =>
      obtain ⟨y, t1⟩ := p
      rw [hg] at ha
      obtain ⟨rfl, hr1⟩ := ha
      have hw1 := hw.2 x t1 hg
      exact ih s1 s2 t1 ys hr1 hw1 (hl o s t x s1 t1 hr e1 hg hr1 hw1.here hb) e2
    | err _ => rw [hg] at ha; exact ha.elim
    | panic => rw [hg] at ha; exact ha.elim

/-- `Write` leaves the array or makes one of one and a half times the bytes since the buffer was last empty; nothing else
changes the array. -/
theorem DirectBuf.len_step {o : BufOp} {b b' : DirectBuf} {m m' : Mem} {x : BufObs} (e : o.runD (b, m) = ok (x, (b', m'))) :
    b'.data.len = b.data.len ∨ b'.data.len = b'.nextOffset * 3 / 2 := by
  cases o with
  | write d =>
    simp only [BufOp.runD, DirectBuf.write, DirectBuf.alloc, bind_eq_ok, pure_def, ok.injEq, Prod.mk.injEq] at e
    obtain ⟨⟨b1, m1⟩, ⟨⟨s, b2, m2⟩, ⟨_, _, ⟨b3, m3⟩, e3, s', _, rfl, rfl, rfl⟩, rfl, rfl⟩, _, rfl, rfl⟩ := e
    have ho : b.openBlock.data = b.data ∧ b.openBlock.nextOffset = b.nextOffset := by
      unfold DirectBuf.openBlock; split <;> (try split) <;> exact ⟨rfl, rfl⟩
    split at e3
    · simp only [DirectBuf.grow, bind_eq_ok, pure_def, ok.injEq, Prod.mk.injEq] at e3
      obtain ⟨_, _, rfl, rfl⟩ := e3
      right; rfl
    · simp only [ok.injEq, Prod.mk.injEq] at e3
      obtain ⟨rfl, rfl⟩ := e3
      left; rw [← ho.1]
  | fetch =>
    left
    simp only [BufOp.runD, DirectBuf.fetch, bind_eq_ok, pure_def, ok.injEq, Prod.mk.injEq] at e
    obtain ⟨⟨s, b1⟩, ⟨_, _, e1⟩, _, rfl, rfl⟩ := e
    split at e1
    · cases e1
    · split at e1
      · simp only [ok.injEq, Prod.mk.injEq] at e1; rw [e1.2]
      · simp only [bind_eq_ok, ok.injEq, Prod.mk.injEq] at e1
        obtain ⟨_, _, _, rfl⟩ := e1; rfl
  | pop =>
    left
    simp only [BufOp.runD, DirectBuf.pop, bind_eq_ok, pure_def, ok.injEq, Prod.mk.injEq] at e
    obtain ⟨_, ⟨_, _, rfl⟩, _, rfl, rfl⟩ := e
    unfold DirectBuf.resetIfEmpty; split <;> rfl
  | popBack =>
    left
    simp only [BufOp.runD, DirectBuf.popBack, bind_eq_ok, pure_def, ok.injEq, Prod.mk.injEq] at e
    obtain ⟨_, ⟨_, _, _, _, rfl⟩, _, rfl, rfl⟩ := e
    unfold DirectBuf.resetIfEmpty; split <;> rfl
  | clear => left; simp only [BufOp.runD, ok.injEq, Prod.mk.injEq] at e; rw [← e.2.1]; rfl
  | pending => left; simp only [BufOp.runD, ok.injEq, Prod.mk.injEq] at e; rw [← e.2.1]
  | size => left; simp only [BufOp.runD, ok.injEq, Prod.mk.injEq] at e; rw [← e.2.1]
  | data =>
    left
    simp only [BufOp.runD, bind_eq_ok, pure_def, ok.injEq, Prod.mk.injEq] at e
    obtain ⟨_, _, _, rfl, _⟩ := e; rfl
  | splitOff =>
    left
    simp only [BufOp.runD, DirectBuf.splitOff, bind_eq_ok, pure_def, ok.injEq, Prod.mk.injEq] at e
    obtain ⟨⟨_, _⟩, ⟨_, _, rfl, rfl⟩, _, rfl, _⟩ := e; rfl

theorem DirectPipe.len_step {o : PipeOp} {p p' : DirectPipe} {m m' : Mem} {x : BufObs} (e : o.run (p, m) = ok (x, (p', m'))) :
    p'.data.len = p.data.len ∨ p'.data.len = p'.size * 2 := by
  cases o with
  | write d =>
    simp only [PipeOp.run, DirectPipe.write, bind_eq_ok, pure_def, ok.injEq, Prod.mk.injEq] at e
    obtain ⟨⟨n, p1, m1⟩, ⟨⟨p2, m2⟩, e2, s, _, rfl, rfl, rfl⟩, _, rfl, rfl⟩ := e
    split at e2
    · simp only [bind_eq_ok, ok.injEq, Prod.mk.injEq] at e2
      obtain ⟨_, _, rfl, rfl⟩ := e2
      right; rfl
    · simp only [ok.injEq, Prod.mk.injEq] at e2
      obtain ⟨rfl, rfl⟩ := e2
      left; rfl
  | fetch =>
    left
    simp only [PipeOp.run, DirectPipe.fetch, bind_eq_ok, pure_def, ok.injEq, Prod.mk.injEq] at e
    obtain ⟨⟨s, p1⟩, ⟨_, _, rfl, rfl⟩, _, rfl, rfl⟩ := e; rfl
  | back n => left; simp only [PipeOp.run, ok.injEq, Prod.mk.injEq] at e; rw [← e.2.1]; rfl
  | pending => left; simp only [PipeOp.run, ok.injEq, Prod.mk.injEq] at e; rw [← e.2.1]

namespace RingBuf
variable {α : Type}

theorem store_len {r r' : RingBuf α} {v : α} (e : r.store v = ok r') : r'.data.length = r.data.length ∧ r'.size = r.size + 1 := by
  simp only [store, bind_eq_ok, pure_def, ok.injEq] at e
  obtain ⟨d, e1, rfl⟩ := e
  refine ⟨?_, rfl⟩
  unfold setIdx at e1
  split at e1
  · simp only [ok.injEq] at e1; rw [← e1]; simp
  · cases e1

theorem pop_len {r r' : RingBuf α} {v : α} (e : r.pop = ok (v, r')) : r'.data.length = r.data.length := by
  unfold pop at e
  split at e
  · simp only [ok.injEq, Prod.mk.injEq] at e; rw [e.2]
  · simp only [bind_eq_ok, pure_def] at e
    obtain ⟨_, _, d, e1, e⟩ := e
    have : d.length = r.data.length := by
      unfold setIdx at e1
      split at e1
      · simp only [ok.injEq] at e1; rw [← e1]; simp
      · cases e1
    split at e <;> · simp only [ok.injEq, Prod.mk.injEq] at e; rw [← e.2]; exact this

/-- `Push` leaves the array or doubles it. -/
theorem QOp.len_step {o : QOp α} {r r' : RingBuf α} {x : Obs α} (e : o.run r = ok (x, r')) :
    r'.data.length = r.data.length ∨ r'.data.length + 2 = r'.size * 2 := by
  cases o with
  | push v =>
    simp only [QOp.run, bind_eq_ok, pure_def, ok.injEq, Prod.mk.injEq] at e
    obtain ⟨r1, e1, _, rfl⟩ := e
    simp only [RingBuf.qPush, bind_eq_ok] at e1
    obtain ⟨r2, e2, e3⟩ := e1
    obtain ⟨h1, h2⟩ := store_len e3
    split at e2
    · simp only [bind_eq_ok, pure_def, ok.injEq] at e2
      obtain ⟨⟨h, t⟩, _, a1, e4, a2, e5, rfl⟩ := e2
      right
      have l1 : a1.length = r.size * 2 := by
        unfold copyAt at e4; split at e4
        · simp only [ok.injEq] at e4; rw [← e4]; simp [overwrite]; omega
        · cases e4
      have l2 : a2.length = a1.length := by
        unfold copyAt at e5; split at e5
        · simp only [ok.injEq] at e5; rw [← e5]; simp [overwrite]; omega
        · cases e5
      rw [h1, h2]
      simp only
      omega
    · simp only [ok.injEq] at e2; left; rw [h1, e2]
  | pop =>
    left
    simp only [QOp.run, bind_eq_ok, pure_def, ok.injEq, Prod.mk.injEq] at e
    obtain ⟨⟨_, r1⟩, e1, _, rfl⟩ := e
    exact pop_len e1
  | popBack =>
    left
    simp only [QOp.run, bind_eq_ok, pure_def, ok.injEq, Prod.mk.injEq] at e
    obtain ⟨⟨_, r1⟩, e1, _, rfl⟩ := e
    simp only [RingBuf.qPopBack, bind_eq_ok] at e1
    obtain ⟨_, _, _, _, e1⟩ := e1
    split at e1 <;> · simp only [pure_def, ok.injEq, Prod.mk.injEq] at e1; obtain ⟨_, rfl⟩ := e1; rfl
  | peek i =>
    left
    simp only [QOp.run, bind_eq_ok, pure_def, ok.injEq, Prod.mk.injEq] at e
    obtain ⟨_, _, _, rfl⟩ := e; rfl
  | head =>
    left
    simp only [QOp.run, bind_eq_ok, pure_def, ok.injEq, Prod.mk.injEq] at e
    obtain ⟨_, _, _, rfl⟩ := e; rfl
  | tail =>
    left
    simp only [QOp.run, bind_eq_ok, pure_def, ok.injEq, Prod.mk.injEq] at e
    obtain ⟨_, _, _, rfl⟩ := e; rfl
  | size => left; simp only [QOp.run, ok.injEq, Prod.mk.injEq] at e; rw [← e.2]
  | isEmpty => left; simp only [QOp.run, ok.injEq, Prod.mk.injEq] at e; rw [← e.2]
  | data =>
    left
    simp only [QOp.run, bind_eq_ok, pure_def, ok.injEq, Prod.mk.injEq] at e
    obtain ⟨_, _, _, rfl⟩ := e; rfl
  | clear => left; simp only [QOp.run, ok.injEq, Prod.mk.injEq] at e; rw [← e.2]; rfl

end RingBuf
end Avf
