import Verif.Lemmas.RBBufSim
import Verif.Spec.BlockClient
/-! # RBBlockBuffer: where the blocks lie, and the invariant of a client that keeps fetched slices -/
set_option linter.unusedSimpArgs false
namespace Avf
open Go

/-- Blocks that lie one behind the other from `i` to `e`. -/
def Chain : Nat → List Block → Nat → Prop
  | i, [], e => i = e
  | i, k :: ks, e => k.index = i ∧ Chain (i + k.size) ks e

theorem Chain.append {xs ys : List Block} : ∀ {i e : Nat}, Chain i (xs ++ ys) e ↔ ∃ j, Chain i xs j ∧ Chain j ys e := by
  induction xs with
  | nil => intro i e; simp [Chain]
  | cons k ks ih =>
    intro i e
    simp only [List.cons_append, Chain, ih]
    constructor
    · rintro ⟨h1, j, h2, h3⟩; exact ⟨j, ⟨h1, h2⟩, h3⟩
    · rintro ⟨j, ⟨h1, h2⟩, h3⟩; exact ⟨h1, j, h2, h3⟩

/-- Total size of blocks. -/
def blockSum (bs : List Block) : Nat := (bs.map Block.size).sum

@[simp] theorem blockSum_nil : blockSum [] = 0 := rfl
@[simp] theorem blockSum_cons (k : Block) (ks : List Block) : blockSum (k :: ks) = k.size + blockSum ks := by
  simp [blockSum]
@[simp] theorem blockSum_append (xs ys : List Block) : blockSum (xs ++ ys) = blockSum xs + blockSum ys := by
  simp [blockSum]

theorem Chain.sum {bs : List Block} : ∀ {i e : Nat}, Chain i bs e → i + blockSum bs = e := by
  induction bs with
  | nil => intro i e h; simpa [Chain] using h
  | cons k ks ih => intro i e h; have := ih h.2; simp; omega

theorem Chain.mem {bs : List Block} : ∀ {i e : Nat}, Chain i bs e → ∀ k ∈ bs, i ≤ k.index ∧ k.index + k.size ≤ e := by
  induction bs with
  | nil => intro i e _ k hk; simp at hk
  | cons k ks ih =>
    intro i e h x hx
    have hs := h.2.sum
    rcases List.mem_cons.mp hx with rfl | hx
    · have := h.1; omega
    · have := ih h.2 x hx; omega

theorem Chain.snoc {bs : List Block} {k : Block} {i e : Nat} :
    Chain i (bs ++ [k]) e ↔ Chain i bs k.index ∧ k.index + k.size = e := by
  rw [Chain.append]
  simp only [Chain]
  constructor
  · rintro ⟨j, h1, rfl, h2⟩; exact ⟨h1, h2⟩
  · rintro ⟨h1, h2⟩; exact ⟨_, h1, rfl, h2⟩

theorem Chain.head {bs : List Block} {k : Block} {i e : Nat} (h : Chain i bs e) (hk : bs.head? = some k) : k.index = i := by
  cases bs with
  | nil => simp at hk
  | cons x xs => simp at hk; subst hk; exact h.1

/-- The two shapes of a ring: not wrapped, or wrapped with the front part ending at or before the start of the rest. -/
inductive Geo (bs : List Block) (cap : Nat) : Prop
  | linear (i e : Nat) (h : Chain i bs e) (hc : e ≤ cap)
  | wrapped (as cs : List Block) (i e t : Nat) (hb : bs = as ++ cs) (ha : as ≠ []) (hcs : cs ≠ [])
      (h : Chain i as e) (h' : Chain 0 cs t) (ht : t ≤ i) (hi : 0 < i) (hc : e ≤ cap)

theorem Geo.mono {bs : List Block} {cap cap' : Nat} (h : Geo bs cap) (hc : cap ≤ cap') : Geo bs cap' := by
  cases h with
  | linear i e h h' => exact .linear i e h (by omega)
  | wrapped as cs i e t h1 h2 h3 h4 h5 h6 h7 h8 => exact .wrapped as cs i e t h1 h2 h3 h4 h5 h6 h7 (by omega)

theorem Geo.tail {bs : List Block} {cap : Nat} (h : Geo bs cap) : Geo (bs.drop 1) cap := by
  cases h with
  | linear i e h h' =>
    cases bs with
    | nil => exact .linear i e h h'
    | cons k ks => exact .linear _ e h.2 h'
  | wrapped as cs i e t h1 h2 h3 h4 h5 h6 h7 h8 =>
    cases as with
    | nil => exact absurd rfl h2
    | cons k ks =>
      have hs := h4.sum
      subst h1
      simp only [List.cons_append, List.drop_succ_cons, List.drop_zero]
      cases ks with
      | nil => exact .linear 0 t h5 (by omega)
      | cons y ys => exact .wrapped (y :: ys) cs _ e t rfl (by simp) h3 h4.2 h5 (by omega) (by omega) h8

theorem Geo.dropLast {bs : List Block} {cap : Nat} (h : Geo bs cap) : Geo bs.dropLast cap := by
  cases h with
  | linear i e h h' =>
    rcases list_snoc_cases bs with rfl | ⟨xs, x, rfl⟩
    · exact .linear i e h h'
    · have := Chain.snoc.mp h
      rw [List.dropLast_concat]; exact .linear i _ this.1 (by omega)
  | wrapped as cs i e t h1 h2 h3 h4 h5 h6 h7 h8 =>
    rcases list_snoc_cases cs with rfl | ⟨xs, x, rfl⟩
    · exact absurd rfl h3
    · have := Chain.snoc.mp h5
      rw [h1, ← List.append_assoc, List.dropLast_concat]
      cases xs with
      | nil => rw [List.append_nil]; exact .linear i e h4 h8
      | cons y ys => exact .wrapped as _ i e _ rfl h2 (by simp) h4 this.1 (by omega) h7 h8

/-- Geometry does not depend on the fetched flags. -/
theorem Geo.setLast {bs : List Block} {k k' : Block} {cap : Nat} (h : Geo (bs ++ [k]) cap) (h1 : k'.index = k.index)
    (h2 : k'.size = k.size) : Geo (bs ++ [k']) cap := by
  cases h with
  | linear i e h h' =>
    refine .linear i e ?_ h'
    rw [Chain.snoc] at h ⊢; rw [h1, h2]; exact h
  | wrapped as cs i e t g1 g2 g3 h4 h5 h6 h7 h8 =>
    rcases list_snoc_cases cs with rfl | ⟨xs, x, rfl⟩
    · exact absurd rfl g3
    · rw [← List.append_assoc] at g1
      obtain ⟨e1, e2⟩ := List.append_inj' g1 rfl
      simp at e2; subst e1; subst e2
      refine .wrapped as (xs ++ [k']) i e t (by simp) g2 (by simp) h4 ?_ h6 h7 h8
      rw [Chain.snoc] at h5 ⊢; rw [h1, h2]; exact h5

namespace RBBuf

/-- The ring is exactly full after wrapping: the end of the last block meets the start of the first one although bytes
are held. -/
def Full (r : RBBuf) : Prop := r.headTail.2 = r.headTail.1 ∧ 0 < blockSum r.blocks

instance (r : RBBuf) : Decidable r.Full := by unfold Full; infer_instance

/-- The client's entry of a block. -/
def entry (r : RBBuf) (m : Mem) (k : Block) : Option (SliceRef × Bytes) :=
  if k.completed then some (r.ref k, m.read (r.ref k)) else none

structure Inv (r : RBBuf) (m : Mem) (h : Held) : Prop where
  wf : WF r m
  geo : Geo r.blocks r.capacity
  held : ∃ disc : Held, h = disc ++ r.blocks.map (r.entry m) ∧ disc.length = r.discardBlockCount ∧
    ∀ e ∈ disc, ∃ s c, e = some (s, c) ∧ s.arr < m.length ∧ s.arr ≠ r.data.arr ∧ m.read s = c

theorem headTail_tail {r : RBBuf} {bs : List Block} {k : Block} (h : r.blocks = bs ++ [k]) : r.headTail.2 = k.index + k.size := by
  unfold headTail
  rw [h, List.getLast?_append]
  cases bs <;> simp

theorem headTail_nil {r : RBBuf} (h : r.blocks = []) : r.headTail = (0, 0) := by
  unfold headTail; rw [h]; rfl

theorem opened_geo {r : RBBuf} {m : Mem} (h : WF r m) (hg : Geo r.blocks r.capacity) {bs : List Block} {old : Block}
    (ho : r.blocks = bs ++ [old] ∨ r.blocks = bs ∧ old = ⟨r.headTail.2, 0, false⟩ ∧
      ∀ k, bs.getLast? = some k → k.completed = true) : Geo (bs ++ [old]) r.opened.capacity := by
  have hc : r.capacity ≤ r.opened.capacity := by
    rw [r.opened_fields.2.2.2.2]; split
    · exact h.cap
    · exact Nat.le_refl _
  rcases ho with ho | ⟨ho, e, _⟩
  · rw [← ho]; exact hg.mono hc
  · refine Geo.mono ?_ hc
    rw [ho] at hg
    rcases list_snoc_cases bs with rfl | ⟨xs, x, rfl⟩
    · rw [headTail_nil ho] at e
      subst e
      exact .linear 0 0 ⟨rfl, rfl⟩ (Nat.zero_le _)
    · rw [headTail_tail ho] at e
      cases hg with
      | linear i e' h h' =>
        refine .linear i e' ?_ h'
        rw [Chain.snoc, e]
        have := Chain.snoc.mp h
        exact ⟨by rw [this.2]; exact h, this.2⟩
      | wrapped as cs i e' t g1 g2 g3 h4 h5 h6 h7 h8 =>
        refine .wrapped as (cs ++ [old]) i e' t (by rw [g1]; simp) g2 (by simp) h4 ?_ h6 h7 h8
        rcases list_snoc_cases cs with rfl | ⟨ys, y, rfl⟩
        · exact absurd rfl g3
        · rw [← List.append_assoc] at g1
          obtain ⟨e1, e2⟩ := List.append_inj' g1 rfl
          simp at e2; subst e2
          rw [Chain.snoc, e]
          have := Chain.snoc.mp h5
          exact ⟨by rw [this.2]; exact h5, this.2⟩

/-- `Write` keeps the invariant, unless the ring is exactly full after wrapping, or it allocates new memory while blocks
discarded by an earlier allocation have not been popped. -/
theorem Inv.write {r : RBBuf} {m : Mem} {h : Held} (H : Inv r m h) {d : Bytes} {r' : RBBuf} {m' : Mem}
    (e : r.write m d = ok (r', m')) (hf : ¬ r.Full) (hd : r'.data.arr ≠ r.data.arr → r.discardBlockCount = 0) :
    Inv r' m' h.write := by
  obtain ⟨h1, hg, disc, hh, hdl, hdisc⟩ := H
  obtain ⟨bs, old, o1, o2, o3, o4, o5⟩ := r.opened_blocks
  have hfit := h1.opened_fits o5
  obtain ⟨r₁, m₁, k, e₁, w1, w2, w3, w4, w5, w6, w7, w8, w9, w10, w11⟩ := write_ok h1 d o1 o2 o3 o4 hfit
  rw [e] at e₁
  obtain ⟨rfl, rfl⟩ : r' = r₁ ∧ m' = m₁ := by simpa using e₁
  clear e₁
  have hbs : ∀ k ∈ bs, k.completed = true := by
    rcases o5 with o5 | ⟨o5, _, o6⟩
    · have := h1.done; rw [o5] at this; simpa using this
    · intro k hk
      have := h1.done
      rw [o5] at this
      rcases list_snoc_cases bs with rfl | ⟨bs, x, rfl⟩
      · simp at hk
      · rcases List.mem_append.mp hk with hk | hk
        · exact this k (by simpa using hk)
        · simp at hk; subst hk; exact o6 k (by simp)
  have hw : h.write = disc ++ bs.map (r.entry m) ++ [none] := by
    rw [hh]
    rcases o5 with o5 | ⟨o5, _, o6⟩
    · rw [o5]
      simp [Held.write, entry, o2]
    · rw [o5, Held.write]
      rcases list_snoc_cases bs with rfl | ⟨bs, x, rfl⟩
      · simp only [List.map_nil, List.append_nil]
        rcases list_snoc_cases disc with rfl | ⟨ds, y, rfl⟩
        · rfl
        · obtain ⟨s, c, rfl, _⟩ := hdisc y (by simp)
          simp
      · have := o6 x (by simp)
        simp [entry, this]
  rw [hw]
  have hog := opened_geo h1 hg o5
  have hnof : ∀ as cs i e t, bs ++ [old] = as ++ cs → as ≠ [] → cs ≠ [] → Chain i as e → Chain 0 cs t → t ≤ i → 0 < i →
      r.headTail.1 = i ∧ r.headTail.2 = t ∧ t < i := by
    intro as cs i e t g1 g2 g3 g4 g5 g6 g7
    obtain ⟨k0, hk0, hk1⟩ := o4
    have e1 : r.headTail.1 = i := by
      rw [← hk1]
      refine g4.head ?_
      rw [g1] at hk0
      cases as with
      | nil => exact absurd rfl g2
      | cons y ys => simpa using hk0
    have e2 : r.headTail.2 = t := by
      rw [← o3]
      rcases list_snoc_cases cs with rfl | ⟨ys, y, rfl⟩
      · exact absurd rfl g3
      · rw [← List.append_assoc] at g1
        obtain ⟨_, g1⟩ := List.append_inj' g1 rfl
        simp at g1; subst g1
        exact (Chain.snoc.mp g5).2
    refine ⟨e1, e2, ?_⟩
    rcases Nat.lt_or_ge t i with hlt | hge
    · exact hlt
    · exfalso
      apply hf
      refine ⟨by omega, ?_⟩
      have hs : blockSum r.blocks = blockSum (bs ++ [old]) := by
        rcases o5 with o5 | ⟨o5, o6, _⟩
        · rw [o5]
        · rw [o5, o6]; simp
      rw [hs, g1, blockSum_append]
      have := g5.sum
      omega
  have hlin : ∀ i e, Chain i (bs ++ [old]) e → r.headTail.1 = i ∧ r.headTail.2 = e ∧ i ≤ e := by
    intro i e hc
    obtain ⟨k0, hk0, hk1⟩ := o4
    refine ⟨?_, ?_, ?_⟩
    · rw [← hk1]; exact hc.head hk0
    · rw [← o3]; exact (Chain.snoc.mp hc).2
    · have := hc.sum; omega
  -- the entries of the older blocks are unchanged
  have hent : r'.data = r.data → (∀ k ∈ bs, m'.read (r.ref k) = m.read (r.ref k)) →
      bs.map (r'.entry m') = bs.map (r.entry m) := by
    intro hdt hrd
    apply List.map_congr_left
    intro k hk
    have er : r'.ref k = r.ref k := by unfold ref; rw [hdt]
    unfold entry
    rw [er, hrd k hk]
  have hkeep : r'.data = r.data → r'.discardBlockCount = r.discardBlockCount →
      (∀ k ∈ bs, m'.read (r.ref k) = m.read (r.ref k)) →
      (∀ s : SliceRef, s.arr ≠ r.data.arr → m'.read s = m.read s) → r'.blocks = bs ++ [k] →
      Geo r'.blocks r'.capacity → Inv r' m' (disc ++ bs.map (r.entry m) ++ [none]) := by
    intro hdt hdc hrd hfr hb hgeo
    refine ⟨⟨w6, w7, w9, ?_, w8, ?_⟩, hgeo, disc, ?_, by rw [hdc]; exact hdl, ?_⟩
    · intro k' hk'
      rw [hb] at hk'
      rcases List.mem_append.mp hk' with hk' | hk'
      · have := hfit k' (by simp [hk']); rw [hdt]; exact this
      · simp at hk'; subst hk'; exact w10
    · rw [hb]; simp; exact hbs
    · rw [hb, List.map_append, hent hdt hrd]
      simp [entry, w4]
    · intro e he
      obtain ⟨s, c, q1, q2, q3, q4⟩ := hdisc e he
      exact ⟨s, c, q1, by omega, by rw [hdt]; exact q3, by rw [hfr s q3, q4]⟩
  have href : ∀ k, (r.ref k).arr = r.data.arr := fun _ => rfl
  rcases w11 with w | w | w
  · -- in place
    have hk : k = ⟨old.index, old.size + d.length, false⟩ := by
      have := w3; rw [w.blocks] at this; simp at this; exact this.symm
    have hb : r'.blocks = bs ++ [k] := by rw [w.blocks, hk]
    cases hog with
    | linear i e h hc =>
      obtain ⟨l1, l2, l3⟩ := hlin i e h
      refine hkeep w.data w.discard ?_ (fun s hs => w.frame s (.inl hs)) hb ?_
      · intro x hx
        refine w.frame _ (.inr (.inl ?_))
        have := (Chain.snoc.mp h).1.mem x hx
        have := (Chain.snoc.mp h).2
        simp only [ref]; omega
      · rw [hb, w.cap]
        refine .linear i (e + d.length) ?_ ?_
        · rw [Chain.snoc, hk]
          have := Chain.snoc.mp h
          exact ⟨this.1, by simp only; omega⟩
        · rcases w.cond with c | c <;> omega
    | wrapped as cs i e t g1 g2 g3 g4 g5 g6 g7 g8 =>
      obtain ⟨l1, l2, l3⟩ := hnof as cs i e t g1 g2 g3 g4 g5 g6 g7
      have hc : t + d.length ≤ i := by rcases w.cond with c | c <;> omega
      rcases list_snoc_cases cs with rfl | ⟨ys, y, rfl⟩
      · exact absurd rfl g3
      · rw [← List.append_assoc] at g1
        obtain ⟨gb, g1'⟩ := List.append_inj' g1 rfl
        simp at g1'; subst g1'
        have h5 := Chain.snoc.mp g5
        refine hkeep w.data w.discard ?_ (fun s hs => w.frame s (.inl hs)) hb ?_
        · intro x hx
          refine w.frame _ ?_
          rw [gb] at hx
          rcases List.mem_append.mp hx with hx | hx
          · have := g4.mem x hx
            exact .inr (.inr (by simp only [ref]; omega))
          · have := h5.1.mem x hx
            exact .inr (.inl (by simp only [ref]; omega))
        · rw [hb, w.cap, gb]
          refine .wrapped as (ys ++ [k]) i e (t + d.length) (by simp) g2 (by simp) g4 ?_ hc g7 g8
          rw [Chain.snoc, hk]
          exact ⟨h5.1, by simp only; omega⟩
  · -- the pending block moves to the front
    have hk : k = ⟨0, old.size + d.length, false⟩ := by
      have := w3; rw [w.blocks] at this; simp at this; exact this.symm
    have hb : r'.blocks = bs ++ [k] := by rw [w.blocks, hk]
    obtain ⟨c1, c2, c3⟩ := w.cond
    cases hog with
    | linear i e h hc =>
      obtain ⟨l1, l2, l3⟩ := hlin i e h
      have hs := Chain.snoc.mp h
      refine hkeep w.data w.discard ?_ (fun s hs => w.frame s (.inl hs)) hb ?_
      · intro x hx
        have := h.mem x (by simp [hx])
        exact w.frame _ (.inr (by simp only [ref]; omega))
      · rw [hb, w.cap]
        cases bs with
        | nil =>
          have : i = old.index := hs.1
          refine .linear 0 (old.size + d.length) ?_ (by omega)
          rw [hk]; simp [Chain]
        | cons y ys =>
          refine .wrapped (y :: ys) [k] i old.index (old.size + d.length) rfl (by simp) (by simp) hs.1 ?_ (by omega) (by omega) (Nat.le_refl _)
          rw [hk]; simp [Chain]
    | wrapped as cs i e t g1 g2 g3 g4 g5 g6 g7 g8 =>
      obtain ⟨l1, l2, l3⟩ := hnof as cs i e t g1 g2 g3 g4 g5 g6 g7
      omega
  · -- new memory
    have hk : k = ⟨0, old.size + d.length, false⟩ := by
      have := w3; rw [w.blocks] at this; simp at this; exact this.symm
    have hb : r'.blocks = [k] := by rw [w.blocks, hk]
    have hz : r.discardBlockCount = 0 := hd (by rw [w.data]; have := h1.arr; omega)
    have hdn : disc = [] := by rw [hz] at hdl; simpa using hdl
    refine ⟨⟨w6, w7, w9, ?_, w8, ?_⟩, ?_, bs.map (r.entry m), ?_, by rw [w.discard]; simp, ?_⟩
    · rw [hb]; simpa using w10
    · rw [hb]; simp
    · rw [hb, w.cap]
      refine .linear 0 (old.size + d.length) ?_ ?_
      · rw [hk]; simp [Chain]
      · rw [hk] at w10; simpa using w10
    · rw [hb, hdn]; simp [entry, w4]
    · intro e he
      obtain ⟨x, hx, rfl⟩ := List.mem_map.mp he
      refine ⟨r.ref x, m.read (r.ref x), by simp [entry, hbs x hx], ?_, ?_, w.frame _ h1.arr⟩
      · have := h1.arr; simp only [ref]; omega
      · rw [w.data]; have := h1.arr; simp only [ref]; omega

/-- Shortening the queue keeps the invariant. -/
theorem Inv.shorten {r r' : RBBuf} {m : Mem} {disc : Held} (h1 : WF r m) (hg : Geo r.blocks r.capacity)
    (hd : disc.length = r.discardBlockCount)
    (hdisc : ∀ e ∈ disc, ∃ s c, e = some (s, c) ∧ s.arr < m.length ∧ s.arr ≠ r.data.arr ∧ m.read s = c)
    (d1 : r'.data = r.data) (d2 : r'.blocks = r.blocks.drop 1 ∨ r'.blocks = r.blocks.dropLast)
    (d3 : r'.nextOffset = 0) (d4 : r.capacity ≤ r'.capacity) (d5 : r'.capacity ≤ r.data.len)
    (d6 : r'.discardBlockCount = r.discardBlockCount) :
    Inv r' m (disc ++ r'.blocks.map (r.entry m)) := by
  have hmem : ∀ x ∈ r'.blocks, x ∈ r.blocks := by
    rcases d2 with d2 | d2 <;> rw [d2] <;> intro x hx
    · exact List.mem_of_mem_drop hx
    · exact List.dropLast_subset _ hx
  have hgeo : Geo r'.blocks r'.capacity := by
    rcases d2 with d2 | d2 <;> rw [d2]
    · exact hg.tail.mono d4
    · exact hg.dropLast.mono d4
  have hdone : ∀ x ∈ r'.blocks.dropLast, x.completed = true := by
    intro x hx
    apply h1.done
    rcases d2 with d2 | d2 <;> rw [d2] at hx
    · rcases hb : r.blocks with _ | ⟨y, ys⟩
      · simp [hb] at hx
      · rw [hb] at hx
        simp only [List.drop_succ_cons, List.drop_zero] at hx
        cases ys with
        | nil => simp at hx
        | cons z zs => rw [List.dropLast_cons_cons]; exact List.mem_cons_of_mem _ hx
    · exact List.dropLast_subset _ hx
  refine ⟨⟨by rw [d1]; exact h1.arr, by rw [d1]; exact h1.len, by rw [d1]; exact d5, ?_, d3, hdone⟩, hgeo, disc, ?_,
    by rw [d6]; exact hd, by rw [d1]; exact hdisc⟩
  · intro x hx; rw [d1]; exact h1.fits x (hmem x hx)
  · congr 1
    apply List.map_congr_left
    intro x _
    unfold entry ref
    rw [d1]

theorem Inv.pop {r : RBBuf} {m : Mem} {h : Held} (H : Inv r m h) {r' : RBBuf} (e : r.pop = ok r') : Inv r' m (h.drop 1) := by
  obtain ⟨h1, hg, disc, hh, hdl, hdisc⟩ := H
  simp only [RBBuf.pop, bind_eq_ok] at e
  obtain ⟨_, hs, e⟩ := e
  have hs : r.sealed = false := by
    cases hs' : r.sealed with
    | false => rfl
    | true => rw [hs'] at hs; simp at hs
  by_cases hd : r.discardBlockCount > 0
  · simp only [hd, if_true, Go.pure_def, ok.injEq] at e
    subst e
    cases disc with
    | nil => simp at hdl; omega
    | cons x xs =>
      rw [hh]
      simp only [List.cons_append, List.drop_succ_cons, List.drop_zero]
      refine ⟨⟨h1.arr, h1.len, h1.cap, h1.fits, h1.off, h1.done⟩, hg, xs, rfl, ?_, ?_⟩
      · simp at hdl ⊢; omega
      · exact fun e he => hdisc e (List.mem_cons_of_mem _ he)
  · have hdn : disc = [] := by
      have : r.discardBlockCount = 0 := by omega
      rw [this] at hdl; simpa using hdl
    simp only [hd, if_false, DirectBuf.pop, hs, Bool.not_false, assert_true, ok_bind, Go.pure_def] at e
    have key : ∀ c, r.capacity ≤ c → c ≤ r.data.len → r' = { r with toDirectBuf := DirectBuf.resetIfEmpty { r.toDirectBuf with sealed := false, blocks := r.blocks.drop 1 }, capacity := c } →
        Inv r' m (h.drop 1) := by
      intro c hc hc' e₁
      have d1 : r'.data = r.data := by rw [e₁]; simp [DirectBuf.resetIfEmpty]; split <;> rfl
      have d2 : r'.blocks = r.blocks.drop 1 := by rw [e₁]; simp [DirectBuf.resetIfEmpty]; split <;> rfl
      have d3 : r'.nextOffset = 0 := by rw [e₁]; simp [DirectBuf.resetIfEmpty]; split <;> simp [h1.off]
      have d5 : r'.capacity = c := by rw [e₁]
      have := Inv.shorten (r' := r') h1 hg hdl hdisc d1 (.inl d2) d3 (by omega) (by omega) (by rw [e₁])
      rw [hh, hdn]
      rw [hdn] at this
      simpa [d2] using this
    have e1 : (DirectBuf.resetIfEmpty { r.toDirectBuf with sealed := false, blocks := r.blocks.drop 1 }).data = r.data := by
      simp [DirectBuf.resetIfEmpty]; split <;> rfl
    split at e
    · simp only [ok.injEq] at e
      refine key r.data.len h1.cap (Nat.le_refl _) ?_
      rw [← e, e1]
    · split at e
      · simp only [ok.injEq] at e
        refine key r.data.len h1.cap (Nat.le_refl _) ?_
        rw [← e, e1]
      · simp only [ok.injEq] at e
        exact key r.capacity (Nat.le_refl _) h1.cap e.symm

theorem Inv.popBack {r : RBBuf} {m : Mem} {h : Held} (H : Inv r m h) {r' : RBBuf} (e : r.popBack = ok r') :
    Inv r' m h.dropLast := by
  obtain ⟨h1, hg, disc, hh, hdl, hdisc⟩ := H
  simp only [RBBuf.popBack, DirectBuf.popBack, bind_eq_ok, Go.pure_def, ok.injEq] at e
  obtain ⟨b, ⟨_, _, _, hne, rfl⟩, e₁⟩ := e
  have hne : r.blocks ≠ [] := by
    intro hn; rw [hn] at hne; simp at hne
  have d1 : r'.data = r.data := by rw [← e₁]; simp [DirectBuf.resetIfEmpty]; split <;> rfl
  have d2 : r'.blocks = r.blocks.dropLast := by rw [← e₁]; simp [DirectBuf.resetIfEmpty]; split <;> rfl
  have d3 : r'.nextOffset = 0 := by rw [← e₁]; simp [DirectBuf.resetIfEmpty]; split <;> simp [h1.off]
  have d5 : r'.capacity = r.capacity := by rw [← e₁]
  have := Inv.shorten (r' := r') h1 hg hdl hdisc d1 (.inr d2) d3 (by omega) (by rw [d5]; exact h1.cap) (by rw [← e₁])
  rw [d2] at this
  rw [hh, List.dropLast_append_of_ne_nil (by simpa using hne), ← List.map_dropLast]
  exact this

theorem Inv.fetch {r : RBBuf} {m : Mem} {h : Held} (H : Inv r m h) {r' : RBBuf} {s : Option SliceRef}
    (e : r.fetch = ok (s, r')) :
    Inv r' m (match s with | none => h | some s => h.fetched s (m.read s)) := by
  obtain ⟨h1, hg, disc, hh, hdl, hdisc⟩ := id H
  simp only [RBBuf.fetch, DirectBuf.fetch, bind_eq_ok, Go.pure_def, ok.injEq, Prod.mk.injEq] at e
  obtain ⟨⟨s₁, b₁⟩, ⟨_, _, ef⟩, e1, e2⟩ := e
  simp only at e1 e2
  subst e1
  rcases list_snoc_cases r.blocks with hb | ⟨bs, k, hb⟩
  · simp [hb] at ef
  · simp only [hb, List.getLast?_append, List.getLast?_singleton, Option.some_or] at ef
    cases hk : k.completed with
    | true =>
      simp only [hk, if_true, Go.pure_def, ok.injEq, Prod.mk.injEq] at ef
      obtain ⟨rfl, rfl⟩ := ef
      subst e2
      exact H
    | false =>
      have hk' := h1.fits k (by simp [hb])
      simp only [hk, Bool.false_eq_true, if_false] at ef
      rw [SliceRef.sub_of_le (by omega) hk'] at ef
      simp only [ok_bind, Go.pure_def, updLast_concat, ok.injEq, Prod.mk.injEq, Nat.add_sub_cancel_left] at ef
      obtain ⟨rfl, rfl⟩ := ef
      subst e2
      simp only
      rw [hb] at hg
      refine ⟨⟨h1.arr, h1.len, h1.cap, ?_, h1.off, ?_⟩, hg.setLast rfl rfl, disc, ?_, hdl, hdisc⟩
      · intro x hx
        simp only at hx
        rcases List.mem_append.mp hx with hx | hx
        · exact h1.fits x (by simp [hb, hx])
        · simp at hx; subst hx; exact hk'
      · have := h1.done; rw [hb] at this; simpa using this
      · rw [hh, hb, Held.fetched, List.dropLast_append_of_ne_nil (by simp)]
        simp [entry, ref]

/-- The side conditions of the theorem, checked along a history: at no `Write` is the ring exactly full after wrapping,
and no `Write` allocates new memory while blocks discarded by an earlier allocation are still to be popped. -/
def Safe : List BufOp → RBBuf × Mem × Held → Prop
  | [], _ => True
  | o :: os, s =>
    (∀ d, o = .write d → ¬ s.1.Full ∧
      ∀ r' m', s.1.write s.2.1 d = ok (r', m') → r'.data.arr ≠ s.1.data.arr → s.1.discardBlockCount = 0) ∧
    ∀ s', o.clientR s = ok s' → Safe os s'

theorem Inv.step {r : RBBuf} {m : Mem} {h : Held} (H : Inv r m h) {o : BufOp} {r' : RBBuf} {m' : Mem} {h' : Held}
    (e : o.clientR (r, m, h) = ok (r', m', h'))
    (hs : ∀ d, o = .write d → ¬ r.Full ∧
      ∀ r' m', r.write m d = ok (r', m') → r'.data.arr ≠ r.data.arr → r.discardBlockCount = 0) : Inv r' m' h' := by
  cases o with
  | write d =>
    simp only [BufOp.clientR, bind_eq_ok] at e
    obtain ⟨⟨r₁, m₁⟩, e1, e2⟩ := e
    simp only [Go.pure_def, ok.injEq, Prod.mk.injEq] at e2
    obtain ⟨rfl, rfl, rfl⟩ := e2
    obtain ⟨s1, s2⟩ := hs d rfl
    exact H.write e1 s1 (s2 _ _ e1)
  | fetch =>
    simp only [BufOp.clientR, bind_eq_ok] at e
    obtain ⟨⟨s, r₁⟩, e1, e2⟩ := e
    have := H.fetch e1
    cases s with
    | none => simp only [Go.pure_def, ok.injEq, Prod.mk.injEq] at e2; obtain ⟨rfl, rfl, rfl⟩ := e2; exact this
    | some s => simp only [Go.pure_def, ok.injEq, Prod.mk.injEq] at e2; obtain ⟨rfl, rfl, rfl⟩ := e2; exact this
  | pop =>
    simp only [BufOp.clientR, bind_eq_ok] at e
    obtain ⟨r₁, e1, e2⟩ := e
    simp only [Go.pure_def, ok.injEq, Prod.mk.injEq] at e2
    obtain ⟨rfl, rfl, rfl⟩ := e2
    exact H.pop e1
  | popBack =>
    simp only [BufOp.clientR, bind_eq_ok] at e
    obtain ⟨r₁, e1, e2⟩ := e
    simp only [Go.pure_def, ok.injEq, Prod.mk.injEq] at e2
    obtain ⟨rfl, rfl, rfl⟩ := e2
    exact H.popBack e1
  | clear =>
    simp only [BufOp.clientR, ok.injEq, Prod.mk.injEq] at e
    obtain ⟨rfl, rfl, rfl⟩ := e
    obtain ⟨h1, _⟩ := H
    refine ⟨⟨h1.arr, h1.len, Nat.le_refl _, ?_, rfl, ?_⟩, .linear 0 0 rfl (Nat.zero_le _), [], ?_, ?_, ?_⟩ <;>
      simp [RBBuf.clear, DirectBuf.clear]
  | splitOff =>
    simp only [BufOp.clientR, bind_eq_ok] at e
    obtain ⟨⟨n, r₁⟩, e1, e2⟩ := e
    simp only [Go.pure_def, ok.injEq, Prod.mk.injEq] at e2
    obtain ⟨rfl, rfl, rfl⟩ := e2
    simp only [RBBuf.splitOff, DirectBuf.splitOff, bind_eq_ok, Go.pure_def, ok.injEq, Prod.mk.injEq] at e1
    obtain ⟨⟨n', b'⟩, ⟨_, _, _, rfl⟩, _, rfl⟩ := e1
    obtain ⟨h1, h2, h3⟩ := H
    exact ⟨⟨h1.arr, h1.len, h1.cap, h1.fits, h1.off, h1.done⟩, h2, h3⟩
  | pending => simp only [BufOp.clientR, ok.injEq, Prod.mk.injEq] at e; obtain ⟨rfl, rfl, rfl⟩ := e; exact H
  | size => simp only [BufOp.clientR, ok.injEq, Prod.mk.injEq] at e; obtain ⟨rfl, rfl, rfl⟩ := e; exact H
  | data => simp only [BufOp.clientR, ok.injEq, Prod.mk.injEq] at e; obtain ⟨rfl, rfl, rfl⟩ := e; exact H

theorem Inv.run {ops : List BufOp} : ∀ {r : RBBuf} {m : Mem} {h : Held}, Inv r m h → Safe ops (r, m, h) →
    ∀ {r' m' h'}, runClientR ops (r, m, h) = ok (r', m', h') → Inv r' m' h' := by
  induction ops with
  | nil => intro r m h H _ r' m' h' e; simp [runClientR] at e; obtain ⟨rfl, rfl, rfl⟩ := e; exact H
  | cons o os ih =>
    intro r m h H hs r' m' h' e
    simp only [runClientR, bind_eq_ok] at e
    obtain ⟨⟨r₁, m₁, h₁⟩, e1, e2⟩ := e
    exact ih (H.step e1 hs.1) (hs.2 _ e1) e2

theorem Inv.good {r : RBBuf} {m : Mem} {h : Held} (H : Inv r m h) {s : SliceRef} {d : Bytes} (hm : some (s, d) ∈ h) :
    m.read s = d := by
  obtain ⟨_, _, disc, rfl, _, hdisc⟩ := H
  rcases List.mem_append.mp hm with hm | hm
  · obtain ⟨s', c, e, _, _, q⟩ := hdisc _ hm
    simp at e; rw [e.1, e.2]; exact q
  · obtain ⟨k, _, e⟩ := List.mem_map.mp hm
    unfold entry at e
    split at e
    · simp at e; rw [← e.1, ← e.2]
    · simp at e

theorem Inv_new (m : Mem) (cap : Nat) : Inv (RBBuf.new m cap).1 (RBBuf.new m cap).2 [] := by
  refine ⟨(R_new m cap).wf, .linear 0 0 rfl (Nat.zero_le _), [], ?_, ?_, ?_⟩ <;> simp [RBBuf.new]

end RBBuf
end Avf
