import Verif.Lemmas.RingMemory
/-! # How large the array of an RBBlockBuffer gets, with any use of `PopBack` -/
set_option linter.unusedSimpArgs false
namespace Avf
open Go

/-- The order of the blocks in an array of `len` bytes: once the capacity has been reduced by wrapping, the first block
lies within `D` bytes of the end of the array. -/
inductive Wide (D len : Nat) (bs : List Block) (capacity : Nat) : Prop
  | linear (i e : Nat) (h : Chain i bs e) (hc : e ≤ capacity) (hd : capacity = len ∨ bs.length ≤ 1 ∨ len ≤ i + D)
  | wrapped (as cs : List Block) (i e t : Nat) (hb : bs = as ++ cs) (ha : as ≠ []) (hcs : cs ≠ [])
      (h : Chain i as e) (h' : Chain 0 cs t) (ht : t ≤ i) (hi : 0 < i) (hc : e ≤ capacity) (hd : len ≤ i + D)

theorem Wide.setLast {D len : Nat} {bs : List Block} {k k' : Block} {cap : Nat} (h : Wide D len (bs ++ [k]) cap) (h1 : k'.index = k.index)
    (h2 : k'.size = k.size) : Wide D len (bs ++ [k']) cap := by
  cases h with
  | linear i e h h' hd =>
    refine .linear i e ?_ h' (by simpa using hd)
    rw [Chain.snoc] at h ⊢; rw [h1, h2]; exact h
  | wrapped as cs i e t g1 g2 g3 h4 h5 h6 h7 h8 hd =>
    rcases list_snoc_cases cs with rfl | ⟨xs, x, rfl⟩
    · exact absurd rfl g3
    · rw [← List.append_assoc] at g1
      obtain ⟨e1, e2⟩ := List.append_inj' g1 rfl
      simp at e2; subst e1; subst e2
      refine .wrapped as (xs ++ [k']) i e t (by simp) g2 (by simp) h4 ?_ h6 h7 h8 hd
      rw [Chain.snoc] at h5 ⊢; rw [h1, h2]; exact h5

theorem Wide.dropLast {D len : Nat} {bs : List Block} {cap : Nat} (h : Wide D len bs cap) : Wide D len bs.dropLast cap := by
  cases h with
  | linear i e h h' hd =>
    rcases list_snoc_cases bs with rfl | ⟨xs, x, rfl⟩
    · exact .linear i e h h' hd
    · have := Chain.snoc.mp h
      rw [List.dropLast_concat]
      refine .linear i _ this.1 (by omega) ?_
      rcases hd with hd | hd | hd
      · exact .inl hd
      · right; left; simp at hd; simp [hd]
      · exact .inr (.inr hd)
  | wrapped as cs i e t h1 h2 h3 h4 h5 h6 h7 h8 hd =>
    rcases list_snoc_cases cs with rfl | ⟨xs, x, rfl⟩
    · exact absurd rfl h3
    · have := Chain.snoc.mp h5
      rw [h1, ← List.append_assoc, List.dropLast_concat]
      cases xs with
      | nil => rw [List.append_nil]; exact .linear i e h4 h8 (.inr (.inr hd))
      | cons y ys => exact .wrapped as _ i e _ rfl h2 (by simp) h4 this.1 (by omega) h7 h8 hd

/-- `Pop` restores the capacity when the next block lies at the start or there is none. -/
theorem Wide.tail {D len : Nat} {bs : List Block} {c c' : Nat} (h : Wide D len bs c) (hle : c ≤ len)
    (h1 : c' = c ∨ c' = len) (h2 : ∀ k, (bs.drop 1).head? = some k → k.index = 0 → c' = len) : Wide D len (bs.drop 1) c' := by
  cases h with
  | linear i e h h' hd =>
    cases bs with
    | nil => exact .linear 0 0 rfl (Nat.zero_le _) (.inr (.inl (by simp)))
    | cons k ks =>
      simp only [List.drop_succ_cons, List.drop_zero]
      refine .linear _ e h.2 (by omega) ?_
      rcases hd with hd | hd | hd
      · left; omega
      · right; left; simp at hd; simp [hd]
      · right; right; omega
  | wrapped as cs i e t g1 g2 g3 h4 h5 h6 h7 h8 hd =>
    cases as with
    | nil => exact absurd rfl g2
    | cons k ks =>
      have hs := h4.sum
      subst g1
      simp only [List.cons_append, List.drop_succ_cons, List.drop_zero] at h2 ⊢
      cases ks with
      | nil =>
        cases cs with
        | nil => exact absurd rfl g3
        | cons x xs =>
          have hx := h2 x rfl h5.1
          exact .linear 0 t h5 (by omega) (.inl hx)
      | cons y ys => exact .wrapped (y :: ys) cs _ e t rfl (by simp) g3 h4.2 h5 (by omega) (by omega) (by omega) (by omega)

namespace RBBuf

theorem opened_wide {D : Nat} {r : RBBuf} {m : Mem} (h : WF r m) (hg : Wide D r.data.len r.blocks r.capacity) {bs : List Block} {old : Block}
    (ho : r.blocks = bs ++ [old] ∨ r.blocks = bs ∧ old = ⟨r.headTail.2, 0, false⟩ ∧
      ∀ k, bs.getLast? = some k → k.completed = true) :
    (∃ i e, Chain i (bs ++ [old]) e ∧ e ≤ r.opened.capacity ∧ (r.opened.capacity = r.data.len ∨ r.data.len ≤ i + D)) ∨
    (∃ as cs i e t, bs ++ [old] = as ++ cs ∧ as ≠ [] ∧ cs ≠ [] ∧ Chain i as e ∧ Chain 0 cs t ∧ t ≤ i ∧ 0 < i ∧ e ≤ r.opened.capacity ∧
      r.data.len ≤ i + D) := by
  have hf := r.opened_fields.2.2.2.2
  have hc : r.capacity ≤ r.opened.capacity := by
    rw [hf]; split
    · exact h.cap
    · exact Nat.le_refl _
  cases hg with
  | linear i e g1 g2 g3 =>
    left
    have hd : r.opened.capacity = r.data.len ∨ r.data.len ≤ i + D := by
      by_cases hl : r.blocks.length ≤ 1
      · left; rw [hf, if_pos hl]
      · rcases g3 with g3 | g3 | g3
        · left; rw [hf, if_neg hl]; exact g3
        · exact absurd g3 hl
        · right; exact g3
    rcases ho with ho | ⟨ho, eo, _⟩
    · exact ⟨i, e, by rw [← ho]; exact g1, by omega, hd⟩
    · rcases list_snoc_cases bs with rfl | ⟨xs, x, rfl⟩
      · rw [headTail_nil ho] at eo
        subst eo
        refine ⟨0, 0, ⟨rfl, rfl⟩, Nat.zero_le _, .inl ?_⟩
        rw [hf, if_pos (by rw [ho]; simp)]
      · rw [headTail_tail ho] at eo
        rw [ho] at g1
        refine ⟨i, e, ?_, by omega, hd⟩
        rw [Chain.snoc, eo]
        have := Chain.snoc.mp g1
        exact ⟨by rw [this.2]; exact g1, this.2⟩
  | wrapped as cs i e t g1 g2 g3 h4 h5 h6 h7 h8 hd =>
    right
    rcases ho with ho | ⟨ho, eo, _⟩
    · exact ⟨as, cs, i, e, t, by rw [← ho]; exact g1, g2, g3, h4, h5, h6, h7, by omega, hd⟩
    · rcases list_snoc_cases cs with rfl | ⟨ys, y, rfl⟩
      · exact absurd rfl g3
      · rw [← List.append_assoc] at g1
        rw [headTail_tail g1] at eo
        refine ⟨as, ys ++ [y] ++ [old], i, e, t, by rw [← ho, g1]; simp, g2, by simp, h4, ?_, h6, h7, by omega, hd⟩
        rw [Chain.snoc, eo]
        have := Chain.snoc.mp h5
        exact ⟨by rw [this.2]; exact h5, this.2⟩

/-- The array is at most `B`; if it is large for the load the blocks are in order. -/
structure Loaded (M H B : Nat) (r : RBBuf) (m : Mem) (t : BufSpec) : Prop where
  shadow : Shadow r m t
  len : r.data.len ≤ B
  wide : 2 * H + 2 * M < r.data.len → Wide (H + M) r.data.len r.blocks r.capacity

theorem Loaded.write {M H B : Nat} {r : RBBuf} {m : Mem} {t : BufSpec} (h : Loaded M H B r m t) (hB : (2 * H + 3 * M) * 3 / 2 ≤ B)
    (d : Bytes) (hl : t.liveBytes ≤ H) (hp : t.pendingBytes + d.length ≤ M) {r' : RBBuf} {m' : Mem} (e : r.write m d = ok (r', m')) :
    Loaded M H B r' m' { t with blocks := BufSpec.addBytes t.blocks d, all := t.all ++ d } := by
  have hsh := h.shadow.write d e
  obtain ⟨bs, old, o1, o2, o3, o4, o5⟩ := r.opened_blocks
  obtain ⟨hpend, -⟩ := h.shadow.opened d o2 o5
  obtain ⟨r₁, m₁, k, e₁, w1, w2, w3, w4, w5, w6, w7, w8, w9, w10, w11⟩ := write_ok h.shadow.wf d o1 o2 o3 o4 (h.shadow.wf.opened_fits o5)
  rw [e] at e₁
  obtain ⟨rfl, rfl⟩ : r' = r₁ ∧ m' = m₁ := by simpa using e₁
  have hsum : blockSum (bs ++ [old]) ≤ H := by
    refine Nat.le_trans ?_ (Nat.le_trans h.shadow.live hl)
    rcases o5 with o5 | ⟨o5, o6, _⟩
    · rw [o5]; exact Nat.le_refl _
    · rw [o5, o6]; simp
  have hlin : ∀ i e, Chain i (bs ++ [old]) e → r.headTail.1 = i ∧ r.headTail.2 = e ∧ i ≤ e := by
    intro i e hc
    obtain ⟨k0, hk0, hk1⟩ := o4
    refine ⟨?_, ?_, ?_⟩
    · rw [← hk1]; exact hc.head hk0
    · rw [← o3]; exact (Chain.snoc.mp hc).2
    · have := hc.sum; omega
  have hwr : ∀ as cs i e t, bs ++ [old] = as ++ cs → as ≠ [] → cs ≠ [] → Chain i as e → Chain 0 cs t → r.headTail.1 = i ∧ r.headTail.2 = t ∧ t ≤ H := by
    intro as cs i e t g1 g2 g3 g4 g5
    obtain ⟨k0, hk0, hk1⟩ := o4
    refine ⟨?_, ?_, ?_⟩
    · rw [← hk1]
      refine g4.head ?_
      rw [g1] at hk0
      cases as with
      | nil => exact absurd rfl g2
      | cons y ys => simpa using hk0
    · rw [← o3]
      rcases list_snoc_cases cs with rfl | ⟨ys, y, rfl⟩
      · exact absurd rfl g3
      · rw [← List.append_assoc] at g1
        obtain ⟨_, g1⟩ := List.append_inj' g1 rfl
        simp at g1; subst g1
        exact (Chain.snoc.mp g5).2
    · have := g5.sum
      rw [g1, blockSum_append] at hsum
      omega
  -- the array
  by_cases hbig : 2 * H + 2 * M < r.data.len
  · have hw := opened_wide h.shadow.wf (h.wide hbig) o5
    have hdata : r'.data = r.data ∧ Wide (H + M) r.data.len r'.blocks r'.capacity := by
      rcases hw with ⟨i, e', hc, hce, hdd⟩ | ⟨as, cs, i, e', t', g1, g2, g3, g4, g5, g6, g7, g8, g9⟩
      · obtain ⟨l1, l2, l3⟩ := hlin i e' hc
        have hs := hc.sum
        have hsn := Chain.snoc.mp hc
        rcases w11 with w | w | w
        · refine ⟨w.data, ?_⟩
          rw [w.blocks, w.cap]
          have hcn : e' + d.length ≤ r.opened.capacity := by rcases w.cond with c | c <;> omega
          refine .linear i (e' + d.length) ?_ hcn ?_
          · rw [Chain.snoc]; exact ⟨hsn.1, by simp only; omega⟩
          · rcases hdd with hdd | hdd
            · exact .inl hdd
            · exact .inr (.inr hdd)
        · refine ⟨w.data, ?_⟩
          obtain ⟨c1, c2, c3⟩ := w.cond
          rw [w.blocks, w.cap]
          have hi : 0 < i := by omega
          rcases list_snoc_cases bs with rfl | ⟨xs, x, rfl⟩
          · refine .linear 0 (old.size + d.length) ⟨rfl, by simp [Chain]⟩ ?_ (.inr (.inl (by simp)))
            have := hc.1
            omega
          · refine .wrapped (xs ++ [x]) [⟨0, old.size + d.length, false⟩] i old.index (old.size + d.length) rfl (by simp) (by simp) hsn.1 ⟨rfl, by simp [Chain]⟩ (by omega) hi (Nat.le_refl _) ?_
            rcases hdd with hdd | hdd <;> omega
        · exfalso
          rcases w.cond with c | c
          · omega
          · rcases hdd with hdd | hdd <;> omega
      · obtain ⟨l1, l2, l3⟩ := hwr as cs i e' t' g1 g2 g3 g4 g5
        rcases w11 with w | w | w
        · refine ⟨w.data, ?_⟩
          rw [w.blocks, w.cap]
          rcases list_snoc_cases cs with rfl | ⟨ys, y, rfl⟩
          · exact absurd rfl g3
          · rw [← List.append_assoc] at g1
            obtain ⟨gb, g1'⟩ := List.append_inj' g1 rfl
            simp at g1'; subst g1'
            have h5 := Chain.snoc.mp g5
            rw [gb]
            refine .wrapped as (ys ++ [⟨old.index, old.size + d.length, false⟩]) i e' (t' + d.length) (by simp) g2 (by simp) g4 ?_ (by omega) g7 g8 g9
            rw [Chain.snoc]
            exact ⟨h5.1, by simp only; omega⟩
        · exfalso
          have := w.cond.1
          omega
        · exfalso
          rcases w.cond with c | c <;> omega
    exact ⟨hsh, by rw [hdata.1]; exact h.len, fun _ => by rw [hdata.1]; exact hdata.2⟩
  · by_cases hne : r'.data.len = r.data.len
    · exact ⟨hsh, by rw [hne]; exact h.len, fun hh => absurd (by rw [← hne]; exact hh) hbig⟩
    · have w : Grown r m d.length bs old r' m' := by
        rcases w11 with w | w | w
        · exact absurd (by rw [w.data]) hne
        · exact absurd (by rw [w.data]) hne
        · exact w
      refine ⟨hsh, ?_, fun _ => ?_⟩
      · rcases write_len e with hq | hq
        · exact absurd (by rw [hq]) hne
        · rw [hq]; omega
      · rw [w.blocks]
        refine .linear 0 (old.size + d.length) ⟨rfl, by simp [Chain]⟩ ?_ (.inl w.cap)
        have := hsh.wf.fits ⟨0, old.size + d.length, false⟩ (by rw [w.blocks]; simp)
        rw [w.cap]
        simpa using this

theorem Loaded.step {M H B : Nat} {r r' : RBBuf} {m m' : Mem} {t : BufSpec} {x : BufObs} (h : Loaded M H B r m t)
    (hB : (2 * H + 3 * M) * 3 / 2 ≤ B) (o : BufOp) (h1 : o ≠ .splitOff)
    (h2 : ∀ d, o = .write d → t.liveBytes ≤ H ∧ t.pendingBytes + d.length ≤ M) (e : o.runR (r, m) = ok (x, (r', m'))) :
    ∃ y t', o.spec t = ok (y, t') ∧ Loaded M H B r' m' t' := by
  by_cases hw : ∃ d, o = .write d
  · obtain ⟨d, rfl⟩ := hw
    simp only [BufOp.runR, bind_eq_ok, pure_def, ok.injEq, Prod.mk.injEq] at e
    obtain ⟨⟨r1, m1⟩, e1, _, rfl, rfl⟩ := e
    exact ⟨.unit, _, by simp only [BufOp.spec, h.shadow.sealedT]; rw [if_neg (by simp)], h.write hB d (h2 d rfl).1 (h2 d rfl).2 e1⟩
  have hw' : ∀ d, o ≠ .write d := fun d hd => hw ⟨d, hd⟩
  obtain ⟨y, t', es, hs⟩ := h.shadow.step o h1 e
  have hl := len_step hw' e
  refine ⟨y, t', es, hs, by rw [hl]; exact h.len, ?_⟩
  rw [hl]
  intro hge
  have L := h.wide hge
  have h3 : ∀ q : DirectBuf, q.resetIfEmpty.blocks = q.blocks ∧ q.resetIfEmpty.data = q.data := by
    intro q; unfold DirectBuf.resetIfEmpty; split <;> exact ⟨rfl, rfl⟩
  cases o with
  | write d => exact absurd rfl (hw' d)
  | splitOff => exact absurd rfl h1
  | fetch =>
    simp only [BufOp.runR, fetch, DirectBuf.fetch, bind_eq_ok, pure_def, ok.injEq, Prod.mk.injEq] at e
    obtain ⟨⟨s, r1⟩, ⟨⟨s1, b1⟩, ⟨_, _, e1⟩, _, rfl⟩, _, rfl, rfl⟩ := e
    split at e1
    · cases e1
    · split at e1
      · simp only [ok.injEq, Prod.mk.injEq] at e1; rw [← e1.2]; exact L
      · simp only [bind_eq_ok, ok.injEq, Prod.mk.injEq] at e1
        obtain ⟨_, _, _, rfl⟩ := e1
        show Wide _ _ (updLast r.blocks _) r.capacity
        rcases list_snoc_cases r.blocks with hb | ⟨ks, k, hb⟩
        · rw [hb] at L ⊢; exact L
        · rw [hb] at L ⊢
          rw [updLast_concat]
          exact L.setLast rfl rfl
  | pop =>
    simp only [BufOp.runR, pop, DirectBuf.pop, bind_eq_ok, pure_def, ok.injEq, Prod.mk.injEq] at e
    obtain ⟨r1, ⟨_, _, e1⟩, _, rfl, rfl⟩ := e
    split at e1
    · simp only [ok.injEq] at e1; rw [← e1]; exact L
    · simp only [bind_eq_ok, ok.injEq] at e1
      obtain ⟨b, ⟨_, _, rfl⟩, e1⟩ := e1
      have h4 := h3 { r.toDirectBuf with blocks := r.toDirectBuf.blocks.drop 1 }
      have hcap := h.shadow.wf.cap
      split at e1
      · simp only [ok.injEq] at e1
        subst e1
        show Wide _ _ (DirectBuf.blocks _) (SliceRef.len (DirectBuf.data _))
        rw [h4.1, h4.2]
        exact L.tail hcap (.inr rfl) (fun _ _ _ => rfl)
      · rename_i k hk
        rw [show ({ r with toDirectBuf := DirectBuf.resetIfEmpty { r.toDirectBuf with blocks := r.toDirectBuf.blocks.drop 1 } } : RBBuf).blocks = r.blocks.drop 1 from h4.1] at hk
        split at e1
        · simp only [ok.injEq] at e1
          subst e1
          show Wide _ _ (DirectBuf.blocks _) (SliceRef.len (DirectBuf.data _))
          rw [h4.1, h4.2]
          exact L.tail hcap (.inr rfl) (fun _ _ _ => rfl)
        · rename_i hki
          simp only [ok.injEq] at e1
          subst e1
          show Wide _ _ (DirectBuf.blocks _) r.capacity
          rw [h4.1]
          refine L.tail hcap (.inl rfl) (fun k' hk' h0 => ?_)
          rw [hk] at hk'
          cases hk'
          exact absurd h0 hki
  | popBack =>
    simp only [BufOp.runR, popBack, DirectBuf.popBack, bind_eq_ok, pure_def, ok.injEq, Prod.mk.injEq] at e
    obtain ⟨r1, ⟨b, ⟨_, _, _, _, rfl⟩, rfl⟩, _, rfl, rfl⟩ := e
    show Wide _ _ (DirectBuf.blocks _) r.capacity
    rw [(h3 _).1]
    exact L.dropLast
  | clear =>
    simp only [BufOp.runR, ok.injEq, Prod.mk.injEq] at e
    obtain ⟨_, rfl, rfl⟩ := e
    exact .linear 0 0 rfl (Nat.zero_le _) (.inl rfl)
  | pending => simp only [BufOp.runR, ok.injEq, Prod.mk.injEq] at e; obtain ⟨_, rfl, rfl⟩ := e; exact L
  | size => simp only [BufOp.runR, ok.injEq, Prod.mk.injEq] at e; obtain ⟨_, rfl, rfl⟩ := e; exact L
  | data => simp only [BufOp.runR, ok.injEq, Prod.mk.injEq] at e; obtain ⟨_, rfl, rfl⟩ := e; exact L

theorem Loaded.run {M H B : Nat} (hB : (2 * H + 3 * M) * 3 / 2 ≤ B) : ∀ (ops : List BufOp) (r r' : RBBuf) (m m' : Mem) (t : BufSpec) (xs : List BufObs),
    Loaded M H B r m t → BoundedLoad M H ops t → runTrace BufOp.runR ops (r, m) = ok (xs, (r', m')) → r'.data.len ≤ B := by
  intro ops
  induction ops with
  | nil =>
    intro r r' m m' t xs h _ e
    simp only [runTrace, ok.injEq, Prod.mk.injEq] at e
    rw [← e.2.1]; exact h.len
  | cons o os ih =>
    intro r r' m m' t xs h hl e
    simp only [runTrace, bind_eq_ok, pure_def, ok.injEq, Prod.mk.injEq] at e
    obtain ⟨⟨x, r1, m1⟩, e1, ⟨ys, r2, m2⟩, e2, _, rfl, rfl⟩ := e
    obtain ⟨h1, h3, h4⟩ := hl
    obtain ⟨y, t', es, h'⟩ := h.step hB o h1 h3 e1
    exact ih _ _ _ _ _ _ h' (h4 y t' es) e2

end RBBuf
end Avf
