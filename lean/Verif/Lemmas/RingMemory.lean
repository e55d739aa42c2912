import Verif.Lemmas.RBLoad
import Verif.Spec.MemoryUse
/-! # How large the array of an RBBlockBuffer gets -/
set_option linter.unusedSimpArgs false
namespace Avf
open Go
namespace RBBuf

/-- Another count of discarded blocks. -/
def disc (n : Nat) (r : RBBuf) : RBBuf := { r with discardBlockCount := n }

theorem place_disc (n : Nat) (r : RBBuf) (m : Mem) (head tail size : Nat) (old : Block) {x : Nat} {r' : RBBuf} {m' : Mem}
    (e : r.place m head tail size old = ok (x, r', m')) : ∃ k, (r.disc n).place m head tail size old = ok (x, r'.disc k, m') := by
  unfold place at e ⊢
  by_cases c1 : tail < head ∧ head ≥ tail + size
  · rw [if_pos c1] at e ⊢
    simp only [ok.injEq, Prod.mk.injEq] at e
    obtain ⟨rfl, rfl, rfl⟩ := e
    exact ⟨n, rfl⟩
  rw [if_neg c1] at e ⊢
  by_cases c2 : ¬ tail < head ∧ r.capacity ≥ tail + size
  · rw [if_pos c2] at e
    rw [if_pos (show ¬ tail < head ∧ (r.disc n).capacity ≥ tail + size from c2)]
    simp only [ok.injEq, Prod.mk.injEq] at e
    obtain ⟨rfl, rfl, rfl⟩ := e
    exact ⟨n, rfl⟩
  rw [if_neg c2] at e
  rw [if_neg (show ¬ (¬ tail < head ∧ (r.disc n).capacity ≥ tail + size) from c2)]
  by_cases c3 : ¬ tail < head ∧ head ≥ old.size + size
  · rw [if_pos c3] at e ⊢
    simp only [bind_eq_ok, pure_def, ok.injEq, Prod.mk.injEq] at e ⊢
    obtain ⟨s, e1, rfl, rfl, rfl⟩ := e
    exact ⟨n, s, e1, rfl, rfl, rfl⟩
  · rw [if_neg c3] at e ⊢
    simp only [bind_eq_ok, pure_def, ok.injEq, Prod.mk.injEq] at e ⊢
    obtain ⟨s, e1, rfl, rfl, rfl⟩ := e
    exact ⟨_, s, e1, rfl, rfl, rfl⟩

/-- The count of discarded blocks has no influence on what `Write` does. -/
theorem write_disc (n : Nat) {r r' : RBBuf} {m m' : Mem} {d : Bytes} (e : r.write m d = ok (r', m')) :
    ∃ k, (r.disc n).write m d = ok (r'.disc k, m') := by
  have ho : ((r.disc n).restoreCapacity.openBlock (r.disc n).headTail.2) = (r.restoreCapacity.openBlock r.headTail.2).disc n := by
    have h1 : (r.disc n).restoreCapacity = r.restoreCapacity.disc n := by
      unfold restoreCapacity disc; dsimp only; split <;> rfl
    rw [h1, show (r.disc n).headTail = r.headTail from rfl]
    generalize r.restoreCapacity = q
    unfold openBlock
    show (match q.blocks.getLast? with
      | some blk => if blk.completed then { q.disc n with blocks := q.blocks ++ [(⟨r.headTail.2, 0, false⟩ : Block)] } else q.disc n
      | none => { q.disc n with blocks := q.blocks ++ [(⟨r.headTail.2, 0, false⟩ : Block)] }) = _
    cases q.blocks.getLast? with
    | none => rfl
    | some blk =>
      dsimp only
      by_cases hc : blk.completed = true
      · rw [if_pos hc, if_pos hc]; rfl
      · rw [if_neg hc, if_neg hc]
  simp only [write, alloc, bind_eq_ok, pure_def, ok.injEq, Prod.mk.injEq] at e ⊢
  obtain ⟨⟨s, r1, m1⟩, e1, rfl, rfl⟩ := e
  rw [ho]
  have hb : ((r.restoreCapacity.openBlock r.headTail.2).disc n).blocks = (r.restoreCapacity.openBlock r.headTail.2).blocks := rfl
  rw [hb]
  have hh : (r.disc n).headTail = r.headTail := rfl
  rw [hh]
  revert e1
  cases (r.restoreCapacity.openBlock r.headTail.2).blocks.getLast? with
  | none => intro e1; cases e1
  | some old =>
    intro e1
    simp only [bind_eq_ok, ok.injEq, Prod.mk.injEq] at e1
    obtain ⟨⟨t, r2, m2⟩, e2, s2, e3, rfl, rfl, rfl⟩ := e1
    obtain ⟨k, e4⟩ := place_disc n _ _ _ _ _ _ e2
    refine ⟨k, (s2, _, _), ?_, rfl, rfl⟩
    simp only [bind_eq_ok, ok.injEq, Prod.mk.injEq]
    exact ⟨_, e4, s2, e3, rfl, rfl, rfl⟩

/-- `Write` leaves the array or makes a new one. -/
theorem write_len {r r' : RBBuf} {m m' : Mem} {d : Bytes} (e : r.write m d = ok (r', m')) :
    r'.data = r.data ∨ r'.data.len = (r.data.len + d.length) * 3 / 2 := by
  have ho : (r.restoreCapacity.openBlock r.headTail.2).data = r.data := r.opened_fields.1
  simp only [write, alloc, bind_eq_ok, pure_def, ok.injEq, Prod.mk.injEq] at e
  obtain ⟨⟨s, r1, m1⟩, e1, rfl, rfl⟩ := e
  revert e1
  generalize r.restoreCapacity.openBlock r.headTail.2 = q at ho
  cases q.blocks.getLast? with
  | none => intro e1; cases e1
  | some old =>
    intro e1
    simp only [bind_eq_ok, ok.injEq, Prod.mk.injEq] at e1
    obtain ⟨⟨t, r2, m2⟩, e2, s2, e3, rfl, rfl, rfl⟩ := e1
    unfold place at e2
    split at e2
    · simp only [ok.injEq, Prod.mk.injEq] at e2; left; rw [← ho, e2.2.1]
    · split at e2
      · simp only [ok.injEq, Prod.mk.injEq] at e2; left; rw [← ho, e2.2.1]
      · split at e2
        · simp only [bind_eq_ok, pure_def, ok.injEq, Prod.mk.injEq] at e2
          obtain ⟨_, _, _, rfl, _⟩ := e2
          left; exact ho
        · simp only [bind_eq_ok, pure_def, ok.injEq, Prod.mk.injEq] at e2
          obtain ⟨_, _, _, rfl, _⟩ := e2
          right; rw [← ho]; rfl

/-- The blocks of the ring are at most as long as those of the specification and fetched if those are. -/
def Under : List Block → List (Bytes × Bool) → Prop
  | [], [] => True
  | k :: ks, b :: bs => (k.size ≤ b.1.length ∧ k.completed = b.2) ∧ Under ks bs
  | _, _ => False

theorem Under.length {ks : List Block} : ∀ {bs : List (Bytes × Bool)}, Under ks bs → ks.length = bs.length := by
  induction ks with
  | nil => intro bs h; cases bs with
    | nil => rfl
    | cons b bs => exact h.elim
  | cons k ks ih => intro bs h; cases bs with
    | nil => exact h.elim
    | cons b bs => simp [ih h.2]

theorem Under.snoc {ks : List Block} {k : Block} : ∀ {bs : List (Bytes × Bool)} {b : Bytes × Bool}, Under ks bs → k.size ≤ b.1.length →
    k.completed = b.2 → Under (ks ++ [k]) (bs ++ [b]) := by
  induction ks with
  | nil => intro bs b h h1 h2; cases bs with
    | nil => exact ⟨⟨h1, h2⟩, trivial⟩
    | cons _ _ => exact h.elim
  | cons x ks ih => intro bs b h h1 h2; cases bs with
    | nil => exact h.elim
    | cons y bs => exact ⟨h.1, ih h.2 h1 h2⟩

theorem Under.of_snoc {ks : List Block} {k : Block} : ∀ {bs : List (Bytes × Bool)}, Under (ks ++ [k]) bs →
    ∃ cs b, bs = cs ++ [b] ∧ Under ks cs ∧ k.size ≤ b.1.length ∧ k.completed = b.2 := by
  induction ks with
  | nil => intro bs h; cases bs with
    | nil => exact h.elim
    | cons b bs => cases bs with
      | nil => exact ⟨[], b, rfl, trivial, h.1.1, h.1.2⟩
      | cons _ _ => exact h.2.elim
  | cons x ks ih => intro bs h; cases bs with
    | nil => exact h.elim
    | cons y bs =>
      obtain ⟨cs, b, rfl, h1, h2, h3⟩ := ih h.2
      exact ⟨y :: cs, b, rfl, ⟨h.1, h1⟩, h2, h3⟩

theorem Under.sum {ks : List Block} : ∀ {bs : List (Bytes × Bool)}, Under ks bs → blockSum ks ≤ (bs.map (·.1.length)).sum := by
  induction ks with
  | nil => intro bs _; simp
  | cons k ks ih => intro bs h; cases bs with
    | nil => exact h.elim
    | cons b bs =>
      have := ih h.2
      have := h.1.1
      simp
      omega

/-- A ring and the specification of its history: the ring has lost some of the first blocks. -/
structure Shadow (r : RBBuf) (m : Mem) (t : BufSpec) : Prop where
  wf : WF r m
  sealed : r.sealed = false
  sealedT : t.sealed = false
  done : ∀ b ∈ t.blocks.dropLast, b.2 = true
  rel : ∃ pre suf, t.blocks = pre ++ suf ∧ Under r.blocks suf ∧ r.discardBlockCount ≤ pre.length ∧
    (r.blocks = [] → r.discardBlockCount = 0 ∨ ∀ b, t.blocks.getLast? = some b → b.2 = true)

/-- The array is at most `B`; if it is large for the load it is also in good order. -/
structure Modest (M H B : Nat) (fresh : Bool) (r : RBBuf) (m : Mem) (t : BufSpec) : Prop where
  shadow : Shadow r m t
  len : r.data.len ≤ B
  load : H + 2 * M ≤ r.data.len → ∃ h t0, Load M r.data.len fresh (r.disc 0) m h t0

theorem wf_step {o : BufOp} {r r' : RBBuf} {m m' : Mem} {x : BufObs} (h : WF r m) (e : o.runR (r, m) = ok (x, (r', m'))) : WF r' m' := by
  have := R.sim (s := (r, m)) (t := ⟨r.blocks.length, r.pendOf m, r.sealed⟩) ⟨h, rfl, rfl, rfl⟩ o
  rw [e] at this
  obtain ⟨t, _, hr⟩ := this
  exact hr.wf

theorem addBytes_done {bs : List (Bytes × Bool)} (d : Bytes) (h : ∀ b ∈ bs.dropLast, b.2 = true) : ∀ b ∈ (BufSpec.addBytes bs d).dropLast, b.2 = true := by
  rcases list_snoc_cases bs with rfl | ⟨cs, ⟨c, f⟩, rfl⟩
  · intro b hb; simp [BufSpec.addBytes] at hb
  · rw [List.dropLast_concat] at h
    cases f with
    | false =>
      intro b hb
      simp [BufSpec.addBytes] at hb
      exact h b hb
    | true =>
      intro b hb
      simp only [BufSpec.addBytes, List.getLast?_append, List.getLast?_singleton, Option.some_or, List.dropLast_concat] at hb
      rcases List.mem_append.1 hb with hb | hb
      · exact h b hb
      · simp at hb; rw [hb]

theorem Shadow.live {r : RBBuf} {m : Mem} {t : BufSpec} (h : Shadow r m t) :
    blockSum r.blocks ≤ t.liveBytes := by
  obtain ⟨pre, suf, e, hu, _, _⟩ := h.rel
  unfold BufSpec.liveBytes
  rw [e, List.map_append, List.sum_append]
  have := hu.sum
  omega

/-- What `Write` does to the specification, seen from the blocks of the opened ring. -/
theorem Shadow.opened {r : RBBuf} {m : Mem} {t : BufSpec} (h : Shadow r m t) (d : Bytes)
    {bs : List Block} {old : Block} (hop : old.completed = false)
    (ho : r.blocks = bs ++ [old] ∨ r.blocks = bs ∧ old = ⟨r.headTail.2, 0, false⟩ ∧ ∀ k, bs.getLast? = some k → k.completed = true) :
    old.size ≤ t.pendingBytes ∧
    ∃ pre suf b, BufSpec.addBytes t.blocks d = pre ++ suf ++ [b] ∧ Under bs suf ∧ b.2 = false ∧ old.size + d.length ≤ b.1.length ∧
      r.discardBlockCount ≤ pre.length := by
  obtain ⟨pre, suf, e, hu, hd, hn⟩ := h.rel
  rcases ho with ho | ⟨ho, eo, hl⟩
  · rw [ho] at hu
    obtain ⟨cs, ⟨c, f⟩, rfl, h1, h2, h3⟩ := hu.of_snoc
    simp only at h2 h3
    rw [hop] at h3
    subst h3
    rw [← List.append_assoc] at e
    refine ⟨?_, pre, cs, (c ++ d, false), ?_, h1, rfl, by simp; omega, hd⟩
    · unfold BufSpec.pendingBytes; rw [e]; simpa using h2
    · unfold BufSpec.addBytes; rw [e]; simp
  · refine ⟨by rw [eo]; exact Nat.zero_le _, ?_⟩
    rcases list_snoc_cases bs with rfl | ⟨bs, k, rfl⟩
    · rw [ho] at hu
      have hs : suf = [] := by cases suf with
        | nil => rfl
        | cons _ _ => exact hu.elim
      subst hs
      rw [List.append_nil] at e
      rcases list_snoc_cases t.blocks with h0 | ⟨cs, ⟨c, f⟩, h0⟩
      · refine ⟨[], [], (d, false), by simp [BufSpec.addBytes, h0], trivial, rfl, by rw [eo]; simp, ?_⟩
        rw [← e, h0] at hd; exact hd
      · cases f with
        | true =>
          refine ⟨pre, [], (d, false), ?_, trivial, rfl, by rw [eo]; simp, hd⟩
          rw [← e]; simp [BufSpec.addBytes, h0]
        | false =>
          refine ⟨cs, [], (c ++ d, false), by simp [BufSpec.addBytes, h0], trivial, rfl, by rw [eo]; simp, ?_⟩
          rcases hn ho with hn | hn
          · rw [hn]; exact Nat.zero_le _
          · exact absurd (hn (c, false) (by rw [h0]; simp)) (by simp)
    · rw [ho] at hu
      have hk := hl k (by simp)
      obtain ⟨cs, ⟨c, f⟩, rfl, h1, h2, h3⟩ := hu.of_snoc
      rw [hk] at h3
      simp only at h3
      subst h3
      refine ⟨pre, cs ++ [(c, true)], (d, false), ?_, h1.snoc h2 hk, rfl, by rw [eo]; simp, hd⟩
      rw [e]; unfold BufSpec.addBytes; simp

theorem Shadow.write {r : RBBuf} {m : Mem} {t : BufSpec} (h : Shadow r m t) (d : Bytes) {r' : RBBuf} {m' : Mem} (e : r.write m d = ok (r', m')) :
    Shadow r' m' { t with blocks := BufSpec.addBytes t.blocks d, all := t.all ++ d } := by
  have hwf : WF r' m' := wf_step (o := .write d) (x := .unit) h.wf (by simp [BufOp.runR, e])
  obtain ⟨bs, old, o1, o2, o3, o4, o5⟩ := r.opened_blocks
  obtain ⟨hpend, pre, suf, b, ha, hu, hb2, hb1, hd⟩ := h.opened d o2 o5
  obtain ⟨r₁, m₁, k, e₁, w1, w2, w3, w4, w5, w6, w7, w8, w9, w10, w11⟩ := write_ok h.wf d o1 o2 o3 o4 (h.wf.opened_fits o5)
  rw [e] at e₁
  obtain ⟨rfl, rfl⟩ : r' = r₁ ∧ m' = m₁ := by simpa using e₁
  refine ⟨hwf, by rw [w1]; exact h.sealed, h.sealedT, addBytes_done d h.done, ?_⟩
  show ∃ pre suf, BufSpec.addBytes t.blocks d = pre ++ suf ∧ _
  rcases w11 with w | w | w
  · refine ⟨pre, suf ++ [b], by rw [ha]; simp, ?_, by rw [w.discard]; exact hd, ?_⟩
    · rw [w.blocks]; exact hu.snoc hb1 hb2.symm
    · intro h0; rw [w.blocks] at h0; simp at h0
  · refine ⟨pre, suf ++ [b], by rw [ha]; simp, ?_, by rw [w.discard]; exact hd, ?_⟩
    · rw [w.blocks]; exact hu.snoc hb1 hb2.symm
    · intro h0; rw [w.blocks] at h0; simp at h0
  · refine ⟨pre ++ suf, [b], by rw [ha], ?_, by rw [w.discard, hu.length]; simp, ?_⟩
    · rw [w.blocks]; exact ⟨⟨hb1, hb2.symm⟩, trivial⟩
    · intro h0; rw [w.blocks] at h0; simp at h0

theorem Modest.write {M H B : Nat} {fresh : Bool} {r : RBBuf} {m : Mem} {t : BufSpec} (h : Modest M H B fresh r m t) (hB : (H + 3 * M) * 3 / 2 ≤ B)
    (d : Bytes) (hl : t.liveBytes ≤ H) (hp : t.pendingBytes + d.length ≤ M) {r' : RBBuf} {m' : Mem} (e : r.write m d = ok (r', m')) :
    Modest M H B true r' m' { t with blocks := BufSpec.addBytes t.blocks d, all := t.all ++ d } := by
  have hwf : WF r' m' := wf_step (o := .write d) (x := .unit) h.shadow.wf (by simp [BufOp.runR, e])
  obtain ⟨bs, old, o1, o2, o3, o4, o5⟩ := r.opened_blocks
  obtain ⟨hpend, pre, suf, b, ha, hu, hb2, hb1, hd⟩ := h.shadow.opened d o2 o5
  obtain ⟨r₁, m₁, k, e₁, w1, w2, w3, w4, w5, w6, w7, w8, w9, w10, w11⟩ := write_ok h.shadow.wf d o1 o2 o3 o4 (h.shadow.wf.opened_fits o5)
  rw [e] at e₁
  obtain ⟨rfl, rfl⟩ : r' = r₁ ∧ m' = m₁ := by simpa using e₁
  have hlive : blockSum r.blocks ≤ H := Nat.le_trans h.shadow.live hl
  have hsm : r'.data.len ≠ r.data.len → r.data.len < H + 2 * M := by
    intro hne
    rcases Nat.lt_or_ge r.data.len (H + 2 * M) with hlt | hge
    · exact hlt
    · exfalso
      obtain ⟨h0, t0, L⟩ := h.load hge
      obtain ⟨r2, m2, e2, L'⟩ := L.write d (by rw [L.live]; exact Nat.le_trans (Nat.add_le_add_right hlive _) hge) (by
        have : t0.pendingBytes ≤ old.size := by
          unfold BufSpec.pendingBytes
          rw [← L.map, show (r.disc 0).blocks = r.blocks from rfl, List.getLast?_map]
          rcases o5 with o5 | ⟨o5, o6, o7⟩
          · rw [o5]
            simp only [List.getLast?_append, List.getLast?_singleton, Option.some_or, Option.map_some, cont, o2]
            exact Nat.le_of_eq (L.size_eq old (by show old ∈ r.blocks; rw [o5]; simp))
          · rw [o5]
            cases hg : bs.getLast? with
            | none => exact Nat.zero_le _
            | some k => simp only [Option.map_some, cont, o7 k hg]; exact Nat.zero_le _
        omega)
      obtain ⟨j, e3⟩ := write_disc 0 e
      rw [e2] at e3
      simp only [ok.injEq, Prod.mk.injEq] at e3
      have hlen := L'.len
      rw [e3.1] at hlen
      exact hne hlen
  refine ⟨h.shadow.write d e, ?_, ?_⟩
  · rcases write_len e with hq | hq
    · rw [hq]; exact h.len
    · by_cases hne : r'.data.len = r.data.len
      · rw [hne]; exact h.len
      · have := hsm hne
        rw [hq]
        omega
  · intro hge
    by_cases hne : r'.data.len = r.data.len
    · rw [hne] at hge
      obtain ⟨h0, t0, L⟩ := h.load hge
      obtain ⟨r2, m2, e2, L'⟩ := L.write d (by rw [L.live]; exact Nat.le_trans (Nat.add_le_add_right hlive _) hge) (by
        have : t0.pendingBytes ≤ old.size := by
          unfold BufSpec.pendingBytes
          rw [← L.map, show (r.disc 0).blocks = r.blocks from rfl, List.getLast?_map]
          rcases o5 with o5 | ⟨o5, o6, o7⟩
          · rw [o5]
            simp only [List.getLast?_append, List.getLast?_singleton, Option.some_or, Option.map_some, cont, o2]
            exact Nat.le_of_eq (L.size_eq old (by show old ∈ r.blocks; rw [o5]; simp))
          · rw [o5]
            cases hg : bs.getLast? with
            | none => exact Nat.zero_le _
            | some k => simp only [Option.map_some, cont, o7 k hg]; exact Nat.zero_le _
        omega)
      obtain ⟨j, e3⟩ := write_disc 0 e
      rw [e2] at e3
      simp only [ok.injEq, Prod.mk.injEq] at e3
      obtain ⟨e3, e4⟩ := e3
      subst e4
      have hj : j = 0 := by have := L'.disc; rw [e3] at this; exact this
      subst hj
      rw [e3] at L'
      rw [hne]
      exact ⟨_, _, L'⟩
    · have w : Grown r m d.length bs old r' m' := by
        rcases w11 with w | w | w
        · exact absurd (by rw [w.data]) hne
        · exact absurd (by rw [w.data]) hne
        · exact w
      have hk := w10
      refine ⟨r'.blocks.map (r'.entry m'), ⟨r'.blocks.map (r'.cont m'), [], false⟩, ⟨⟨⟨hwf.arr, hwf.len, hwf.cap, hwf.fits, hwf.off, hwf.done⟩, ?_, [], rfl, rfl, by simp⟩,
        ?_, rfl, rfl, by show r'.sealed = false; rw [w1]; exact h.shadow.sealed, rfl, rfl⟩⟩
      · show Geo r'.blocks r'.capacity
        rw [w.blocks]
        refine .linear 0 (old.size + d.length) ⟨rfl, by simp [Chain]⟩ ?_
        rw [w.cap]
        have := hwf.fits ⟨0, old.size + d.length, false⟩ (by rw [w.blocks]; simp)
        simpa using this
      · show Tight r'.blocks r'.capacity r'.data.len M true
        rw [w.blocks]
        refine .linear 0 (old.size + d.length) ⟨rfl, by simp [Chain]⟩ ?_ (.inl w.cap)
        have := hwf.fits ⟨0, old.size + d.length, false⟩ (by rw [w.blocks]; simp)
        simpa using this

theorem Under.drop {ks : List Block} {bs : List (Bytes × Bool)} (h : Under ks bs) : Under (ks.drop 1) (bs.drop 1) := by
  cases ks with
  | nil => cases bs with
    | nil => exact trivial
    | cons _ _ => exact h.elim
  | cons k ks => cases bs with
    | nil => exact h.elim
    | cons b bs => exact h.2

theorem norm_blocks (t : BufSpec) : (BufSpec.norm t).blocks = t.blocks ∧ (BufSpec.norm t).sealed = t.sealed := by
  unfold BufSpec.norm; split <;> exact ⟨rfl, rfl⟩

theorem load_step {M cap : Nat} {fresh : Bool} {r r' : RBBuf} {m m' : Mem} {h : Held} {t : BufSpec} {x : BufObs} (L : Load M cap fresh r m h t)
    {o : BufOp} (h1 : o ≠ .splitOff ∧ o ≠ .data) (h0 : o = .popBack → fresh = true) (hw : ∀ d, o ≠ .write d)
    (e : o.runR (r, m) = ok (x, (r', m'))) : ∃ h' t', Load M cap (o.fresh fresh) r' m' h' t' := by
  rcases L.step o h1 h0 (fun d hd => absurd hd (hw d)) with ⟨e1, _⟩ | ⟨_, r1, m1, h', t', e1, _, _, L'⟩
  · rw [e] at e1; cases e1
  · rw [e] at e1
    simp only [ok.injEq, Prod.mk.injEq] at e1
    obtain ⟨_, rfl, rfl⟩ := e1
    exact ⟨h', t', L'⟩

theorem Shadow.step {r r' : RBBuf} {m m' : Mem} {t : BufSpec} {x : BufObs} (h : Shadow r m t) (o : BufOp) (h1 : o ≠ .splitOff)
    (e : o.runR (r, m) = ok (x, (r', m'))) : ∃ y t', o.spec t = ok (y, t') ∧ Shadow r' m' t' := by
  have hwf := wf_step h.wf e
  cases o with
  | write d =>
    simp only [BufOp.runR, bind_eq_ok, pure_def, ok.injEq, Prod.mk.injEq] at e
    obtain ⟨⟨r1, m1⟩, e1, _, rfl, rfl⟩ := e
    exact ⟨.unit, _, by simp only [BufOp.spec, h.sealedT]; rw [if_neg (by simp)], h.write d e1⟩
  | fetch =>
    have hrun := e
    simp only [BufOp.runR, fetch, bind_eq_ok, pure_def, ok.injEq, Prod.mk.injEq] at e
    obtain ⟨⟨s, r1⟩, ⟨⟨s1, b1⟩, e1, _, rfl⟩, _, rfl, rfl⟩ := e
    obtain ⟨pre, suf, et, hu, hd, hn⟩ := h.rel
    simp only [DirectBuf.fetch, bind_eq_ok] at e1
    obtain ⟨_, _, e1⟩ := e1
    rcases list_snoc_cases r.blocks with hb | ⟨ks, k, hb⟩
    · rw [show r.toDirectBuf.blocks = r.blocks from rfl, hb] at e1; cases e1
    · rw [show r.toDirectBuf.blocks = r.blocks from rfl, hb] at e1
      rw [hb] at hu
      obtain ⟨cs, ⟨c, f⟩, rfl, hu1, hu2, hu3⟩ := hu.of_snoc
      rw [← List.append_assoc] at et
      simp only [List.getLast?_append, List.getLast?_singleton, Option.some_or] at e1
      simp only at hu2 hu3
      subst hu3
      by_cases hc : k.completed = true
      · rw [if_pos hc] at e1
        simp only [pure_def, ok.injEq, Prod.mk.injEq] at e1
        obtain ⟨_, rfl⟩ := e1
        exact ⟨.bytes none, t, by simp [BufOp.spec, h.sealedT, et, hc], h⟩
      · rw [if_neg hc] at e1
        have hc' : k.completed = false := by simpa using hc
        simp only [bind_eq_ok, pure_def, ok.injEq, Prod.mk.injEq] at e1
        obtain ⟨_, _, _, rfl⟩ := e1
        refine ⟨.bytes (some c), { t with blocks := pre ++ (cs ++ [(c, true)]) }, by simp [BufOp.spec, h.sealedT, et, hc'], hwf, h.sealed, h.sealedT, ?_, ⟨pre, cs ++ [(c, true)], ?_, ?_, hd, ?_⟩⟩
        · have := h.done
          rw [et, List.dropLast_concat] at this
          show ∀ b ∈ (pre ++ (cs ++ [(c, true)])).dropLast, b.2 = true
          rw [← List.append_assoc, List.dropLast_concat]; exact this
        · rfl
        · show Under (updLast (ks ++ [k]) _) _
          rw [updLast_concat]
          exact hu1.snoc hu2 rfl
        · intro h9
          replace h9 : updLast (ks ++ [k]) (fun k => { k with completed := true }) = [] := h9
          rw [updLast_concat] at h9
          simp at h9
  | pop =>
    have hrun := e
    simp only [BufOp.runR, bind_eq_ok, pure_def, ok.injEq, Prod.mk.injEq] at e
    obtain ⟨r1, e1, _, rfl, rfl⟩ := e
    obtain ⟨pre, suf, et, hu, hd, hn⟩ := h.rel
    have hdone : ∀ b ∈ (t.blocks.drop 1).dropLast, b.2 = true := by
      intro b hb
      refine h.done b ?_
      cases ht : t.blocks with
      | nil => rw [ht] at hb; simp at hb
      | cons a as => rw [ht] at hb; cases as with
        | nil => simp at hb
        | cons a' as => simp only [List.drop_succ_cons, List.drop_zero] at hb; exact List.mem_cons_of_mem _ hb
    refine ⟨.unit, BufSpec.norm { t with blocks := t.blocks.drop 1 }, by simp only [BufOp.spec, h.sealedT]; rw [if_neg (by simp)], ?_⟩
    have hbl := norm_blocks { t with blocks := t.blocks.drop 1 }
    have e0 := e1
    unfold pop at e1
    simp only [bind_eq_ok] at e1
    obtain ⟨_, _, e1⟩ := e1
    by_cases hpos : r.discardBlockCount > 0
    · rw [if_pos hpos] at e1
      simp only [pure_def, ok.injEq] at e1
      subst e1
      refine ⟨hwf, h.sealed, by rw [hbl.2]; exact h.sealedT, by rw [hbl.1]; exact hdone, ⟨pre.drop 1, suf, ?_, hu, ?_, ?_⟩⟩
      · rw [hbl.1, show ({ t with blocks := t.blocks.drop 1 } : BufSpec).blocks = t.blocks.drop 1 from rfl, et]
        cases pre with
        | nil => simp at hd; omega
        | cons a pre => rfl
      · show r.discardBlockCount - 1 ≤ _
        rw [List.length_drop]; omega
      · intro h9
        rcases hn h9 with hn | hn
        · omega
        · right
          rw [hbl.1]
          intro b hb
          refine hn b ?_
          replace hb : (t.blocks.drop 1).getLast? = some b := hb
          cases ht : t.blocks with
          | nil => rw [ht] at hb; simp at hb
          | cons a as => rw [ht] at hb; cases as with
            | nil => simp at hb
            | cons a' as => rw [List.getLast?_cons_cons]; exact hb
    · have hz : r.discardBlockCount = 0 := by omega
      rw [if_neg hpos] at e1
      have hr0 : r.disc 0 = r := by unfold disc; rw [← hz]
      have hr1 : r1.blocks = r.blocks.drop 1 ∧ r1.discardBlockCount = 0 ∧ r1.sealed = r.sealed ∧ r1.data = r.data := by
        simp only [DirectBuf.pop, bind_eq_ok, pure_def, ok.injEq] at e1
        obtain ⟨b, ⟨_, _, rfl⟩, e1⟩ := e1
        have h3 : ∀ q : DirectBuf, q.resetIfEmpty.blocks = q.blocks ∧ q.resetIfEmpty.sealed = q.sealed ∧ q.resetIfEmpty.data = q.data := by
          intro q; unfold DirectBuf.resetIfEmpty; split <;> exact ⟨rfl, rfl, rfl⟩
        have h4 := h3 { r.toDirectBuf with blocks := r.toDirectBuf.blocks.drop 1 }
        split at e1
        · simp only [ok.injEq] at e1; subst e1; exact ⟨h4.1, hz, h4.2.1, h4.2.2⟩
        · split at e1
          · simp only [ok.injEq] at e1; subst e1; exact ⟨h4.1, hz, h4.2.1, h4.2.2⟩
          · simp only [ok.injEq] at e1; subst e1; exact ⟨h4.1, hz, h4.2.1, h4.2.2⟩
      refine ⟨hwf, by rw [hr1.2.2.1]; exact h.sealed, by rw [hbl.2]; exact h.sealedT, by rw [hbl.1]; exact hdone, ?_⟩
      · rw [hbl.1, hr1.1, hr1.2.1, show ({ t with blocks := t.blocks.drop 1 } : BufSpec).blocks = t.blocks.drop 1 from rfl, et]
        cases pre with
        | nil => exact ⟨[], suf.drop 1, rfl, hu.drop, Nat.zero_le _, fun _ => .inl rfl⟩
        | cons a pre =>
          refine ⟨pre ++ suf.take 1, suf.drop 1, ?_, hu.drop, Nat.zero_le _, fun _ => .inl rfl⟩
          rw [List.append_assoc, List.take_append_drop]; rfl
  | popBack =>
    have hrun := e
    simp only [BufOp.runR, popBack, bind_eq_ok, pure_def, ok.injEq, Prod.mk.injEq] at e
    obtain ⟨r1, ⟨b1, e1, rfl⟩, _, rfl, rfl⟩ := e
    obtain ⟨pre, suf, et, hu, hd, hn⟩ := h.rel
    simp only [DirectBuf.popBack, bind_eq_ok, pure_def, ok.injEq] at e1
    obtain ⟨_, _, _, hne, rfl⟩ := e1
    have h3 : ∀ q : DirectBuf, q.resetIfEmpty.blocks = q.blocks ∧ q.resetIfEmpty.sealed = q.sealed ∧ q.resetIfEmpty.data = q.data := by
      intro q; unfold DirectBuf.resetIfEmpty; split <;> exact ⟨rfl, rfl, rfl⟩
    have h4 := h3 { r.toDirectBuf with blocks := r.toDirectBuf.blocks.dropLast }
    rcases list_snoc_cases r.blocks with hb | ⟨ks, k, hb⟩
    · rw [show r.toDirectBuf.blocks = r.blocks from rfl, hb] at hne; cases hne
    · rw [hb] at hu
      obtain ⟨cs, ⟨c, f⟩, rfl, hu1, hu2, hu3⟩ := hu.of_snoc
      rw [← List.append_assoc] at et
      have hbl := norm_blocks { t with blocks := t.blocks.dropLast }
      have hbt : ({ t with blocks := t.blocks.dropLast } : BufSpec).blocks = pre ++ cs := by
        show t.blocks.dropLast = _
        rw [et, List.dropLast_concat]
      have hdone := h.done
      rw [et, List.dropLast_concat] at hdone
      refine ⟨.unit, BufSpec.norm { t with blocks := t.blocks.dropLast }, ?_, hwf, ?_, by rw [hbl.2]; exact h.sealedT, ?_, ⟨pre, cs, ?_, ?_, hd, ?_⟩⟩
      · simp only [BufOp.spec, h.sealedT]
        rw [if_neg (by simp), if_neg (by rw [et]; simp)]
      · show DirectBuf.sealed _ = false
        rw [h4.2.1]; exact h.sealed
      · rw [hbl.1, hbt]
        intro b hb
        exact hdone b (List.dropLast_subset _ hb)
      · rw [hbl.1, hbt]
      · show Under (DirectBuf.blocks _) _
        rw [h4.1]
        show Under r.blocks.dropLast cs
        rw [hb, List.dropLast_concat]; exact hu1
      · intro _
        right
        rw [hbl.1, hbt]
        intro b hb
        exact hdone b (List.mem_of_getLast? hb)
  | clear =>
    simp only [BufOp.runR, ok.injEq, Prod.mk.injEq] at e
    obtain ⟨_, rfl, rfl⟩ := e
    refine ⟨_, _, rfl, hwf, rfl, rfl, ?_, ⟨[], [], rfl, trivial, Nat.zero_le _, fun _ => .inl rfl⟩⟩
    intro b hb; simp [BufSpec.empty] at hb
  | pending =>
    simp only [BufOp.runR, ok.injEq, Prod.mk.injEq] at e
    obtain ⟨_, rfl, rfl⟩ := e
    simp only [BufOp.spec]
    split <;> exact ⟨_, _, rfl, h⟩
  | size =>
    simp only [BufOp.runR, ok.injEq, Prod.mk.injEq] at e
    obtain ⟨_, rfl, rfl⟩ := e
    exact ⟨_, _, rfl, h⟩
  | data =>
    simp only [BufOp.runR, ok.injEq, Prod.mk.injEq] at e
    obtain ⟨_, rfl, rfl⟩ := e
    exact ⟨_, _, rfl, h⟩
  | splitOff => exact absurd rfl h1

/-- What the operations other than `Write` do to the array: nothing. -/
theorem len_step {o : BufOp} {r r' : RBBuf} {m m' : Mem} {x : BufObs} (hw : ∀ d, o ≠ .write d) (e : o.runR (r, m) = ok (x, (r', m'))) :
    r'.data = r.data := by
  have h3 : ∀ q : DirectBuf, q.resetIfEmpty.data = q.data := by intro q; unfold DirectBuf.resetIfEmpty; split <;> rfl
  cases o with
  | write d => exact absurd rfl (hw d)
  | fetch =>
    simp only [BufOp.runR, fetch, DirectBuf.fetch, bind_eq_ok, pure_def, ok.injEq, Prod.mk.injEq] at e
    obtain ⟨⟨s, r1⟩, ⟨⟨s1, b1⟩, ⟨_, _, e1⟩, _, rfl⟩, _, rfl, rfl⟩ := e
    split at e1
    · cases e1
    · split at e1
      · simp only [ok.injEq, Prod.mk.injEq] at e1; rw [← e1.2]
      · simp only [bind_eq_ok, ok.injEq, Prod.mk.injEq] at e1
        obtain ⟨_, _, _, rfl⟩ := e1; rfl
  | pop =>
    simp only [BufOp.runR, pop, DirectBuf.pop, bind_eq_ok, pure_def, ok.injEq, Prod.mk.injEq] at e
    obtain ⟨r1, ⟨_, _, e1⟩, _, rfl, rfl⟩ := e
    split at e1
    · simp only [ok.injEq] at e1; rw [← e1]
    · simp only [bind_eq_ok, ok.injEq] at e1
      obtain ⟨b, ⟨_, _, rfl⟩, e1⟩ := e1
      split at e1
      · simp only [ok.injEq] at e1; rw [← e1]; exact h3 _
      · split at e1 <;> (simp only [ok.injEq] at e1; rw [← e1]; exact h3 _)
  | popBack =>
    simp only [BufOp.runR, popBack, DirectBuf.popBack, bind_eq_ok, pure_def, ok.injEq, Prod.mk.injEq] at e
    obtain ⟨r1, ⟨b, ⟨_, _, _, _, rfl⟩, rfl⟩, _, rfl, rfl⟩ := e
    exact h3 _
  | splitOff =>
    simp only [BufOp.runR, splitOff, DirectBuf.splitOff, bind_eq_ok, pure_def, ok.injEq, Prod.mk.injEq] at e
    obtain ⟨⟨n, r1⟩, ⟨⟨_, _⟩, ⟨_, _, _, rfl⟩, _, rfl⟩, _, rfl, rfl⟩ := e
    rfl
  | clear => simp only [BufOp.runR, ok.injEq, Prod.mk.injEq] at e; rw [← e.2.1]; rfl
  | pending => simp only [BufOp.runR, ok.injEq, Prod.mk.injEq] at e; rw [← e.2.1]
  | size => simp only [BufOp.runR, ok.injEq, Prod.mk.injEq] at e; rw [← e.2.1]
  | data => simp only [BufOp.runR, ok.injEq, Prod.mk.injEq] at e; rw [← e.2.1]

theorem Modest.step {M H B : Nat} {fresh : Bool} {r r' : RBBuf} {m m' : Mem} {t : BufSpec} {x : BufObs} (h : Modest M H B fresh r m t)
    (hB : (H + 3 * M) * 3 / 2 ≤ B) (o : BufOp) (h1 : o ≠ .splitOff) (h0 : o = .popBack → fresh = true)
    (h2 : ∀ d, o = .write d → t.liveBytes ≤ H ∧ t.pendingBytes + d.length ≤ M) (e : o.runR (r, m) = ok (x, (r', m'))) :
    ∃ y t', o.spec t = ok (y, t') ∧ Modest M H B (o.fresh fresh) r' m' t' := by
  by_cases hw : ∃ d, o = .write d
  · obtain ⟨d, rfl⟩ := hw
    simp only [BufOp.runR, bind_eq_ok, pure_def, ok.injEq, Prod.mk.injEq] at e
    obtain ⟨⟨r1, m1⟩, e1, _, rfl, rfl⟩ := e
    exact ⟨.unit, _, by simp only [BufOp.spec, h.shadow.sealedT]; rw [if_neg (by simp)], h.write hB d (h2 d rfl).1 (h2 d rfl).2 e1⟩
  have hw' : ∀ d, o ≠ .write d := fun d hd => hw ⟨d, hd⟩
  obtain ⟨y, t', es, hs⟩ := h.shadow.step o h1 e
  have hl := len_step hw' e
  refine ⟨y, t', es, hs, by rw [hl]; exact h.len, ?_⟩
  rw [hl]
  intro hge
  obtain ⟨h', t0, L⟩ := h.load hge
  cases o with
  | write d => exact absurd rfl (hw' d)
  | splitOff => exact absurd rfl h1
  | fetch =>
    simp only [BufOp.runR, fetch, bind_eq_ok, pure_def, ok.injEq, Prod.mk.injEq] at e
    obtain ⟨⟨s, r1⟩, ⟨⟨s1, b1⟩, e1, _, rfl⟩, _, rfl, rfl⟩ := e
    exact load_step (o := .fetch) (x := .bytes (s1.map m.read)) L (by simp) (by simp) (by simp) (by
      simp only [BufOp.runR, fetch]
      rw [show (r.disc 0).toDirectBuf = r.toDirectBuf from rfl, e1]; rfl)
  | pop =>
    by_cases hpos : r.discardBlockCount > 0
    · simp only [BufOp.runR, pop, bind_eq_ok, pure_def, ok.injEq, Prod.mk.injEq] at e
      obtain ⟨r1, ⟨_, _, e1⟩, _, rfl, rfl⟩ := e
      rw [if_pos hpos] at e1
      simp only [ok.injEq] at e1
      subst e1
      exact ⟨h', t0, L⟩
    · have hz : r.discardBlockCount = 0 := by omega
      have hr0 : r.disc 0 = r := by unfold disc; rw [← hz]
      rw [hr0] at L
      obtain ⟨h2', t2, L2⟩ := load_step L (o := .pop) (by simp) (by simp) (by simp) e
      have hr2 : r'.disc 0 = r' := by unfold disc; rw [← L2.disc]
      rw [hr2]
      exact ⟨h2', t2, L2⟩
  | popBack =>
    simp only [BufOp.runR, popBack, bind_eq_ok, pure_def, ok.injEq, Prod.mk.injEq] at e
    obtain ⟨r1, ⟨b1, e1, rfl⟩, _, rfl, rfl⟩ := e
    exact load_step (o := .popBack) (x := .unit) L (by simp) h0 (by simp) (by
      simp only [BufOp.runR, popBack]
      rw [show (r.disc 0).toDirectBuf = r.toDirectBuf from rfl, e1]; rfl)
  | clear =>
    simp only [BufOp.runR, ok.injEq, Prod.mk.injEq] at e
    obtain ⟨_, rfl, rfl⟩ := e
    exact load_step (o := .clear) (x := .unit) L (by simp) (by simp) (by simp) rfl
  | pending => simp only [BufOp.runR, ok.injEq, Prod.mk.injEq] at e; obtain ⟨_, rfl, rfl⟩ := e; exact ⟨h', t0, L⟩
  | size => simp only [BufOp.runR, ok.injEq, Prod.mk.injEq] at e; obtain ⟨_, rfl, rfl⟩ := e; exact ⟨h', t0, L⟩
  | data => simp only [BufOp.runR, ok.injEq, Prod.mk.injEq] at e; obtain ⟨_, rfl, rfl⟩ := e; exact ⟨h', t0, L⟩

theorem Shadow_new (cap : Nat) (m : Mem) : Shadow (RBBuf.new m cap).1 (RBBuf.new m cap).2 BufSpec.empty :=
  ⟨(Inv_new m cap).wf, rfl, rfl, by intro b hb; simp [BufSpec.empty] at hb, ⟨[], [], rfl, trivial, Nat.zero_le _, fun _ => .inl rfl⟩⟩

theorem Modest_new (M H B cap : Nat) (m : Mem) (hB : cap ≤ B) : Modest M H B false (RBBuf.new m cap).1 (RBBuf.new m cap).2 BufSpec.empty := by
  have L := Load_new M cap m
  exact ⟨Shadow_new cap m, hB, fun _ => ⟨_, _, L⟩⟩

theorem Modest.run {M H B : Nat} (hB : (H + 3 * M) * 3 / 2 ≤ B) : ∀ (ops : List BufOp) (fresh : Bool) (r r' : RBBuf) (m m' : Mem) (t : BufSpec) (xs : List BufObs),
    Modest M H B fresh r m t → ModestLoad M H fresh ops t → runTrace BufOp.runR ops (r, m) = ok (xs, (r', m')) → r'.data.len ≤ B := by
  intro ops
  induction ops with
  | nil =>
    intro fresh r r' m m' t xs h _ e
    simp only [runTrace, ok.injEq, Prod.mk.injEq] at e
    rw [← e.2.1]; exact h.len
  | cons o os ih =>
    intro fresh r r' m m' t xs h hl e
    simp only [runTrace, bind_eq_ok, pure_def, ok.injEq, Prod.mk.injEq] at e
    obtain ⟨⟨x, r1, m1⟩, e1, ⟨ys, r2, m2⟩, e2, _, rfl, rfl⟩ := e
    obtain ⟨h1, h2, h3, h4⟩ := hl
    obtain ⟨y, t', es, h'⟩ := h.step hB o h1 h2 h3 e1
    exact ih _ _ _ _ _ _ _ h' (h4 y t' es) e2

end RBBuf
end Avf
