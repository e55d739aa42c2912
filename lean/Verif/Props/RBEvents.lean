import Verif.Lemmas.RBGeo
import Verif.Spec.RingRoom
/-! # C21, C23, C82: `SplitOff` of the ring, what the two bad events of the ring do, and how much room it really has -/
namespace Avf
open Go

theorem RBBuf.trace_wf {m₀ : Mem} {cap : Nat} {ops : List BufOp} {xs : List BufObs} {r : RBBuf} {m : Mem}
    (e : runTrace BufOp.runR ops (RBBuf.new m₀ cap) = ok (xs, (r, m))) : RBBuf.WF r m := by
  suffices h : ∀ (ops : List BufOp) (s : RBBuf × Mem) (t : RingSt) (xs : List BufObs), RBBuf.R s t →
      runTrace BufOp.runR ops s = ok (xs, (r, m)) → RBBuf.WF r m from h ops _ _ _ (RBBuf.R_new m₀ cap) e
  intro ops
  induction ops with
  | nil =>
    intro s t xs h e
    simp only [runTrace, ok.injEq, Prod.mk.injEq] at e
    have := h.wf
    rw [e.2] at this
    exact this
  | cons o ops ih =>
    intro s t xs h e
    simp only [runTrace, bind_eq_ok] at e
    obtain ⟨⟨x, s1⟩, e1, ⟨ys, s2⟩, e2, e3⟩ := e
    simp only [pure_def, ok.injEq, Prod.mk.injEq] at e3
    obtain ⟨_, rfl⟩ := e3
    have := RBBuf.R.sim h o
    rw [e1] at this
    obtain ⟨t1, _, h1⟩ := this
    exact ih _ _ _ h1 e2

/-- **C82** for the ring, what is true: `AvailableBytes` is 0 whatever the ring holds, and what a `Write` can store without new memory
is `room`; it is never negative, so the report is on the safe side. -/
theorem C82_ring_room (m₀ : Mem) (cap : Nat) (ops : List BufOp) (xs : List BufObs) (r : RBBuf) (m : Mem) (d : Bytes) (hd : d ≠ [])
    (e : runTrace BufOp.runR ops (RBBuf.new m₀ cap) = ok (xs, (r, m))) :
    r.availableBytes = 0 ∧ ∃ r' m', r.write m d = ok (r', m') ∧ (r'.data.arr = r.data.arr ↔ d.length ≤ r.room) := by
  have h1 := RBBuf.trace_wf e
  refine ⟨rfl, ?_⟩
  obtain ⟨bs, old, o1, o2, o3, o4, o5⟩ := r.opened_blocks
  obtain ⟨r', m', k, e', w1, w2, w3, w4, w5, w6, w7, w8, w9, w10, w11⟩ := RBBuf.write_ok h1 d o1 o2 o3 o4 (h1.opened_fits o5)
  refine ⟨r', m', e', ?_⟩
  have hn : 0 < d.length := List.length_pos_iff.2 hd
  have hcap := r.opened_fields.2.2.2.2
  have harr := h1.arr
  have key : (d.length ≤ r.room) ↔ ((r.headTail.2 < r.headTail.1 ∧ r.headTail.2 + d.length ≤ r.headTail.1) ∨
      (¬ r.headTail.2 < r.headTail.1 ∧ (r.headTail.2 + d.length ≤ r.opened.capacity ∨ old.size + d.length ≤ r.headTail.1))) := by
    have hold : ∀ y z, r.blocks.head? = some y → r.blocks.getLast? = some z → old.size = if z.completed then 0 else z.size := by
      intro y z hy hz
      rcases o5 with o5 | ⟨o5, o6, o7⟩
      · rw [o5, List.getLast?_append] at hz
        simp only [List.getLast?_singleton, Option.some_or, Option.some.injEq] at hz
        subst hz
        rw [o2]; rfl
      · rw [o6, if_pos (o7 z (by rw [← o5]; exact hz))]
    unfold RBBuf.room RBBuf.headTail
    rw [hcap]
    cases hb : r.blocks with
    | nil => simp only [List.head?_nil, List.length_nil, Nat.zero_le, if_true]; constructor <;> intro <;> omega
    | cons y l =>
      have hz : ∃ z, (y :: l).getLast? = some z := by
        cases hl : (y :: l).getLast? with
        | none => simp at hl
        | some z => exact ⟨z, rfl⟩
      obtain ⟨z, hz⟩ := hz
      have hlen : ((y :: l).length ≤ 1) = ((y :: l).length = 1) := by simp
      have := hold y z (by rw [hb]; rfl) (by rw [hb]; exact hz)
      simp only [hz, List.head?_cons, hlen]
      rw [← this]
      generalize (if (y :: l).length = 1 then r.data.len else r.capacity) = lim
      by_cases hlt : z.index + z.size < y.index
      · rw [if_pos hlt]; constructor <;> intro <;> omega
      · rw [if_neg hlt]; constructor <;> intro <;> omega
  rw [key]
  rcases w11 with w | w | w
  · refine iff_of_true (by rw [w.data]) ?_
    rcases w.cond with c | c
    · exact Or.inl c
    · exact Or.inr ⟨c.1, Or.inl c.2⟩
  · refine iff_of_true (by rw [w.data]) ?_
    exact Or.inr ⟨w.cond.1, Or.inr w.cond.2.2⟩
  · refine iff_of_false (by rw [w.data]; omega) ?_
    rcases w.cond with c | c <;> omega

/-- The first bad event of **C23** always does harm: if the ring is exactly full after wrapping and the bytes written fit behind its end,
they overwrite the oldest block, which the client still holds. -/
theorem C23_full_overwrites (m₀ : Mem) (cap : Nat) (ops : List BufOp) (r r' : RBBuf) (m m' : Mem) (h : Held)
    (hs : RBBuf.Safe ops ((RBBuf.new m₀ cap).1, (RBBuf.new m₀ cap).2, []))
    (e : runClientR ops ((RBBuf.new m₀ cap).1, (RBBuf.new m₀ cap).2, []) = ok (r, m, h)) (hf : r.Full) (d : Bytes)
    (hd : r.headTail.2 + d.length ≤ r.capacity) (ew : r.write m d = ok (r', m')) :
    ∃ k, r.blocks.head? = some k ∧ some (r.ref k, m.read (r.ref k)) ∈ h ∧
      m'.read (r.ref k) = d.take k.size ++ (m.read (r.ref k)).drop d.length := by
  have H := (RBBuf.Inv_new m₀ cap).run hs e
  obtain ⟨h1, hg, disc, hh, hdl, hdisc⟩ := H
  have h2 : ∃ k l, r.blocks = k :: l ∧ l ≠ [] := by
    cases hb : r.blocks with
    | nil => have := hf.2; rw [hb] at this; simp at this
    | cons k l =>
      refine ⟨k, l, rfl, ?_⟩
      rintro rfl
      have h3 := hf.1
      have h4 := hf.2
      unfold RBBuf.headTail at h3
      rw [hb] at h3 h4
      simp at h3 h4
      omega
  obtain ⟨k, l, hb, hl⟩ := h2
  have hkc : k.completed = true := by
    refine h1.done k ?_
    rw [hb]
    cases l with
    | nil => exact absurd rfl hl
    | cons y l => simp
  have hhead : r.headTail.1 = k.index := by
    unfold RBBuf.headTail
    rw [hb]
    cases hz : (k :: l).getLast? with
    | none => simp at hz
    | some z => rfl
  have hkl := h1.fits k (by rw [hb]; exact List.mem_cons_self ..)
  refine ⟨k, by rw [hb]; rfl, ?_, ?_⟩
  · rw [hh]
    refine List.mem_append_right _ (List.mem_map.2 ⟨k, by rw [hb]; exact List.mem_cons_self .., ?_⟩)
    unfold RBBuf.entry
    rw [if_pos hkc]
  · obtain ⟨bs, old, o1, o2, o3, o4, o5⟩ := r.opened_blocks
    obtain ⟨r₁, m₁, k', e', w1, w2, w3, w4, w5, w6, w7, w8, w9, w10, w11⟩ := RBBuf.write_ok h1 d o1 o2 o3 o4 (h1.opened_fits o5)
    rw [ew] at e'
    simp only [ok.injEq, Prod.mk.injEq] at e'
    obtain ⟨rfl, rfl⟩ := e'
    have hcap : r.capacity ≤ r.opened.capacity := by
      rw [r.opened_fields.2.2.2.2]; have := h1.cap; split <;> omega
    have hf1 := hf.1
    rcases w11 with w | w | w
    · have hk' : k' = ⟨old.index, old.size + d.length, false⟩ := by
        have := w3; rw [w.blocks] at this; simp at this; exact this.symm
      rw [hk'] at w5
      have hnew : m'.read ⟨r.data.arr, r.data.off + k.index, d.length⟩ = d := by
        have h5 : m'.read ⟨r.data.arr, r.data.off + old.index, old.size + d.length⟩ = m.read (r.ref old) ++ d := by
          have : r'.ref ⟨old.index, old.size + d.length, false⟩ = ⟨r.data.arr, r.data.off + old.index, old.size + d.length⟩ := by
            unfold RBBuf.ref; rw [w.data]
          rw [← this]; exact w5
        rw [Mem.read_split] at h5
        have hle : (m'.read ⟨r.data.arr, r.data.off + old.index, old.size⟩).length = (m.read (r.ref old)).length := by
          have hfo := h1.opened_fits o5 old (by simp)
          have l1 := h1.len
          have l2 := w7
          rw [w.data] at l2
          rw [Mem.length_read _ _ (by simp only; omega), Mem.length_read _ _ (by simp only [RBBuf.ref]; omega)]
          rfl
        rw [show r.data.off + k.index = r.data.off + old.index + old.size by omega]
        exact (List.append_inj h5 hle).2
      unfold RBBuf.ref
      by_cases hc : d.length ≤ k.size
      · obtain ⟨c, hc'⟩ : ∃ c, k.size = d.length + c := ⟨k.size - d.length, by omega⟩
        rw [hc', Mem.read_split, hnew, List.take_of_length_le (by omega), Mem.read_split]
        congr 1
        have hl1 : (m.read ⟨r.data.arr, r.data.off + k.index, d.length⟩).length = d.length := by
          rw [Mem.length_read]
          have := h1.len
          simp only; omega
        rw [List.drop_append_of_le_length (by omega), List.drop_of_length_le (by omega), List.nil_append]
        exact w.frame _ (Or.inr (Or.inr (by simp only; omega)))
      · have := Mem.read_sub m' r.data.arr (r.data.off + k.index) d.length 0 k.size (by omega)
        rw [hnew, Nat.add_zero, List.drop_zero] at this
        rw [this, List.drop_of_length_le (by
          rw [Mem.length_read _ _ (by have := h1.len; simp only; omega)]; simp only; omega), List.append_nil]
    · have := w.cond; omega
    · have := w.cond; omega

/-- Pops that the ring believes to be all it owes: afterwards it is empty. -/
theorem RBBuf.pops {m : Mem} : ∀ (n : Nat) (r : RBBuf) (h : Held), r.sealed = false → r.discardBlockCount + r.blocks.length = n →
    ∃ r', runClientR (List.replicate n .pop) (r, m, h) = ok (r', m, h.drop n) ∧ r'.blocks = [] ∧ r'.discardBlockCount = 0 := by
  intro n
  induction n with
  | zero =>
    intro r h _ hn
    exact ⟨r, by simp [runClientR], List.eq_nil_of_length_eq_zero (by omega), by omega⟩
  | succ n ih =>
    intro r h hs hn
    have hp : ∃ r1, r.pop = ok r1 ∧ r1.sealed = false ∧ r1.discardBlockCount + r1.blocks.length = n := by
      unfold RBBuf.pop
      rw [hs]
      simp only [Bool.not_false, assert_true, ok_bind]
      by_cases hd : r.discardBlockCount > 0
      · rw [if_pos hd]
        exact ⟨_, rfl, hs, by simp only; omega⟩
      · rw [if_neg hd]
        unfold DirectBuf.pop
        rw [hs]
        simp only [Bool.not_false, assert_true, ok_bind, pure_def]
        have hl : ∀ b : DirectBuf, (DirectBuf.resetIfEmpty b).blocks = b.blocks ∧ (DirectBuf.resetIfEmpty b).sealed = b.sealed := by
          intro b; unfold DirectBuf.resetIfEmpty; split <;> exact ⟨rfl, rfl⟩
        have hlen : (r.blocks.drop 1).length = r.blocks.length - 1 := List.length_drop
        split
        · exact ⟨_, rfl, (hl _).2, by simp only [(hl _).1]; omega⟩
        · split
          · exact ⟨_, rfl, (hl _).2, by simp only [(hl _).1]; omega⟩
          · exact ⟨_, rfl, (hl _).2, by simp only [(hl _).1]; omega⟩
    obtain ⟨r1, e1, hs1, hn1⟩ := hp
    obtain ⟨r', e2, h2, h3⟩ := ih r1 (h.drop 1) hs1 hn1
    refine ⟨r', ?_, h2, h3⟩
    rw [List.replicate_succ]
    show (BufOp.clientR .pop (r, m, h) >>= _) = _
    simp only [BufOp.clientR, e1, ok_bind, pure_def, e2, List.drop_drop]
    congr 3
    rw [Nat.add_comm]

/-- The second bad event of **C23** always makes the ring lose count: if a `Write` takes new memory while `k` blocks discarded by an
earlier growth have not been popped, then after as many pops as the ring believes to owe it is empty and will reuse its memory from
the start, although the client still holds `k` blocks – the newest ones. -/
theorem C23_second_growth_loses_count (m₀ : Mem) (cap : Nat) (ops : List BufOp) (r r' : RBBuf) (m m' : Mem) (h : Held)
    (hs : RBBuf.Safe ops ((RBBuf.new m₀ cap).1, (RBBuf.new m₀ cap).2, []))
    (e : runClientR ops ((RBBuf.new m₀ cap).1, (RBBuf.new m₀ cap).2, []) = ok (r, m, h)) (d : Bytes)
    (ew : r.write m d = ok (r', m')) (hg : r'.data.arr ≠ r.data.arr) (hsl : r.sealed = false) :
    ∃ r'', runClientR (List.replicate (r'.discardBlockCount + r'.blocks.length) .pop) (r', m', h.write) =
        ok (r'', m', h.write.drop (r'.discardBlockCount + r'.blocks.length)) ∧ r''.blocks = [] ∧
      (h.write.drop (r'.discardBlockCount + r'.blocks.length)).length = r.discardBlockCount := by
  have H := (RBBuf.Inv_new m₀ cap).run hs e
  obtain ⟨h1, _, disc, hh, hdl, hdisc⟩ := H
  obtain ⟨bs, old, o1, o2, o3, o4, o5⟩ := r.opened_blocks
  obtain ⟨r₁, m₁, k', e', w1, w2, w3, w4, w5, w6, w7, w8, w9, w10, w11⟩ := RBBuf.write_ok h1 d o1 o2 o3 o4 (h1.opened_fits o5)
  rw [ew] at e'
  simp only [ok.injEq, Prod.mk.injEq] at e'
  obtain ⟨rfl, rfl⟩ := e'
  obtain ⟨r'', p1, p2, _⟩ := RBBuf.pops (m := m') _ r' h.write (by rw [w1, hsl]) rfl
  refine ⟨r'', p1, p2, ?_⟩
  have hw : h.write.length = disc.length + bs.length + 1 := by
    rw [hh]
    rcases o5 with o5 | ⟨o5, _, o6⟩
    · rw [o5]
      simp [Held.write, RBBuf.entry, o2]
      omega
    · rw [o5, Held.write]
      rcases list_snoc_cases bs with rfl | ⟨bs, x, rfl⟩
      · simp only [List.map_nil, List.append_nil]
        rcases list_snoc_cases disc with rfl | ⟨ds, y, rfl⟩
        · rfl
        · obtain ⟨s, c, rfl, _⟩ := hdisc y (by simp)
          simp
      · have := o6 x (by simp)
        simp [RBBuf.entry, this]
        omega
  rcases w11 with w | w | w
  · exact absurd (by rw [w.data]) hg
  · exact absurd (by rw [w.data]) hg
  · rw [List.length_drop, hw, w.discard, w.blocks, hdl]
    simp only [List.length_singleton]
    omega

/-- `Safe`, computed. -/
def RBBuf.safeB : List BufOp → RBBuf × Mem × Held → Bool
  | [], _ => true
  | o :: os, s =>
    (match o with
      | .write d => !decide s.1.Full && (match s.1.write s.2.1 d with
        | .ok (r', _) => r'.data.arr == s.1.data.arr || s.1.discardBlockCount == 0
        | _ => true)
      | _ => true) &&
    (match o.clientR s with
      | .ok s' => RBBuf.safeB os s'
      | _ => true)

theorem RBBuf.safe_of {ops : List BufOp} : ∀ {s : RBBuf × Mem × Held}, RBBuf.safeB ops s = true → RBBuf.Safe ops s := by
  induction ops with
  | nil => intro s _; trivial
  | cons o os ih =>
    intro s h
    simp only [RBBuf.safeB, Bool.and_eq_true] at h
    obtain ⟨h1, h2⟩ := h
    refine ⟨?_, ?_⟩
    · rintro d rfl
      simp only [Bool.and_eq_true, Bool.not_eq_true', decide_eq_false_iff_not] at h1
      refine ⟨h1.1, fun r' m' e hne => ?_⟩
      have h3 := h1.2
      rw [e] at h3
      simp only [Bool.or_eq_true, beq_iff_eq] at h3
      exact h3.resolve_left hne
    · intro s' e
      rw [e] at h2
      exact ih h2

instance : DecidableEq (RBBuf × Mem × Held) := fun a b =>
  decidable_of_iff (a.1 = b.1 ∧ a.2.1 = b.2.1 ∧ a.2.2 = b.2.2) (by rw [Prod.ext_iff, Prod.ext_iff])

/-- The first counterexample of C23 up to the fatal write: the history is safe, the ring is full, and the write goes over the block
with `[2, 2]`. -/
example : ∃ r r' m m' h k, RBBuf.Safe [.write [1, 1], .fetch, .write [2, 2], .fetch, .pop, .write [3, 3], .fetch]
      ((RBBuf.new [] 4).1, (RBBuf.new [] 4).2, []) ∧
    runClientR [.write [1, 1], .fetch, .write [2, 2], .fetch, .pop, .write [3, 3], .fetch] ((RBBuf.new [] 4).1, (RBBuf.new [] 4).2, []) =
      ok (r, m, h) ∧ r.Full ∧ r.headTail.2 + [(4 : Byte), 4].length ≤ r.capacity ∧ r.write m [4, 4] = ok (r', m') ∧
    some (r.ref k, m.read (r.ref k)) ∈ h ∧ m.read (r.ref k) = [2, 2] ∧ m'.read (r.ref k) = [4, 4] :=
  ⟨⟨⟨⟨0, 0, 4⟩, 0, false, [⟨2, 2, true⟩, ⟨0, 2, true⟩]⟩, 4, 0⟩, ⟨⟨⟨0, 0, 4⟩, 0, false, [⟨2, 2, true⟩, ⟨0, 2, true⟩, ⟨2, 2, false⟩]⟩, 4, 0⟩,
    [[3, 3, 2, 2]], [[3, 3, 4, 4]], [some (⟨0, 2, 2⟩, [2, 2]), some (⟨0, 0, 2⟩, [3, 3])], ⟨2, 2, true⟩,
    RBBuf.safe_of (by decide +kernel), by decide +kernel⟩

/-- The second counterexample up to the second growth: two blocks discarded by the first growth are not popped; the ring believes to
owe two blocks while the client holds four. -/
example : ∃ r r' m m' h, RBBuf.Safe [.write [1], .fetch, .write [2], .fetch, .write [3], .fetch] ((RBBuf.new [] 2).1, (RBBuf.new [] 2).2, []) ∧
    runClientR [.write [1], .fetch, .write [2], .fetch, .write [3], .fetch] ((RBBuf.new [] 2).1, (RBBuf.new [] 2).2, []) = ok (r, m, h) ∧
    r.write m [4, 4, 4, 4] = ok (r', m') ∧ r'.data.arr ≠ r.data.arr ∧ r.sealed = false ∧ r.discardBlockCount = 2 ∧ h.write.length = 4 ∧
    r'.discardBlockCount + r'.blocks.length = 2 :=
  ⟨⟨⟨⟨1, 0, 4⟩, 0, false, [⟨0, 1, true⟩]⟩, 4, 2⟩, ⟨⟨⟨2, 0, 12⟩, 0, false, [⟨0, 4, false⟩]⟩, 12, 1⟩, [[1, 2], [3, 0, 0, 0]],
    [[1, 2], [3, 0, 0, 0], [4, 4, 4, 4, 0, 0, 0, 0, 0, 0, 0, 0]], [some (⟨0, 0, 1⟩, [1]), some (⟨0, 1, 1⟩, [2]), some (⟨1, 0, 1⟩, [3])],
    RBBuf.safe_of (by decide +kernel), by decide +kernel⟩

/-- Room: a new ring of 4 bytes has 4; with 3 written and fetched 1 is left; when that is not popped, 2 bytes need new memory. -/
example : (RBBuf.new [] 4).1.room = 4 ∧ (runTrace BufOp.runR [.write [1, 2, 3], .fetch] (RBBuf.new [] 4) >>= fun s => do
    return s.2.1.room) = ok 1 ∧ (runTrace BufOp.runR [.write [1, 2, 3], .fetch, .write [4], .fetch, .pop] (RBBuf.new [] 4) >>= fun s => do
    return s.2.1.room) = ok 3 := by decide +kernel

/-- **C21** for the ring, exactly: in every state `SplitOff` seals the ring and hands over *all* of its memory as free, and the first
write into it goes over whatever the ring has at the start of its memory. -/
theorem C21_ring_split_off (m₀ : Mem) (cap : Nat) (ops : List BufOp) (xs : List BufObs) (r : RBBuf) (m : Mem)
    (e : runTrace BufOp.runR ops (RBBuf.new m₀ cap) = ok (xs, (r, m))) :
    ∃ n r', r.splitOff = ok (n, r') ∧ r' = { r with sealed := true } ∧ n.data = r.data ∧ n.blocks = [] ∧ n.availableBytes = r.data.len ∧
      ∀ d : Bytes, d.length ≤ r.data.len → ∃ n' m', n.write m d = ok (n', m') ∧ m'.read ⟨r.data.arr, r.data.off, d.length⟩ = d ∧
        ∀ k ∈ r.blocks, k.index = 0 → m'.read (r.ref k) = d.take k.size ++ (m.read (r.ref k)).drop d.length := by
  have h1 := RBBuf.trace_wf e
  have l1 := h1.len
  refine ⟨⟨r.data, 0, false, []⟩, { r with sealed := true }, ?_, rfl, rfl, rfl, by simp [DirectBuf.availableBytes], ?_⟩
  · unfold RBBuf.splitOff DirectBuf.splitOff
    rw [h1.off, SliceRef.sub_of_le (Nat.zero_le _) (Nat.le_refl _)]
    simp only [ok_bind, pure_def, Nat.add_zero, Nat.sub_zero]
  · intro d hd
    have hw : (⟨r.data, 0, false, []⟩ : DirectBuf).write m d =
        ok (⟨r.data, d.length, false, [⟨0, d.length, false⟩]⟩, m.copy ⟨r.data.arr, r.data.off, d.length⟩ d) := by
      simp only [DirectBuf.write, DirectBuf.alloc, Bool.not_false, assert_true, ok_bind, DirectBuf.openBlock, List.getLast?_nil,
        List.nil_append]
      have hg : ¬ 0 + d.length > r.data.len := by omega
      simp only [hg, if_false, ok_bind, pure_def]
      rw [SliceRef.sub_of_le (by omega) (by omega)]
      simp only [ok_bind, updLast, Nat.zero_add, Nat.add_zero, Nat.sub_zero]
      simp
    refine ⟨_, _, hw, Mem.read_copy_self m ⟨r.data.arr, r.data.off, d.length⟩ d (by simp only; omega) (Nat.le_refl _), ?_⟩
    intro k hk hi
    have hkl := h1.fits k hk
    have hself := Mem.read_copy_self m ⟨r.data.arr, r.data.off, d.length⟩ d (by simp only; omega) (Nat.le_refl _)
    unfold RBBuf.ref
    rw [hi, Nat.add_zero]
    by_cases hc : d.length ≤ k.size
    · obtain ⟨c, hc'⟩ : ∃ c, k.size = d.length + c := ⟨k.size - d.length, by omega⟩
      rw [hc', Mem.read_split, hself, List.take_of_length_le (by omega), Mem.read_split]
      congr 1
      have hl1 : (m.read ⟨r.data.arr, r.data.off, d.length⟩).length = d.length := by
        rw [Mem.length_read]
        simp only; omega
      rw [List.drop_append_of_le_length (by omega), List.drop_of_length_le (by omega), List.nil_append]
      exact Mem.read_copy_disjoint _ _ _ _ (by simp only; omega) (Or.inr (Or.inr (by simp only; omega)))
    · have := Mem.read_sub (m.copy ⟨r.data.arr, r.data.off, d.length⟩ d) r.data.arr r.data.off d.length 0 k.size (by omega)
      rw [hself, Nat.add_zero, List.drop_zero] at this
      rw [this, List.drop_of_length_le (by
        rw [Mem.length_read _ _ (by simp only; omega)]; simp only; omega), List.append_nil]

end Avf
