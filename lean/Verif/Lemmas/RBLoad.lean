import Verif.Lemmas.RBGeo
import Verif.Spec.RingLoad
/-! # RBBlockBuffer under light load: it never grows and never gets exactly full -/
set_option linter.unusedSimpArgs false
namespace Avf
open Go

/-- How much of the end of the memory a ring wastes: nothing, or (once it has wrapped) less than a block. -/
inductive Tight (bs : List Block) (capacity cap M : Nat) (fresh : Bool) : Prop
  | linear (i e : Nat) (h : Chain i bs e) (hc : e ≤ cap) (hcap : capacity = cap ∨ bs.length ≤ 1)
  | reduced (i e : Nat) (h : Chain i bs e) (hcap : capacity = e) (hc : e ≤ cap) (hm : cap < e + M)
      (hl : ∀ k, bs.getLast? = some k → (k.completed = true ∨ k.size = 0) ∧ (fresh = true → k.size = 0))
  | wrapped (as cs : List Block) (i e t : Nat) (hb : bs = as ++ cs) (ha : as ≠ []) (hcs : cs ≠ [])
      (h : Chain i as e) (h' : Chain 0 cs t) (ht : t ≤ i) (hi : 0 < i) (hc : e ≤ cap) (hm : cap < e + M) (hcap : capacity = e)

namespace RBBuf

/-- A block as the specification sees it. -/
def cont (r : RBBuf) (m : Mem) (k : Block) : Bytes × Bool := (m.read (r.ref k), k.completed)

structure Load (M cap : Nat) (fresh : Bool) (r : RBBuf) (m : Mem) (h : Held) (t : BufSpec) : Prop where
  inv : Inv r m h
  tight : Tight r.blocks r.capacity cap M fresh
  len : r.data.len = cap
  disc : r.discardBlockCount = 0
  sealed : r.sealed = false
  sealedT : t.sealed = false
  map : r.blocks.map (r.cont m) = t.blocks

theorem Load.size_eq {M cap : Nat} {fresh : Bool} {r : RBBuf} {m : Mem} {h : Held} {t : BufSpec} (H : Load M cap fresh r m h t) :
    ∀ k ∈ r.blocks, (m.read (r.ref k)).length = k.size := by
  intro k hk
  have h1 := H.inv.wf
  have := h1.fits k hk
  have := h1.len
  exact Mem.length_read _ _ (by simp only [ref]; omega)

theorem Load.live {M cap : Nat} {fresh : Bool} {r : RBBuf} {m : Mem} {h : Held} {t : BufSpec} (H : Load M cap fresh r m h t) :
    t.liveBytes = blockSum r.blocks := by
  unfold BufSpec.liveBytes blockSum
  rw [← H.map, List.map_map]
  congr 1
  apply List.map_congr_left
  intro k hk
  exact H.size_eq k hk

/-- The opened queue is tight as well, with the full capacity if it is not wrapped. -/
theorem opened_tight {M cap : Nat} {fresh : Bool} {r : RBBuf} (hl : r.data.len = cap) (hg : Tight r.blocks r.capacity cap M fresh)
    {bs : List Block} {old : Block}
    (hop : old.completed = false)
    (ho : r.blocks = bs ++ [old] ∨ r.blocks = bs ∧ old = ⟨r.headTail.2, 0, false⟩ ∧
      ∀ k, bs.getLast? = some k → k.completed = true) :
    (∃ i e, Chain i (bs ++ [old]) e ∧ e ≤ cap ∧ r.opened.capacity = cap) ∨
    (∃ i e, Chain i (bs ++ [old]) e ∧ e ≤ cap ∧ r.opened.capacity = e ∧ cap < e + M ∧ old.size = 0) ∨
    (∃ as cs i e t, bs ++ [old] = as ++ cs ∧ as ≠ [] ∧ cs ≠ [] ∧ Chain i as e ∧ Chain 0 cs t ∧ t ≤ i ∧ 0 < i ∧ e ≤ cap ∧
      cap < e + M ∧ r.opened.capacity = e) := by
  have hc := r.opened_fields.2.2.2.2
  cases hg with
  | linear i e h h' hcap =>
    left
    have hoc : r.opened.capacity = cap := by
      rw [hc]; split
      · exact hl
      · exact hcap.resolve_right (by assumption)
    rcases ho with ho | ⟨ho, eo, _⟩
    · exact ⟨i, e, by rw [← ho]; exact h, h', hoc⟩
    · rw [ho] at h
      rcases list_snoc_cases bs with rfl | ⟨xs, x, rfl⟩
      · rw [headTail_nil ho] at eo
        subst eo
        exact ⟨0, 0, ⟨rfl, rfl⟩, Nat.zero_le _, hoc⟩
      · rw [headTail_tail ho] at eo
        refine ⟨i, e, ?_, h', hoc⟩
        rw [Chain.snoc, eo]
        have := Chain.snoc.mp h
        exact ⟨by rw [this.2]; exact h, this.2⟩
  | reduced i e h hcap h' hm hlast =>
    have hch : Chain (if r.blocks = [] then 0 else i) (bs ++ [old]) (if r.blocks = [] then 0 else e) ∧ old.size = 0 := by
      rcases ho with ho | ⟨ho, eo, _⟩
      · have : r.blocks ≠ [] := by rw [ho]; simp
        rw [if_neg this, if_neg this]
        refine ⟨by rw [← ho]; exact h, ?_⟩
        rcases (hlast old (by rw [ho]; simp)).1 with hq | hq
        · rw [hop] at hq; exact absurd hq (by simp)
        · exact hq
      · rw [ho] at h
        refine ⟨?_, by rw [eo]⟩
        rcases list_snoc_cases bs with rfl | ⟨xs, x, rfl⟩
        · rw [headTail_nil ho] at eo
          subst eo
          rw [if_pos ho, if_pos ho]
          exact ⟨rfl, rfl⟩
        · have hn : r.blocks ≠ [] := by rw [ho]; simp
          rw [if_neg hn, if_neg hn]
          rw [headTail_tail ho] at eo
          rw [Chain.snoc, eo]
          have := Chain.snoc.mp h
          exact ⟨by rw [this.2]; exact h, this.2⟩
    by_cases hlen1 : r.blocks.length ≤ 1
    · left
      refine ⟨_, _, hch.1, by split <;> omega, ?_⟩
      rw [hc, if_pos hlen1]; exact hl
    · right; left
      have hn : r.blocks ≠ [] := by intro hn; rw [hn] at hlen1; simp at hlen1
      rw [if_neg hn, if_neg hn] at hch
      refine ⟨i, e, hch.1, h', ?_, hm, hch.2⟩
      rw [hc, if_neg hlen1]; exact hcap
  | wrapped as cs i e t g1 g2 g3 h4 h5 h6 h7 h8 h9 h10 =>
    right; right
    have hoc : r.opened.capacity = e := by
      rw [hc, if_neg, h10]
      rw [g1, List.length_append]
      have := List.length_pos_iff.mpr g2
      have := List.length_pos_iff.mpr g3
      omega
    rcases ho with ho | ⟨ho, eo, _⟩
    · exact ⟨as, cs, i, e, t, by rw [← ho]; exact g1, g2, g3, h4, h5, h6, h7, h8, h9, hoc⟩
    · rcases list_snoc_cases cs with rfl | ⟨ys, y, rfl⟩
      · exact absurd rfl g3
      · rw [← List.append_assoc] at g1
        rw [headTail_tail g1] at eo
        refine ⟨as, ys ++ [y] ++ [old], i, e, t, by rw [← ho, g1]; simp, g2, by simp, h4, ?_, h6, h7, h8, h9, hoc⟩
        rw [Chain.snoc, eo]
        have := Chain.snoc.mp h5
        exact ⟨by rw [this.2]; exact h5, this.2⟩

theorem Load.write {M cap : Nat} {fresh : Bool} {r : RBBuf} {m : Mem} {h : Held} {t : BufSpec} (H : Load M cap fresh r m h t) (d : Bytes)
    (hl : t.liveBytes + 2 * M ≤ cap) (hp : t.pendingBytes + d.length ≤ M) :
    ∃ r' m', r.write m d = ok (r', m') ∧
      Load M cap true r' m' h.write { t with blocks := BufSpec.addBytes t.blocks d, all := t.all ++ d } := by
  have hsz := H.size_eq
  have hlive := H.live
  obtain ⟨hinv, htight, hlen, hdisc, hs, hst, hmap⟩ := H
  have h1 := hinv.wf
  obtain ⟨bs, old, o1, o2, o3, o4, o5⟩ := r.opened_blocks
  have hfit := h1.opened_fits o5
  obtain ⟨r', m', k, e, w1, w2, w3, w4, w5, w6, w7, w8, w9, w10, w11⟩ := write_ok h1 d o1 o2 o3 o4 hfit
  refine ⟨r', m', e, ?_⟩
  have hbs : ∀ k ∈ bs, k.completed = true := by
    rcases o5 with o5 | ⟨o5, _, o6⟩
    · have := h1.done; rw [o5] at this; simpa using this
    · intro k hk
      have := h1.done
      rw [o5] at this
      rcases list_snoc_cases bs with rfl | ⟨bs, x, rfl⟩
      · simp at hk
      · rcases List.mem_append.mp hk with hk | hk
        · exact this k (by simpa using hk)
        · simp at hk; subst hk; exact o6 k (by simp)
  have hsum : blockSum (bs ++ [old]) = t.liveBytes := by
    rw [hlive]
    rcases o5 with o5 | ⟨o5, o6, _⟩
    · rw [o5]
    · rw [o5, o6]; simp
  -- the pending bytes
  have hold : old.size + d.length ≤ M := by
    have : t.pendingBytes = old.size := by
      unfold BufSpec.pendingBytes
      rw [← hmap]
      rcases o5 with o5 | ⟨o5, o6, o7⟩
      · have := hsz old (by rw [o5]; simp)
        rw [o5]; simp [cont, o2, this]
      · rw [o6, o5]
        rcases list_snoc_cases bs with rfl | ⟨xs, x, rfl⟩
        · rfl
        · have := o7 x (by simp)
          simp [cont, this]
    omega
  have hadd : BufSpec.addBytes t.blocks d = bs.map (r.cont m) ++ [(m.read (r.ref old) ++ d, false)] := by
    unfold BufSpec.addBytes
    rw [← hmap]
    rcases o5 with o5 | ⟨o5, o6, o7⟩
    · rw [o5]; simp [cont, o2]
    · rw [o5]
      have he : m.read (r.ref old) = [] := by rw [o6]; simp [ref]
      rw [he]
      rcases list_snoc_cases bs with rfl | ⟨xs, x, rfl⟩
      · rfl
      · have := o7 x (by simp)
        simp [cont, this]
  have hot := opened_tight hlen htight o2 o5
  obtain ⟨k0, hk0, hk1⟩ := o4
  -- the two events that must not happen
  have hnf : ¬ r.Full := by
    rintro ⟨f1, f2⟩
    rcases hot with ⟨i, e, c1, c2, c3⟩ | ⟨i, e, c1, c2, c3, c4, c5⟩ | ⟨as, cs, i, e, t', g1, g2, g3, g4, g5, g6, g7, g8, g9, g10⟩
    · have := c1.head hk0
      have := (Chain.snoc.mp c1).2
      have := c1.sum
      rw [hlive] at hsum
      omega
    · have := c1.head hk0
      have := (Chain.snoc.mp c1).2
      have := c1.sum
      rw [hlive] at hsum
      omega
    · have e1 : k0.index = i := by
        refine g4.head ?_
        rw [g1] at hk0
        cases as with
        | nil => exact absurd rfl g2
        | cons y ys => simpa using hk0
      have e2 : r.headTail.2 = t' := by
        rw [← o3]
        rcases list_snoc_cases cs with rfl | ⟨ys, y, rfl⟩
        · exact absurd rfl g3
        · rw [← List.append_assoc] at g1
          obtain ⟨_, g1⟩ := List.append_inj' g1 rfl
          simp at g1; subst g1
          exact (Chain.snoc.mp g5).2
      have s1 := g4.sum
      have s2 := g5.sum
      rw [g1, blockSum_append] at hsum
      omega
  have hng : ¬ Grown r m d.length bs old r' m' := by
    intro w
    rcases hot with ⟨i, e, c1, c2, c3⟩ | ⟨i, e, c1, c2, c3, c4, c5⟩ | ⟨as, cs, i, e, t', g1, g2, g3, g4, g5, g6, g7, g8, g9, g10⟩
    · have := c1.head hk0
      have := (Chain.snoc.mp c1).2
      have := c1.sum
      rcases w.cond with c | c <;> omega
    · have := c1.head hk0
      have := (Chain.snoc.mp c1).2
      have := c1.sum
      rcases w.cond with c | c <;> omega
    · have e1 : k0.index = i := by
        refine g4.head ?_
        rw [g1] at hk0
        cases as with
        | nil => exact absurd rfl g2
        | cons y ys => simpa using hk0
      have e2 : r.headTail.2 = t' := by
        rw [← o3]
        rcases list_snoc_cases cs with rfl | ⟨ys, y, rfl⟩
        · exact absurd rfl g3
        · rw [← List.append_assoc] at g1
          obtain ⟨_, g1⟩ := List.append_inj' g1 rfl
          simp at g1; subst g1
          exact (Chain.snoc.mp g5).2
      have s1 := g4.sum
      have s2 := g5.sum
      rw [g1, blockSum_append] at hsum
      rcases w.cond with c | c
      · omega
      · have : t' = i := by omega
        exact hnf ⟨by omega, by rw [← hlive, ← hsum]; omega⟩
  have hdata : r'.data = r.data := by
    rcases w11 with w | w | w
    · exact w.data
    · exact w.data
    · exact absurd w hng
  have hdc : r'.discardBlockCount = 0 := by
    rcases w11 with w | w | w
    · rw [w.discard, hdisc]
    · rw [w.discard, hdisc]
    · exact absurd w hng
  have hb : r'.blocks = bs ++ [k] := by
    rcases w11 with w | w | w
    · have := w3; rw [w.blocks] at this; simp at this; rw [w.blocks, this]
    · have := w3; rw [w.blocks] at this; simp at this; rw [w.blocks, this]
    · exact absurd w hng
  have hinv' := hinv.write e hnf (fun hne => absurd (by rw [hdata]) hne)
  refine ⟨hinv', ?_, by rw [hdata]; exact hlen, hdc, by rw [w1]; exact hs, hst, ?_⟩
  · rcases w11 with w | w | w
    · have hk : k = ⟨old.index, old.size + d.length, false⟩ := by
        have := w3; rw [w.blocks] at this; simp at this; exact this.symm
      rw [hb, w.cap]
      rcases hot with ⟨i, e, c1, c2, c3⟩ | ⟨i, e, c1, c2, c3, c4, c5⟩ | ⟨as, cs, i, e, t', g1, g2, g3, g4, g5, g6, g7, g8, g9, g10⟩
      · have hi := c1.head hk0
        have hs2 := (Chain.snoc.mp c1)
        have hs := c1.sum
        refine .linear i (e + d.length) ?_ ?_ (.inl c3)
        · rw [Chain.snoc, hk]; exact ⟨hs2.1, by simp only; omega⟩
        · rcases w.cond with c | c <;> omega
      · have hi := c1.head hk0
        have hs2 := (Chain.snoc.mp c1)
        have hs := c1.sum
        have hd0 : d.length = 0 := by rcases w.cond with c | c <;> omega
        refine .reduced i e ?_ c3 c2 c4 ?_
        · rw [Chain.snoc, hk]; exact ⟨hs2.1, by simp only; omega⟩
        · intro x hx
          simp at hx; subst hx
          rw [hk]
          exact ⟨.inr (by simp only; omega), fun _ => by simp only; omega⟩
      · have e1 : k0.index = i := by
          refine g4.head ?_
          rw [g1] at hk0
          cases as with
          | nil => exact absurd rfl g2
          | cons y ys => simpa using hk0
        rcases list_snoc_cases cs with rfl | ⟨ys, y, rfl⟩
        · exact absurd rfl g3
        · rw [← List.append_assoc] at g1
          obtain ⟨gb, g1'⟩ := List.append_inj' g1 rfl
          simp at g1'; subst g1'
          have h5 := Chain.snoc.mp g5
          rw [gb]
          have hlt : ¬ (r.headTail.2 = r.headTail.1) := by
            intro hq
            apply hnf
            refine ⟨hq, ?_⟩
            have s2 := g5.sum
            rw [← hlive, ← hsum, g1]
            simp at s2 ⊢; omega
          refine .wrapped as (ys ++ [k]) i e (t' + d.length) (by simp) g2 (by simp) g4 ?_ ?_ g7 g8 g9 g10
          · rw [Chain.snoc, hk]; exact ⟨h5.1, by simp only; omega⟩
          · rcases w.cond with c | c <;> omega
    · have hk : k = ⟨0, old.size + d.length, false⟩ := by
        have := w3; rw [w.blocks] at this; simp at this; exact this.symm
      obtain ⟨c1, c2, c3⟩ := w.cond
      rw [hb, w.cap]
      rcases hot with ⟨i, e, q1, q2, q3⟩ | ⟨i, e, q1, q2, q3, q4, q5⟩ | ⟨as, cs, i, e, t', g1, g2, g3, g4, g5, g6, g7, g8, g9, g10⟩
      · have hi := q1.head hk0
        have hs2 := (Chain.snoc.mp q1)
        have hs := q1.sum
        cases bs with
        | nil =>
          refine .linear 0 (old.size + d.length) ?_ (by omega) (.inr (by simp))
          rw [hk]; simp [Chain]
        | cons y ys =>
          refine .wrapped (y :: ys) [k] i old.index (old.size + d.length) rfl (by simp) (by simp) hs2.1 ?_ (by omega) (by omega) (by omega) (by omega) rfl
          rw [hk]; simp [Chain]
      · have hi := q1.head hk0
        have hs2 := (Chain.snoc.mp q1)
        have hs := q1.sum
        cases bs with
        | nil =>
          refine .linear 0 (old.size + d.length) ?_ (by omega) (.inr (by simp))
          rw [hk]; simp [Chain]
        | cons y ys =>
          refine .wrapped (y :: ys) [k] i old.index (old.size + d.length) rfl (by simp) (by simp) hs2.1 ?_ (by omega) (by omega) (by omega) (by omega) rfl
          rw [hk]; simp [Chain]
      · exfalso
        have e1 : k0.index = i := by
          refine g4.head ?_
          rw [g1] at hk0
          cases as with
          | nil => exact absurd rfl g2
          | cons y ys => simpa using hk0
        have e2 : r.headTail.2 = t' := by
          rw [← o3]
          rcases list_snoc_cases cs with rfl | ⟨ys, y, rfl⟩
          · exact absurd rfl g3
          · rw [← List.append_assoc] at g1
            obtain ⟨_, g1⟩ := List.append_inj' g1 rfl
            simp at g1; subst g1
            exact (Chain.snoc.mp g5).2
        apply hnf
        refine ⟨by omega, ?_⟩
        have s2 := g5.sum
        rw [← hlive, ← hsum, g1, blockSum_append]
        omega
    · exact absurd w hng
  · -- contents
    simp only
    rw [hadd, hb, List.map_append]
    congr 1
    · apply List.map_congr_left
      intro x hx
      have hent : bs.map (r'.entry m') = bs.map (r.entry m) := by
        obtain ⟨_, _, dd, hh, hdl, _⟩ := hinv
        obtain ⟨_, _, dd', hh', hdl', _⟩ := hinv'
        rw [hdisc] at hdl
        rw [hdc] at hdl'
        have : dd = [] := by simpa using hdl
        subst this
        have : dd' = [] := by simpa using hdl'
        subst this
        rw [hh, hb, List.map_append] at hh'
        have hwr : Held.write (([] : Held) ++ r.blocks.map (r.entry m)) = bs.map (r.entry m) ++ [none] := by
          rcases o5 with o5 | ⟨o5, _, o6⟩
          · rw [o5]; simp [Held.write, entry, o2]
          · rw [o5, Held.write]
            rcases list_snoc_cases bs with rfl | ⟨xs, y, rfl⟩
            · rfl
            · have := o6 y (by simp)
              simp [entry, this]
        rw [hwr] at hh'
        simp only [List.nil_append, List.map_cons, List.map_nil] at hh'
        exact (List.append_inj' hh' rfl).1.symm
      have := (List.map_inj_left.mp hent) x hx
      simp [entry, hbs x hx] at this
      simp [cont, this.2]
    · simp only [List.map_cons, List.map_nil, cont, w4, w5]

theorem Tight.tail {bs : List Block} {c c' cap M : Nat} {fresh : Bool} (h : Tight bs c cap M fresh)
    (h1 : c' = c ∨ c' = cap ∧ ∀ k, (bs.drop 1).head? = some k → k.index = 0)
    (h2 : ∀ k, (bs.drop 1).head? = some k → k.index = 0 → c' = cap) : Tight (bs.drop 1) c' cap M fresh := by
  cases h with
  | linear i e hc he hcap =>
    cases bs with
    | nil => exact .linear 0 0 rfl (Nat.zero_le _) (.inr (by simp))
    | cons k ks =>
      simp only [List.drop_succ_cons, List.drop_zero]
      refine .linear _ e hc.2 he ?_
      rcases hcap with hcap | hcap
      · left; rcases h1 with h1 | h1 <;> omega
      · right; simp at hcap; simp [hcap]
  | reduced i e hc hcap he hm hl =>
    cases bs with
    | nil => exact .linear 0 0 rfl (Nat.zero_le _) (.inr (by simp))
    | cons k ks =>
      simp only [List.drop_succ_cons, List.drop_zero] at h1 ⊢
      rcases h1 with h1 | h1
      · refine .reduced _ e hc.2 (by omega) he hm ?_
        intro x hx
        refine hl x ?_
        rw [List.getLast?_cons, hx]; rfl
      · exact .linear _ e hc.2 he (.inl h1.1)
  | wrapped as cs i e t hb ha hcs g4 g5 g6 g7 g8 g9 g10 =>
    cases as with
    | nil => exact absurd rfl ha
    | cons a as =>
      subst hb
      simp only [List.cons_append, List.drop_succ_cons, List.drop_zero] at h1 h2 ⊢
      cases as with
      | nil =>
        simp only [List.nil_append] at h2 ⊢
        cases cs with
        | nil => exact absurd rfl hcs
        | cons x xs =>
          have h4 := g4.2
          simp only [Chain] at h4
          have h4' := g4.1
          refine .linear 0 t g5 (by omega) (.inl (h2 x rfl g5.1))
      | cons a' as =>
        refine .wrapped (a' :: as) cs _ e t rfl (by simp) hcs g4.2 g5 (by omega) (by omega) g8 g9 ?_
        rcases h1 with h1 | h1
        · omega
        · have := h1.2 a' rfl
          have := g4.2.1
          omega

theorem Load.pop {M cap : Nat} {fresh : Bool} {r : RBBuf} {m : Mem} {h : Held} {t : BufSpec} (H : Load M cap fresh r m h t) :
    ∃ r', r.pop = ok r' ∧ Load M cap fresh r' m (h.drop 1) (BufSpec.norm { t with blocks := t.blocks.drop 1 }) := by
  obtain ⟨hinv, htight, hlen, hdisc, hs, hst, hmap⟩ := H
  have h1 := hinv.wf
  have hd : ¬ r.discardBlockCount > 0 := by omega
  have e1 : (DirectBuf.resetIfEmpty { r.toDirectBuf with sealed := false, blocks := r.blocks.drop 1 }).data = r.data := by
    simp [DirectBuf.resetIfEmpty]; split <;> rfl
  have key : ∃ c, (c = r.capacity ∨ c = cap ∧ ∀ k, (r.blocks.drop 1).head? = some k → k.index = 0) ∧ (∀ k, (r.blocks.drop 1).head? = some k → k.index = 0 → c = cap) ∧
      r.pop = ok { r with toDirectBuf := DirectBuf.resetIfEmpty { r.toDirectBuf with sealed := false, blocks := r.blocks.drop 1 }, capacity := c } := by
    simp only [RBBuf.pop, hs, Bool.not_false, assert_true, ok_bind, hd, if_false, DirectBuf.pop, Go.pure_def]
    have e2 : (DirectBuf.resetIfEmpty { r.toDirectBuf with sealed := false, blocks := r.blocks.drop 1 }).blocks = r.blocks.drop 1 := by
      simp [DirectBuf.resetIfEmpty]; split <;> rfl
    simp only [e2, e1]
    cases hh : (r.blocks.drop 1).head? with
    | none => exact ⟨cap, .inr ⟨rfl, by simp⟩, by simp, by simp [hlen]⟩
    | some k =>
      by_cases hk : k.index = 0
      · exact ⟨cap, .inr ⟨rfl, by simpa using hk⟩, by simp, by simp [hlen, hk]⟩
      · refine ⟨r.capacity, .inl rfl, ?_, by simp [hk]⟩
        intro k' hk' h0; simp at hk'; subst hk'; exact absurd h0 hk
  obtain ⟨c, hc1, hc2, he⟩ := key
  refine ⟨_, he, ?_⟩
  have hi := hinv.pop he
  revert hi
  generalize e₁ : ({ r with toDirectBuf := DirectBuf.resetIfEmpty { r.toDirectBuf with sealed := false, blocks := r.blocks.drop 1 }, capacity := c } : RBBuf) = r'
  intro hi
  have d1 : r'.data = r.data := by rw [← e₁]; simp [DirectBuf.resetIfEmpty]; split <;> rfl
  have d2 : r'.blocks = r.blocks.drop 1 := by rw [← e₁]; simp [DirectBuf.resetIfEmpty]; split <;> rfl
  have d4 : r'.sealed = false := by rw [← e₁]; simp [DirectBuf.resetIfEmpty]; split <;> rfl
  have d5 : r'.capacity = c := by rw [← e₁]
  have d6 : r'.discardBlockCount = 0 := by rw [← e₁]; exact hdisc
  refine ⟨hi, ?_, by rw [d1]; exact hlen, d6, d4, ?_, ?_⟩
  · rw [d2, d5]; exact Tight.tail htight hc1 hc2
  · unfold BufSpec.norm; split <;> exact hst
  · have : (BufSpec.norm { t with blocks := t.blocks.drop 1 }).blocks = t.blocks.drop 1 := by
      unfold BufSpec.norm; split <;> rfl
    rw [this, ← hmap, d2, List.map_drop]
    congr 1
    apply List.map_congr_left
    intro x _
    simp only [cont, ref, d1]

theorem Tight.setLast {bs : List Block} {k k' : Block} {c cap M : Nat} {fresh : Bool} (h : Tight (bs ++ [k]) c cap M fresh)
    (h1 : k'.index = k.index) (h2 : k'.size = k.size) (h3 : k'.completed = true) : Tight (bs ++ [k']) c cap M fresh := by
  cases h with
  | linear i e hc he hcap =>
    refine .linear i e ?_ he (by simpa using hcap)
    rw [Chain.snoc] at hc ⊢; rw [h1, h2]; exact hc
  | reduced i e hc hcap he hm hl =>
    refine .reduced i e ?_ hcap he hm ?_
    · rw [Chain.snoc] at hc ⊢; rw [h1, h2]; exact hc
    · intro x hx
      simp at hx; subst hx
      exact ⟨.inl h3, fun hf => by rw [h2]; exact (hl k (by simp)).2 hf⟩
  | wrapped as cs i e t hb ha hcs g4 g5 g6 g7 g8 g9 g10 =>
    rcases list_snoc_cases cs with rfl | ⟨ys, y, rfl⟩
    · exact absurd rfl hcs
    · rw [← List.append_assoc] at hb
      obtain ⟨gb, g1⟩ := List.append_inj' hb rfl
      simp at g1; subst g1
      refine .wrapped as (ys ++ [k']) i e t (by rw [gb]; simp) ha (by simp) g4 ?_ g6 g7 g8 g9 g10
      rw [Chain.snoc] at g5 ⊢; rw [h1, h2]; exact g5

theorem Load.fetch {M cap : Nat} {fresh : Bool} {r : RBBuf} {m : Mem} {h : Held} {t : BufSpec} (H : Load M cap fresh r m h t) :
    (r.fetch = panic ∧ BufOp.fetch.spec t = panic) ∨
    ∃ s r' t', r.fetch = ok (s, r') ∧ BufOp.fetch.spec t = ok (.bytes (s.map m.read), t') ∧
      Load M cap fresh r' m (match s with | none => h | some s => h.fetched s (m.read s)) t' := by
  obtain ⟨hinv, htight, hlen, hdisc, hs, hst, hmap⟩ := H
  have h1 := hinv.wf
  rcases list_snoc_cases r.blocks with hb | ⟨bs, k, hb⟩
  · left
    rw [hb] at hmap
    simp at hmap
    simp [RBBuf.fetch, DirectBuf.fetch, hs, hb, BufOp.spec, hst, hmap]
  · right
    have hk' := h1.fits k (by simp [hb])
    cases hk : k.completed with
    | true =>
      have e : r.fetch = ok (none, r) := by
        simp [RBBuf.fetch, DirectBuf.fetch, hs, hb, hk]
      refine ⟨none, r, t, e, ?_, ⟨hinv.fetch e, htight, hlen, hdisc, hs, hst, hmap⟩⟩
      simp [BufOp.spec, hst, ← hmap, hb, cont, hk]
    | false =>
      have e : r.fetch = ok (some (r.ref k), { r with blocks := bs ++ [{ k with completed := true }] }) := by
        simp only [RBBuf.fetch, DirectBuf.fetch, hs, hb, hk, List.getLast?_append, List.getLast?_singleton, Option.some_or,
          Bool.not_false, assert_true, ok_bind, Bool.false_eq_true, if_false]
        rw [SliceRef.sub_of_le (by omega) hk']
        simp [ref, updLast_concat]
      refine ⟨some (r.ref k), _, { t with blocks := bs.map (r.cont m) ++ [(m.read (r.ref k), true)] }, e, ?_, ?_⟩
      · simp [BufOp.spec, hst, ← hmap, hb, cont, hk]
      · refine ⟨hinv.fetch e, ?_, hlen, hdisc, hs, hst, ?_⟩
        · rw [hb] at htight; exact Tight.setLast htight rfl rfl rfl
        · simp [cont, ref]

theorem Tight.dropLast {bs : List Block} {c cap M : Nat} (h : Tight bs c cap M true) (hd : ∀ k ∈ bs.dropLast, k.completed = true) :
    Tight bs.dropLast c cap M false := by
  rcases list_snoc_cases bs with rfl | ⟨xs, x, rfl⟩
  · exact .linear 0 0 rfl (Nat.zero_le _) (.inr (by simp))
  rw [List.dropLast_concat] at hd ⊢
  have hlast : ∀ ys : List Block, (∀ k ∈ ys, k.completed = true) → ∀ k, ys.getLast? = some k →
      (k.completed = true ∨ k.size = 0) ∧ (false = true → k.size = 0) :=
    fun ys hy k hk => ⟨.inl (hy k (List.mem_of_getLast? hk)), by simp⟩
  cases h with
  | linear i e hc he hcap =>
    have := Chain.snoc.mp hc
    refine .linear i x.index this.1 (by omega) ?_
    rcases hcap with hcap | hcap
    · exact .inl hcap
    · right; simp at hcap; simp [hcap]
  | reduced i e hc hcap he hm hl =>
    have := Chain.snoc.mp hc
    have h0 := (hl x (by simp)).2 rfl
    exact .reduced i e (by have e1 : x.index = e := by omega
                           rw [← e1]; exact this.1) hcap he hm (hlast xs hd)
  | wrapped as cs i e t hb ha hcs g4 g5 g6 g7 g8 g9 g10 =>
    rcases list_snoc_cases cs with rfl | ⟨ys, y, rfl⟩
    · exact absurd rfl hcs
    · rw [← List.append_assoc] at hb
      obtain ⟨gb, g1⟩ := List.append_inj' hb rfl
      simp at g1; subst g1
      have h5 := Chain.snoc.mp g5
      by_cases hy : ys = []
      · subst hy
        simp only [List.append_nil] at gb
        subst gb
        exact .reduced i e g4 g10 g8 g9 (hlast _ hd)
      · exact .wrapped as ys i e x.index gb ha hy g4 h5.1 (by omega) g7 g8 g9 g10

theorem Load.popBack {M cap : Nat} {r : RBBuf} {m : Mem} {h : Held} {t : BufSpec} (H : Load M cap true r m h t) :
    (r.popBack = panic ∧ BufOp.popBack.spec t = panic) ∨
    ∃ r' t', r.popBack = ok r' ∧ BufOp.popBack.spec t = ok (.unit, t') ∧ Load M cap false r' m h.dropLast t' := by
  obtain ⟨hinv, htight, hlen, hdisc, hs, hst, hmap⟩ := H
  by_cases hb : r.blocks = []
  · left
    rw [hb] at hmap
    simp at hmap
    simp [RBBuf.popBack, DirectBuf.popBack, hs, hb, BufOp.spec, hst, ← hmap]
  · right
    have hb' : t.blocks ≠ [] := by rw [← hmap]; simpa using hb
    have e : r.popBack = ok { r with toDirectBuf := DirectBuf.resetIfEmpty { r.toDirectBuf with blocks := r.blocks.dropLast } } := by
      have hb2 : r.blocks.isEmpty = false := by simpa using hb
      simp [RBBuf.popBack, DirectBuf.popBack, hs, hb2]
    have e2 : BufOp.popBack.spec t = ok (.unit, BufSpec.norm { t with blocks := t.blocks.dropLast }) := by
      simp [BufOp.spec, hst, hb']
    refine ⟨_, _, e, e2, ?_⟩
    have hi := hinv.popBack e
    revert hi
    generalize e₁ : ({ r with toDirectBuf := DirectBuf.resetIfEmpty { r.toDirectBuf with blocks := r.blocks.dropLast } } : RBBuf) = r'
    intro hi
    have d1 : r'.data = r.data := by rw [← e₁]; simp [DirectBuf.resetIfEmpty]; split <;> rfl
    have d2 : r'.blocks = r.blocks.dropLast := by rw [← e₁]; simp [DirectBuf.resetIfEmpty]; split <;> rfl
    have d4 : r'.sealed = false := by rw [← e₁]; simp [DirectBuf.resetIfEmpty]; split <;> exact hs
    have d5 : r'.capacity = r.capacity := by rw [← e₁]
    have d6 : r'.discardBlockCount = 0 := by rw [← e₁]; exact hdisc
    refine ⟨hi, ?_, by rw [d1]; exact hlen, d6, d4, ?_, ?_⟩
    · rw [d2, d5]; exact Tight.dropLast htight hinv.wf.done
    · unfold BufSpec.norm; split <;> exact hst
    · have : (BufSpec.norm { t with blocks := t.blocks.dropLast }).blocks = t.blocks.dropLast := by
        unfold BufSpec.norm; split <;> rfl
      rw [this, ← hmap, d2, List.map_dropLast]
      congr 1
      apply List.map_congr_left
      intro x _
      simp only [cont, ref, d1]

theorem Load.step {M cap : Nat} {fresh : Bool} {r : RBBuf} {m : Mem} {h : Held} {t : BufSpec} (H : Load M cap fresh r m h t) (o : BufOp)
    (h1 : o ≠ .splitOff ∧ o ≠ .data) (h0 : o = .popBack → fresh = true)
    (h2 : ∀ d, o = .write d → t.liveBytes + 2 * M ≤ cap ∧ t.pendingBytes + d.length ≤ M) :
    (o.runR (r, m) = panic ∧ o.spec t = panic ∧ o.clientR (r, m, h) = panic) ∨
    ∃ x r' m' h' t', o.runR (r, m) = ok (x, (r', m')) ∧ o.clientR (r, m, h) = ok (r', m', h') ∧ o.spec t = ok (x, t') ∧
      Load M cap (o.fresh fresh) r' m' h' t' := by
  cases o with
  | popBack =>
    have := h0 rfl; subst this
    rcases H.popBack with ⟨e1, e2⟩ | ⟨r', t', e1, e2, H'⟩
    · left; exact ⟨by simp [BufOp.runR, e1], e2, by simp [BufOp.clientR, e1]⟩
    · right; exact ⟨_, r', m, _, t', by simp [BufOp.runR, e1], by simp [BufOp.clientR, e1], e2, H'⟩
  | splitOff => simp at h1
  | data => simp at h1
  | write d =>
    right
    obtain ⟨r', m', e, H'⟩ := H.write d (h2 d rfl).1 (h2 d rfl).2
    exact ⟨_, r', m', _, _, by simp [BufOp.runR, e]; rfl, by simp [BufOp.clientR, e], by simp [BufOp.spec, H.sealedT], H'⟩
  | fetch =>
    rcases H.fetch with ⟨e1, e2⟩ | ⟨s, r', t', e1, e2, H'⟩
    · left; exact ⟨by simp [BufOp.runR, e1], e2, by simp [BufOp.clientR, e1]⟩
    · right
      cases s with
      | none => exact ⟨_, r', m, h, t', by simp [BufOp.runR, e1], by simp [BufOp.clientR, e1], e2, H'⟩
      | some s => exact ⟨_, r', m, _, t', by simp [BufOp.runR, e1], by simp [BufOp.clientR, e1], e2, H'⟩
  | pop =>
    right
    obtain ⟨r', e, H'⟩ := H.pop
    exact ⟨_, r', m, _, _, by simp [BufOp.runR, e]; rfl, by simp [BufOp.clientR, e], by simp [BufOp.spec, H.sealedT], H'⟩
  | clear =>
    right
    obtain ⟨hinv, htight, hlen, hdisc, hs, hst, hmap⟩ := H
    refine ⟨.unit, r.clear, m, [], BufSpec.empty, rfl, rfl, rfl, ?_⟩
    exact ⟨hinv.step (o := .clear) rfl (by simp), .linear 0 0 rfl (Nat.zero_le _) (.inl hlen), hlen, rfl, rfl, rfl, rfl⟩
  | pending =>
    right
    refine ⟨.num r.pendingBlockSize, r, m, h, t, rfl, rfl, ?_, H⟩
    have hsz := H.size_eq
    simp only [BufOp.spec, ← H.map, pendingBlockSize, DirectBuf.pendingBlockSize, List.getLast?_map]
    cases hk : r.blocks.getLast? with
    | none => rfl
    | some k =>
      simp only [Option.map_some, cont]
      cases hc : k.completed with
      | true => simp
      | false => simp [hsz k (List.mem_of_getLast? hk)]
  | size =>
    right
    refine ⟨.num r.toDirectBuf.size, r, m, h, t, rfl, rfl, ?_, H⟩
    simp [BufOp.spec, ← H.map, DirectBuf.size]

theorem Load.run {M cap : Nat} {ops : List BufOp} : ∀ {fresh : Bool} {r : RBBuf} {m : Mem} {h : Held} {t : BufSpec}, Load M cap fresh r m h t →
    LightLoad M cap fresh ops t → seen (runTrace BufOp.runR ops (r, m)) = seen (runTrace BufOp.spec ops t) ∧
      ∀ {r' m' h'}, runClientR ops (r, m, h) = ok (r', m', h') → ∃ fresh' t', Load M cap fresh' r' m' h' t' := by
  induction ops with
  | nil =>
    intro fresh r m h t H _
    refine ⟨rfl, ?_⟩
    intro r' m' h' e; simp [runClientR] at e; obtain ⟨rfl, rfl, rfl⟩ := e; exact ⟨_, t, H⟩
  | cons o os ih =>
    intro fresh r m h t H hl
    obtain ⟨l1, l0, l2, l3⟩ := hl
    rcases H.step o l1 l0 l2 with ⟨e1, e2, e3⟩ | ⟨x, r₁, m₁, h₁, t₁, e1, e2, e3, H'⟩
    · constructor
      · simp [runTrace, e1, e2, seen]
      · intro r' m' h' e; simp [runClientR, e3] at e
    · obtain ⟨i1, i2⟩ := ih H' (l3 _ _ e3)
      constructor
      · simp only [runTrace, e1, e3, ok_bind]
        revert i1
        cases runTrace BufOp.runR os (r₁, m₁) <;> cases runTrace BufOp.spec os t₁ <;> simp [seen]
      · intro r' m' h' e
        simp only [runClientR, e2, ok_bind] at e
        exact i2 e

theorem Load_new (M cap : Nat) (m : Mem) : Load M cap false (RBBuf.new m cap).1 (RBBuf.new m cap).2 [] BufSpec.empty := by
  refine ⟨Inv_new m cap, .linear 0 0 rfl (Nat.zero_le _) (.inl ?_), ?_, ?_, rfl, rfl, rfl⟩ <;> rfl

end RBBuf
end Avf
