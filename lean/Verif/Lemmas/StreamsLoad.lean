import Verif.Lemmas.RBLoad
import Verif.Lemmas.Streams
import Verif.Spec.DemuxerMemory
/-! # StreamsBuffer with every ring under light load -/
set_option linter.unusedSimpArgs false
namespace Avf
open Go

namespace RBBuf

/-- The state of a ring depends on its own array only. -/
theorem Load.frame {M cap : Nat} {fresh : Bool} {r : RBBuf} {m m' : Mem} {h : Held} {t : BufSpec} (H : Load M cap fresh r m h t)
    (hl : m.length ≤ m'.length) (ha : m'.arr r.data.arr = m.arr r.data.arr) : Load M cap fresh r m' h t := by
  obtain ⟨⟨wf, geo, disc, hh, hdl, hdisc⟩, htight, hlen, hdc, hs, hst, hmap⟩ := H
  have hrd : ∀ k, m'.read (r.ref k) = m.read (r.ref k) := by
    intro k; rw [Mem.read_eq, Mem.read_eq]; simp only [ref, ha]
  have : disc = [] := by rw [hdc] at hdl; exact List.length_eq_zero_iff.1 hdl
  subst this
  have h1 := wf.arr
  refine ⟨⟨⟨by omega, by rw [ha]; exact wf.len, wf.cap, wf.fits, wf.off, wf.done⟩, geo, [], ?_, hdl, by simp⟩, htight, hlen, hdc, hs, hst, ?_⟩
  · rw [hh]
    congr 1
    apply List.map_congr_left
    intro k _
    simp only [entry, hrd]
  · rw [← hmap]
    apply List.map_congr_left
    intro k _
    simp only [cont, hrd]

theorem same_refl {r : RBBuf} {m : Mem} (h : r.data.arr < m.length) : Same (r, m) (r, m) := ⟨rfl, h, h, rfl⟩

theorem write_frame {r r' : RBBuf} {m m' : Mem} {d : Bytes} (h : r.data.arr < m.length) (e : r.write m d = ok (r', m')) :
    Frame (r, m) (r', m') := by
  rcases write_same (same_refl h) d with ⟨e1, _⟩ | ⟨s, t, e1, _, _, g⟩
  · rw [e] at e1; cases e1
  · rw [e] at e1; cases e1; exact g

end RBBuf

/-- Every ring of the pipeline is under light load and has an array of its own. -/
structure Sim (M : Nat → Nat) (caps : List Nat) (fr : Nat → Bool) (T : Nat → List (Bytes × Bool)) (H : Nat → Held) (s : StreamsBuf) (m : Mem) :
    Prop where
  len : s.buffers.length = caps.length
  load : ∀ (i : Nat) (r : RBBuf) (cap : Nat), s.buffers[i]? = some r → caps[i]? = some cap → ∃ t, RBBuf.Load (M i) cap (fr i) r m (H i) t ∧ t.blocks = T i
  sep : ∀ (i j : Nat) (r q : RBBuf), i ≠ j → s.buffers[i]? = some r → s.buffers[j]? = some q → r.data.arr ≠ q.data.arr
  rest : ∀ i, caps.length ≤ i → H i = [] ∧ T i = []

namespace Sim

theorem lt {M : Nat → Nat} {caps : List Nat} {fr : Nat → Bool} {T : Nat → List (Bytes × Bool)} {H : Nat → Held} {s : StreamsBuf} {m : Mem}
    (S : Sim M caps fr T H s m) {i : Nat} {r : RBBuf} (hr : s.buffers[i]? = some r) : r.data.arr < m.length := by
  have hi := (List.getElem?_eq_some_iff.1 hr).1
  have hc : i < caps.length := by rw [← S.len]; exact hi
  obtain ⟨t, L, _⟩ := S.load i r _ hr (List.getElem?_eq_getElem hc)
  exact L.inv.wf.arr

/-- One ring changes. -/
theorem put {M : Nat → Nat} {caps : List Nat} {fr : Nat → Bool} {T : Nat → List (Bytes × Bool)} {H : Nat → Held} {s : StreamsBuf} {m : Mem}
    (S : Sim M caps fr T H s m) {i cap : Nat} {r r' : RBBuf} {m' : Mem} {f : Bool} {h : Held} {t : BufSpec}
    (hr : s.buffers[i]? = some r) (hc : caps[i]? = some cap) (hf : RBBuf.Frame (r, m) (r', m')) (L : RBBuf.Load (M i) cap f r' m' h t) :
    Sim M caps (Function.update fr i f) (Function.update T i t.blocks) (Function.update H i h) (s.put i r') m' := by
  have hi : i < s.buffers.length := (List.getElem?_eq_some_iff.1 hr).1
  have key : ∀ j q, i ≠ j → s.buffers[j]? = some q → r'.data.arr ≠ q.data.arr := by
    intro j q hj hq
    have h1 := S.lt hq
    have h2 := S.sep i j r q hj hr hq
    rcases hf.own with own | own
    · simp only at own; rw [own]; exact h2
    · simp only at own; omega
  refine ⟨by simp [StreamsBuf.put, S.len], ?_, ?_, ?_⟩
  · intro j q c hq hcj
    simp only [StreamsBuf.put] at hq
    by_cases hj : i = j
    · subst hj
      rw [List.getElem?_set_self hi] at hq
      rw [hc] at hcj
      cases hq; cases hcj
      simp only [Function.update_self]
      exact ⟨t, L, rfl⟩
    · rw [List.getElem?_set_ne hj] at hq
      simp only [Function.update_of_ne (Ne.symm hj)]
      obtain ⟨t', L', e⟩ := S.load j q c hq hcj
      exact ⟨t', L'.frame hf.len (hf.arr _ (S.lt hq) (S.sep i j r q hj hr hq).symm), e⟩
  · intro j k q u hjk hq hu
    simp only [StreamsBuf.put] at hq hu
    by_cases hj : i = j
    · subst hj
      rw [List.getElem?_set_self hi] at hq
      rw [List.getElem?_set_ne hjk] at hu
      cases hq
      exact key k u hjk hu
    · rw [List.getElem?_set_ne hj] at hq
      by_cases hk : i = k
      · subst hk
        rw [List.getElem?_set_self hi] at hu
        cases hu
        exact (key j q hj hq).symm
      · rw [List.getElem?_set_ne hk] at hu
        exact S.sep j k q u hjk hq hu
  · intro j hj
    have : j ≠ i := by have := S.len; omega
    rw [Function.update_of_ne this, Function.update_of_ne this]
    exact S.rest j hj

/-- A buffer is made. -/
theorem create {M : Nat → Nat} {caps : List Nat} {fr : Nat → Bool} {T : Nat → List (Bytes × Bool)} {H : Nat → Held} {s : StreamsBuf} {m : Mem}
    (S : Sim M caps fr T H s m) (cap : Nat) :
    Sim M (caps ++ [cap]) (Function.update fr caps.length false) T H ⟨s.buffers ++ [(RBBuf.new m cap).1]⟩ (RBBuf.new m cap).2 := by
  have hl := S.len
  have hnew : ∀ (j : Nat) (q : RBBuf), (s.buffers ++ [(RBBuf.new m cap).1])[j]? = some q → ¬ j < s.buffers.length →
      j = s.buffers.length ∧ q = (RBBuf.new m cap).1 := by
    intro j q hq hj
    rw [List.getElem?_append_right (by omega)] at hq
    cases hk : j - s.buffers.length with
    | succ k => rw [hk] at hq; simp at hq
    | zero => rw [hk] at hq; simp at hq; subst hq; exact ⟨by omega, rfl⟩
  have harr : (RBBuf.new m cap).1.data.arr = m.length := rfl
  refine ⟨by simp [hl], ?_, ?_, ?_⟩
  · intro j q c hq hc
    by_cases hj : j < s.buffers.length
    · simp only at hq
      rw [List.getElem?_append_left hj] at hq
      rw [List.getElem?_append_left (by omega)] at hc
      rw [Function.update_of_ne (by omega)]
      obtain ⟨t, L, e⟩ := S.load j q c hq hc
      refine ⟨t, L.frame ?_ ?_, e⟩
      · simp only [RBBuf.new, Mem.length_make]; omega
      · simp only [RBBuf.new]; rw [Mem.arr_make_lt _ _ _ (S.lt hq)]
    · obtain ⟨rfl, rfl⟩ := hnew j q hq hj
      rw [hl] at hc ⊢
      rw [List.getElem?_append_right (Nat.le_refl _)] at hc
      simp at hc; subst hc
      rw [Function.update_self]
      obtain ⟨h1, h2⟩ := S.rest caps.length (Nat.le_refl _)
      exact ⟨BufSpec.empty, by rw [h1]; exact RBBuf.Load_new _ cap m, by rw [h2]; rfl⟩
  · intro j k q u hjk hq hu
    simp only at hq hu
    by_cases hj : j < s.buffers.length
    · have hq' := hq
      rw [List.getElem?_append_left hj] at hq'
      have := S.lt hq'
      by_cases hk : k < s.buffers.length
      · rw [List.getElem?_append_left hk] at hu
        exact S.sep j k q u hjk hq' hu
      · obtain ⟨_, rfl⟩ := hnew k u hu hk
        rw [harr]; omega
    · obtain ⟨hj', rfl⟩ := hnew j q hq hj
      by_cases hk : k < s.buffers.length
      · rw [List.getElem?_append_left hk] at hu
        have := S.lt hu
        rw [harr]; omega
      · have := hnew k u hu hk
        omega
  · intro i hi
    simp at hi
    exact S.rest i (by omega)

theorem new (M : Nat → Nat) (m : Mem) : Sim M [] (fun _ => false) (fun _ => []) (fun _ => []) ⟨[]⟩ m :=
  ⟨rfl, by simp, by simp, fun _ _ => ⟨rfl, rfl⟩⟩

variable {M : Nat → Nat} {caps : List Nat} {fr : Nat → Bool} {T : Nat → List (Bytes × Bool)} {H : Nat → Held} {s : StreamsBuf} {m : Mem}

theorem get (S : Sim M caps fr T H s m) {i cap : Nat} (hc : caps[i]? = some cap) :
    ∃ r t, s.buffers[i]? = some r ∧ RBBuf.Load (M i) cap (fr i) r m (H i) t ∧ t.blocks = T i := by
  have hi : i < s.buffers.length := by rw [S.len]; exact (List.getElem?_eq_some_iff.1 hc).1
  have hr : s.buffers[i]? = some s.buffers[i] := List.getElem?_eq_getElem hi
  obtain ⟨t, L, e⟩ := S.load i _ cap hr hc
  exact ⟨_, t, hr, L, e⟩

/-- Bytes of the blocks. -/
def bytes (b : List (Bytes × Bool)) : Nat := (b.map (·.1.length)).sum

/-- Bytes of the block being written. -/
def pendingOf (b : List (Bytes × Bool)) : Nat :=
  match b.getLast? with
  | some (c, false) => c.length
  | _ => 0

theorem write (S : Sim M caps fr T H s m) {i cap : Nat} (hc : caps[i]? = some cap) (d : Bytes) (v : Bool)
    (h1 : bytes (T i) + 2 * M i ≤ cap) (h2 : pendingOf (T i) + d.length ≤ M i) :
    ∃ s' m', s.write m d i v = ok (d.length, s', m') ∧
      Sim M caps (Function.update fr i true) (Function.update T i (BufSpec.addBytes (T i) d)) (Function.update H i (H i).write) s' m' := by
  obtain ⟨r, t, hr, L, e⟩ := S.get hc
  have hi : i < s.buffers.length := (List.getElem?_eq_some_iff.1 hr).1
  rw [← e] at h1 h2
  obtain ⟨r', m', ew, L'⟩ := L.write d h1 h2
  refine ⟨s.put i r', m', ?_, ?_⟩
  · simp only [StreamsBuf.write, StreamsBuf.findOrCreate, hi, if_true, idx, hr, ok_bind, Go.pure_def, ew]
  · rw [← e]
    exact S.put hr hc (RBBuf.write_frame (S.lt hr) ew) L'

theorem fetch (S : Sim M caps fr T H s m) {i cap : Nat} (hc : caps[i]? = some cap) {bs : List (Bytes × Bool)} {d : Bytes}
    (ht : T i = bs ++ [(d, false)]) :
    ∃ sl s', s.fetch m i = ok (some sl, s', m) ∧ m.read sl = d ∧
      Sim M caps fr (Function.update T i (bs ++ [(d, true)])) (Function.update H i ((H i).fetched sl d)) s' m := by
  obtain ⟨r, t, hr, L, e⟩ := S.get hc
  have hi : i < s.buffers.length := (List.getElem?_eq_some_iff.1 hr).1
  have hsp : BufOp.fetch.spec t = ok (.bytes (some d), { t with blocks := bs ++ [(d, true)] }) := by
    simp [BufOp.spec, L.sealedT, e, ht]
  rcases L.fetch with ⟨_, e2⟩ | ⟨sl, r', t', e1, e2, L'⟩
  · rw [hsp] at e2; cases e2
  · rw [hsp] at e2
    injection e2 with e2
    obtain ⟨e3, e4⟩ := Prod.mk.inj e2
    injection e3 with e3
    cases sl with
    | none => cases e3
    | some sl =>
      simp only [Option.map_some, Option.some.injEq] at e3
      refine ⟨sl, s.put i r', ?_, e3.symm, ?_⟩
      · simp only [StreamsBuf.fetch, StreamsBuf.findOrCreate, hi, if_true, idx, hr, ok_bind, Go.pure_def, e1]
      · dsimp only at L'
        rw [← e3] at L'
        have hd : r'.data = r.data := by
          rcases RBBuf.fetch_same (RBBuf.same_refl (S.lt hr)) with ⟨f1, _⟩ | ⟨_, _, _, _, f1, _, _, _, f2⟩
          · rw [e1] at f1; cases f1
          · rw [e1] at f1; cases f1; exact f2
        have := S.put hr hc (RBBuf.frame_rfl hd) L'
        rw [← e4, Function.update_eq_self] at this
        exact this

theorem pop (S : Sim M caps fr T H s m) {i cap : Nat} (hc : caps[i]? = some cap) :
    ∃ s', s.discardHead i = ok s' ∧
      Sim M caps fr (Function.update T i ((T i).drop 1)) (Function.update H i ((H i).drop 1)) s' m := by
  obtain ⟨r, t, hr, L, e⟩ := S.get hc
  obtain ⟨r', ew, L'⟩ := L.pop
  refine ⟨s.put i r', ?_, ?_⟩
  · simp only [StreamsBuf.discardHead, idx, hr, ok_bind, Go.pure_def, ew]
  · have := S.put hr hc (RBBuf.frame_rfl (RBBuf.pop_data ew)) L'
    rw [Function.update_eq_self] at this
    have hb : (BufSpec.norm { t with blocks := t.blocks.drop 1 }).blocks = (T i).drop 1 := by
      rw [← e]; unfold BufSpec.norm; split <;> rfl
    rw [hb] at this
    exact this

theorem popBack (S : Sim M caps fr T H s m) {i cap : Nat} (hc : caps[i]? = some cap) (hf : fr i = true) (hne : T i ≠ []) :
    ∃ s', s.discardBack i = ok s' ∧
      Sim M caps (Function.update fr i false) (Function.update T i (T i).dropLast) (Function.update H i (H i).dropLast) s' m := by
  obtain ⟨r, t, hr, L, e⟩ := S.get hc
  rw [hf] at L
  have hsp : BufOp.popBack.spec t = ok (.unit, BufSpec.norm { t with blocks := t.blocks.dropLast }) := by
    simp [BufOp.spec, L.sealedT, e, hne]
  rcases L.popBack with ⟨_, e2⟩ | ⟨r', t', ew, e2, L'⟩
  · rw [hsp] at e2; cases e2
  · rw [hsp] at e2
    injection e2 with e2
    obtain ⟨_, e4⟩ := Prod.mk.inj e2
    refine ⟨s.put i r', ?_, ?_⟩
    · simp only [StreamsBuf.discardBack, idx, hr, ok_bind, Go.pure_def, ew]
    · have := S.put hr hc (RBBuf.frame_rfl (RBBuf.popBack_data ew)) L'
      have hb : t'.blocks = (T i).dropLast := by
        rw [← e4, ← e]; unfold BufSpec.norm; split <;> rfl
      rw [hb] at this
      exact this

/-- A block is written in pieces. -/
theorem writeAll {cs : List Bytes} : ∀ {fr : Nat → Bool} {T : Nat → List (Bytes × Bool)} {H : Nat → Held} {s : StreamsBuf} {m : Mem}
    (_ : Sim M caps fr T H s m) {i cap : Nat} (_ : caps[i]? = some cap) (v : Bool) {bs : List (Bytes × Bool)} {d : Bytes} {h : Held}
    (_ : T i = bs ++ [(d, false)]) (_ : H i = h ++ [none]) (_ : fr i = true)
    (_ : bytes bs + d.length + cs.flatten.length + 2 * M i ≤ cap) (_ : d.length + cs.flatten.length ≤ M i),
    ∃ s' m', s.writeAll m i v cs = ok (s', m') ∧
      Sim M caps (Function.update fr i true) (Function.update T i (bs ++ [(d ++ cs.flatten, false)])) (Function.update H i (h ++ [none])) s' m' := by
  induction cs with
  | nil =>
    intro fr T H s m S i cap hc v bs d h ht hh hf h1 h2
    refine ⟨s, m, rfl, ?_⟩
    simp only [List.flatten_nil, List.append_nil]
    rw [← ht, ← hh, ← hf, Function.update_eq_self, Function.update_eq_self, Function.update_eq_self]
    exact S
  | cons c cs ih =>
    intro fr T H s m S i cap hc v bs d h ht hh hf h1 h2
    simp only [List.flatten_cons, List.length_append] at h1 h2
    have hb : bytes (T i) = bytes bs + d.length := by rw [ht]; simp [bytes]
    have hp : pendingOf (T i) = d.length := by rw [ht]; simp [pendingOf]
    obtain ⟨s', m', e, S'⟩ := S.write hc c v (by omega) (by omega)
    have ha : BufSpec.addBytes (T i) c = bs ++ [(d ++ c, false)] := by rw [ht]; simp [BufSpec.addBytes]
    have hw : (H i).write = h ++ [none] := by rw [hh]; simp [Held.write]
    rw [ha, hw] at S'
    obtain ⟨s'', m'', e', S''⟩ := ih S' hc v (bs := bs) (d := d ++ c) (h := h) (Function.update_self ..) (Function.update_self ..)
      (Function.update_self ..) (by simp only [List.length_append]; omega) (by simp only [List.length_append]; omega)
    refine ⟨s'', m'', ?_, ?_⟩
    · simp only [StreamsBuf.writeAll, e, ok_bind]; exact e'
    · simp only [Function.update_idem] at S''
      rw [List.flatten_cons, ← List.append_assoc]
      exact S''

/-- A block is written into an existing buffer and fetched. -/
theorem block (S : Sim M caps fr T H s m) {i cap : Nat} (hc : caps[i]? = some cap) (v : Bool) {cs : List Bytes} (hcs : cs ≠ [])
    (hp : ∀ x, (T i).getLast? = some x → x.2 = true) (hq : ∀ x, (H i).getLast? = some x → x ≠ none)
    (h1 : bytes (T i) + cs.flatten.length + 2 * M i ≤ cap) (h2 : cs.flatten.length ≤ M i) :
    ∃ s₁ m' sl s', s.writeAll m i v cs = ok (s₁, m') ∧ s₁.fetch m' i = ok (some sl, s', m') ∧ m'.read sl = cs.flatten ∧
      Sim M caps (Function.update fr i true) (Function.update T i (T i ++ [(cs.flatten, true)]))
        (Function.update H i (H i ++ [some (sl, cs.flatten)])) s' m' := by
  cases cs with
  | nil => exact absurd rfl hcs
  | cons c cs =>
    simp only [List.flatten_cons, List.length_append] at h1 h2
    have hpend : pendingOf (T i) = 0 := by
      unfold pendingOf
      split
      · rename_i x hx; exact absurd (hp _ hx) (by simp)
      · rfl
    obtain ⟨s₁, m₁, e, S₁⟩ := S.write hc c v (by omega) (by omega)
    have ha : BufSpec.addBytes (T i) c = T i ++ [(c, false)] := by
      unfold BufSpec.addBytes
      split
      · rename_i x hx; exact absurd (hp _ hx) (by simp)
      · rfl
    have hw : (H i).write = H i ++ [none] := by
      unfold Held.write
      split
      · rename_i hx; exact absurd rfl (hq _ hx)
      · rfl
    rw [ha, hw] at S₁
    obtain ⟨s₂, m₂, e₂, S₂⟩ := S₁.writeAll (cs := cs) hc v (bs := T i) (d := c) (h := H i) (Function.update_self ..)
      (Function.update_self ..) (Function.update_self ..) (by omega) (by omega)
    simp only [Function.update_idem] at S₂
    obtain ⟨sl, s₃, e₃, hrd, S₃⟩ := S₂.fetch hc (Function.update_self ..)
    refine ⟨s₂, m₂, sl, s₃, ?_, e₃, by rw [hrd, List.flatten_cons], ?_⟩
    · simp only [StreamsBuf.writeAll, e, ok_bind]; exact e₂
    · simp only [Function.update_idem, Function.update_self] at S₃
      rw [List.flatten_cons]
      simpa [Held.fetched] using S₃

/-- Writing into the next buffer makes it. -/
theorem writeAll_create {i : Nat} (hi : i = s.buffers.length) (v : Bool) {cs : List Bytes} (hcs : cs ≠ []) :
    s.writeAll m i v cs = StreamsBuf.writeAll ⟨s.buffers ++ [(RBBuf.new m (if v then 2097152 else 576000)).1]⟩
      (RBBuf.new m (if v then 2097152 else 576000)).2 i v cs := by
  cases cs with
  | nil => exact absurd rfl hcs
  | cons c cs =>
    have h1 : ¬ s.buffers.length < s.buffers.length := by omega
    have h2 : ∀ r, s.buffers.length < (s.buffers ++ [r]).length := by simp
    subst hi
    simp only [StreamsBuf.writeAll, StreamsBuf.write, StreamsBuf.findOrCreate, h1, h2, if_true, if_false]

end Sim
end Avf
