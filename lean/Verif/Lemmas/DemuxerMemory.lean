import Verif.Lemmas.StreamsLoad
import Verif.Props.DemuxerPipe
/-! # Lemmas: a demuxer wired to a StreamsBuffer -/
namespace Avf
open Go
open Demuxer (Plain Paired)

/-- The entries of one buffer. -/
def refsOf (b : Int) (l : List (AVPacket × SliceRef)) : List (AVPacket × SliceRef) := l.filter fun x => x.1.bufferIndex = b

theorem refsOf_append (b : Int) (x y : List (AVPacket × SliceRef)) : refsOf b (x ++ y) = refsOf b x ++ refsOf b y := List.filter_append ..

/-- Entries of delivered packets are removed. -/
def eraseAll (l : List (AVPacket × SliceRef)) (ds : List AVPacket) : List (AVPacket × SliceRef) :=
  ds.foldl (fun r p => r.eraseP (isRef p)) l

theorem packetKey_bare (p : AVPacket) : packetKey (bare p) = packetKey p := rfl

theorem isRef_iff {p : AVPacket} {x : AVPacket × SliceRef} : isRef p x = true ↔ packetKey x.1 = packetKey p := by
  simp [isRef]

theorem isRef_buffer {p : AVPacket} {x : AVPacket × SliceRef} (h : isRef p x = true) : x.1.bufferIndex = p.bufferIndex :=
  congrArg Prod.fst (isRef_iff.1 h)

theorem isRef_data {p : AVPacket} {x : AVPacket × SliceRef} (h : isRef p x = true) : x.1.data = p.data :=
  congrArg (fun k => k.2.2.2.2) (isRef_iff.1 h)

theorem refsOf_eraseP (b : Int) (p : AVPacket) (l : List (AVPacket × SliceRef)) :
    refsOf b (l.eraseP (isRef p)) = if p.bufferIndex = b then (refsOf b l).eraseP (isRef p) else refsOf b l := by
  induction l with
  | nil => simp [refsOf]
  | cons x l ih =>
    by_cases hx : isRef p x = true
    · have hb := isRef_buffer hx
      rw [List.eraseP_cons_of_pos hx]
      by_cases h : p.bufferIndex = b
      · rw [if_pos h]
        have : refsOf b (x :: l) = x :: refsOf b l := by simp [refsOf, hb, h]
        rw [this, List.eraseP_cons_of_pos hx]
      · rw [if_neg h]
        have : refsOf b (x :: l) = refsOf b l := by simp [refsOf, hb, h]
        rw [this]
    · rw [List.eraseP_cons_of_neg hx]
      by_cases hxb : x.1.bufferIndex = b
      · have e : ∀ y, refsOf b (x :: y) = x :: refsOf b y := by intro y; simp [refsOf, hxb]
        rw [e, e, ih, List.eraseP_cons_of_neg hx]
        split <;> rfl
      · have e : ∀ y, refsOf b (x :: y) = refsOf b y := by intro y; simp [refsOf, hxb]
        rw [e, e, ih]

theorem refsOf_eraseAll (b : Int) (ds : List AVPacket) : ∀ l, refsOf b (eraseAll l ds) = eraseAll (refsOf b l) (ofBuffer b ds) := by
  induction ds with
  | nil => intro l; rfl
  | cons p ds ih =>
    intro l
    have : eraseAll l (p :: ds) = eraseAll (l.eraseP (isRef p)) ds := rfl
    rw [this, ih, refsOf_eraseP]
    by_cases h : p.bufferIndex = b
    · have e : ofBuffer b (p :: ds) = p :: ofBuffer b ds := by simp [ofBuffer, h]
      rw [if_pos h, e]; rfl
    · have e : ofBuffer b (p :: ds) = ofBuffer b ds := by simp [ofBuffer, h]
      rw [if_neg h, e]

/-- Removing exactly the entries of a first part. -/
theorem eraseAll_prefix {ds : List AVPacket} : ∀ {A B : List (AVPacket × SliceRef)},
    (ds.map packetKey).Perm (A.map fun x => packetKey x.1) → eraseAll (A ++ B) ds = B := by
  induction ds with
  | nil =>
    intro A B h
    have := h.length_eq
    have hA : A = [] := by
      cases A with
      | nil => rfl
      | cons => simp at this
    rw [hA]; rfl
  | cons p ds ih =>
    intro A B h
    have hm : packetKey p ∈ A.map fun x => packetKey x.1 := h.subset (by simp)
    obtain ⟨x, hx, e⟩ := List.mem_map.1 hm
    have hr : isRef p x = true := isRef_iff.2 e
    have : eraseAll (A ++ B) (p :: ds) = eraseAll ((A ++ B).eraseP (isRef p)) ds := rfl
    rw [this, List.eraseP_append_left hr _ hx]
    refine ih ?_
    obtain ⟨y, l₁, l₂, _, hy, hA, hE⟩ := List.exists_of_eraseP hx hr
    rw [hE]
    rw [hA] at h
    have h2 : (packetKey p :: ds.map packetKey).Perm (packetKey y.1 :: (l₁ ++ l₂).map fun x => packetKey x.1) := by
      refine h.trans ?_
      simp only [List.map_append, List.map_cons]
      exact List.perm_middle
    rw [isRef_iff.1 hy] at h2
    exact h2.cons_inv

theorem eraseAll_sublist {ds : List AVPacket} : ∀ {l : List (AVPacket × SliceRef)}, (eraseAll l ds).Sublist l := by
  induction ds with
  | nil => intro l; exact List.Sublist.refl _
  | cons p ds ih => intro l; exact (ih (l := l.eraseP (isRef p))).trans (List.eraseP_sublist ..)

/-- Calls that deliver and release. -/
theorem playAll_wired {M : Nat → Nat} {caps : List Nat} {fr : Nat → Bool} {sl : Option SliceRef} {cs : List Call} (hp : Plain cs) (hq : Paired cs) :
    ∀ {T : Nat → List (Bytes × Bool)} {H : Nat → Held} {w : Wired}, Sim M caps fr T H w.buf w.mem →
    (∀ p ∈ delivered cs, ∃ i : Nat, i < caps.length ∧ p.bufferIndex = i) →
    (∃ rest, ((delivered cs).map packetKey ++ rest).Perm (w.refs.map fun x => packetKey x.1)) →
    (∀ x ∈ w.refs, w.mem.read x.2 = x.1.data) →
    ∃ s', w.playAll sl cs = ok { w with buf := s'
                                        refs := eraseAll w.refs (delivered cs)
                                        got := w.got ++ (delivered cs).map fun p => some p.data } ∧
      Sim M caps fr (fun i => (T i).drop (ofBuffer i (delivered cs)).length) (fun i => (H i).drop (ofBuffer i (delivered cs)).length) s' w.mem := by
  induction cs using Paired.induct with
  | case1 =>
    intro T H w S _ _ _
    exact ⟨w.buf, by simp [Wired.playAll, delivered, eraseAll], by simpa [delivered, ofBuffer] using S⟩
  | case2 p b' p' rest ih =>
    intro T H w S hin hperm hgood
    obtain ⟨rfl, rfl, hq⟩ := hq
    have hd : delivered (.packet p' :: .discardHead p'.bufferIndex :: .free p' :: rest) = p' :: delivered rest := rfl
    rw [hd] at hin hperm ⊢
    obtain ⟨i, hi, hb⟩ := hin p' (List.mem_cons_self ..)
    obtain ⟨more, hperm⟩ := hperm
    have hm : packetKey p' ∈ w.refs.map fun x => packetKey x.1 := hperm.subset (by simp)
    obtain ⟨x, hx, e⟩ := List.mem_map.1 hm
    have hr : isRef p' x = true := isRef_iff.2 e
    obtain ⟨y, l₁, l₂, hn, hy, hA, hE⟩ := List.exists_of_eraseP hx hr
    have hfind : w.refs.find? (isRef p') = some y := by
      rw [hA, List.find?_append, List.find?_eq_none.2 (fun z hz => hn z hz)]
      simp [hy]
    have hread : w.mem.read y.2 = p'.data := by
      rw [hgood y (by rw [hA]; simp), isRef_data hy]
    obtain ⟨s₁, e₁, S₁⟩ := S.pop (i := i) (List.getElem?_eq_getElem hi)
    obtain ⟨s', e', S'⟩ := ih hp.tail.tail.tail hq (w := { w with buf := s₁
                                                                  refs := w.refs.eraseP (isRef p')
                                                                  got := w.got ++ [some p'.data] }) S₁
      (fun q hq => hin q (List.mem_cons_of_mem _ hq))
      ⟨more, by
        show List.Perm _ (List.map _ (w.refs.eraseP (isRef p')))
        rw [hE]
        rw [hA] at hperm
        have h2 : (packetKey p' :: ((delivered rest).map packetKey ++ more)).Perm (packetKey y.1 :: (l₁ ++ l₂).map fun x => packetKey x.1) := by
          refine hperm.trans ?_
          simp only [List.map_append, List.map_cons]
          exact List.perm_middle
        rw [isRef_iff.1 hy] at h2
        exact h2.cons_inv⟩
      (fun z hz => hgood z (List.mem_of_mem_eraseP hz))
    refine ⟨s', ?_, ?_⟩
    · simp only [Wired.playAll, Wired.play, ok_bind, hfind, Option.map_some, hread, hb]
      rw [if_neg (by omega), Int.toNat_natCast, e₁]
      simp only [ok_bind, Go.pure_def]
      rw [e']
      simp [eraseAll]
    · have hcount : ∀ j : Nat, (ofBuffer j (p' :: delivered rest)).length = (if j = i then 1 else 0) + (ofBuffer j (delivered rest)).length := by
        intro j
        unfold ofBuffer
        by_cases hj : j = i
        · subst hj
          rw [if_pos rfl, List.filter_cons_of_pos (by simp [hb]), List.length_cons]; omega
        · rw [if_neg hj, List.filter_cons_of_neg (by simp [hb]; omega)]; omega
      have h1 : ∀ {α : Type} (F : Nat → List α), (fun j => (Function.update F i ((F i).drop 1) j).drop (ofBuffer j (delivered rest)).length) =
          fun j => (F j).drop (ofBuffer j (p' :: delivered rest)).length := by
        intro α F
        funext j
        rw [hcount]
        by_cases hj : j = i
        · subst hj
          rw [Function.update_self, if_pos rfl, List.drop_drop]
        · rw [Function.update_of_ne hj, if_neg hj, Nat.zero_add]
      rw [h1, h1] at S'
      exact S'
  | case3 p rest h => unfold Paired at hq; split at hq <;> simp_all
  | case4 => exact hq.elim
  | case5 => exact hq.elim
  | case6 t rest ih => intro T H w S; exact ih hp.tail hq S
  | case7 rest ih => intro T H w S; exact ih hp.tail hq S
  | case8 rest ih => intro T H w S; exact ih hp.tail hq S
  | case9 b rest ih => exact absurd rfl ((hp _ (List.mem_cons_self ..)).2 b)
  | case10 q rest ih => exact absurd rfl ((hp _ (List.mem_cons_self ..)).1 q)

/-! ## One operation -/

theorem bare_ofBuffer (b : Int) (l : List AVPacket) : (l.map bare).filter (fun p => p.bufferIndex = b) = (ofBuffer b l).map bare := by
  rw [List.filter_map]; rfl

/-- What was delivered and what is queued after an operation, in terms of what was queued before. -/
theorem queue_step {s s' : Demuxer} {cs : List Call} {new : List AVPacket} (hc : s.Conserved) (hc' : s'.Conserved)
    (hd : delivered s'.calls = delivered s.calls ++ delivered cs) (ht : taken s'.calls = taken s.calls ++ new) (b : Int)
    (h0 : (ofBuffer b s.packets.flatten).map bare = ((ofBuffer b (taken s.calls)).map bare).drop (ofBuffer b (delivered s.calls)).length)
    (h1 : (ofBuffer b s'.packets.flatten).map bare = ((ofBuffer b (taken s'.calls)).map bare).drop (ofBuffer b (delivered s'.calls)).length) :
    (ofBuffer b s'.packets.flatten).map bare = ((ofBuffer b s.packets.flatten).map bare ++ (ofBuffer b new).map bare).drop (ofBuffer b (delivered cs)).length ∧
    ((ofBuffer b (delivered cs)).map bare ++ (ofBuffer b s'.packets.flatten).map bare).Perm
      ((ofBuffer b s.packets.flatten).map bare ++ (ofBuffer b new).map bare) := by
  have hlen := hc.length b
  constructor
  · rw [h1, h0, hd, ht, Demuxer.ofBuffer_append, Demuxer.ofBuffer_append, List.length_append, List.map_append, ← List.drop_drop,
      List.drop_append_of_le_length (by rw [List.length_map]; omega)]
  · have p0 := hc.filter fun p => p.bufferIndex = b
    have p1 := hc'.filter fun p => p.bufferIndex = b
    rw [bare_ofBuffer, bare_ofBuffer, Demuxer.ofBuffer_append, List.map_append] at p0 p1
    rw [hd, ht, Demuxer.ofBuffer_append, Demuxer.ofBuffer_append, List.map_append, List.map_append, List.append_assoc] at p1
    refine (List.perm_append_left_iff ((ofBuffer b (delivered s.calls)).map bare)).1 ?_
    refine p1.trans ?_
    rw [← List.append_assoc]
    exact List.Perm.append_right _ p0.symm

theorem refs_step {refs : List (AVPacket × SliceRef)} {ds : List AVPacket} {Q : List AVPacket} {b : Int}
    (h1 : Q.map bare = ((refsOf b refs).map fun x => bare x.1).drop (ofBuffer b ds).length)
    (h2 : ((ofBuffer b ds).map bare ++ Q.map bare).Perm ((refsOf b refs).map fun x => bare x.1)) :
    refsOf b (eraseAll refs ds) = (refsOf b refs).drop (ofBuffer b ds).length := by
  rw [refsOf_eraseAll]
  conv_lhs => rw [← List.take_append_drop (ofBuffer b ds).length (refsOf b refs)]
  refine eraseAll_prefix ?_
  have e := List.take_append_drop (ofBuffer b ds).length ((refsOf b refs).map fun x => bare x.1)
  rw [← e, ← h1] at h2
  have h3 := (List.perm_append_right_iff _).1 h2
  have h4 := h3.map packetKey
  rw [← List.map_take, List.map_map, List.map_map] at h4
  exact h4

theorem withBlock_self {e : DemuxOp} {b : Int} {d : Bytes} (h : e.block = some (b, d)) : e.withBlock d = e := by
  cases e with
  | audioPacket => simp only [DemuxOp.block, Option.some.injEq, Prod.mk.injEq] at h; rw [← h.2]; rfl
  | videoPacket => simp only [DemuxOp.block, Option.some.injEq, Prod.mk.injEq] at h; rw [← h.2]; rfl
  | newAudioTrack b id tb x c =>
    simp only [DemuxOp.block] at h
    split at h
    · cases h
    · rename_i hx
      simp only [Option.some.injEq, Prod.mk.injEq] at h
      cases x with
      | none => simp at hx
      | some x => rw [← h.2]; rfl
  | newVideoTrack b id tb x =>
    simp only [DemuxOp.block] at h
    split at h
    · cases h
    · rename_i hx
      simp only [Option.some.injEq, Prod.mk.injEq] at h
      cases x with
      | none => simp at hx
      | some x => rw [← h.2]; rfl
  | _ => cases h

/-- The state between operations. -/
structure WInv (M : Nat → Nat) (caps : List Nat) (w : Wired) : Prop where
  sim : ∃ fr, Sim M caps fr (fun i => (refsOf i w.refs).map fun x => (x.1.data, true))
    (fun i => (refsOf i w.refs).map fun x => some (x.2, x.1.data)) w.buf w.mem
  good : ∀ x ∈ w.refs, w.mem.read x.2 = x.1.data
  keys : ∀ b, (refsOf b w.refs).map (fun x => bare x.1) = (ofBuffer b w.dem.packets.flatten).map bare
  range : ∀ x ∈ w.refs, ∃ i : Nat, i < caps.length ∧ x.1.bufferIndex = i
  got : w.got = (delivered w.dem.calls).map fun p => some p.data

theorem mem_refsOf {b : Int} {l : List (AVPacket × SliceRef)} {x : AVPacket × SliceRef} : x ∈ refsOf b l ↔ x ∈ l ∧ x.1.bufferIndex = b := by
  simp [refsOf]

/-- Every entry is a block of its ring, so it is intact. -/
theorem sim_good {M : Nat → Nat} {caps : List Nat} {fr : Nat → Bool} {T : Nat → List (Bytes × Bool)} {s : StreamsBuf} {m : Mem} {refs : List (AVPacket × SliceRef)}
    (S : Sim M caps fr T (fun i => (refsOf i refs).map fun x => some (x.2, x.1.data)) s m)
    (hr : ∀ x ∈ refs, ∃ i : Nat, i < caps.length ∧ x.1.bufferIndex = i) : ∀ x ∈ refs, m.read x.2 = x.1.data := by
  intro x hx
  obtain ⟨i, hi, hb⟩ := hr x hx
  obtain ⟨r, t, _, L, _⟩ := S.get (List.getElem?_eq_getElem hi)
  exact L.inv.good (List.mem_map.2 ⟨x, mem_refsOf.2 ⟨hx, hb⟩, rfl⟩)

/-- No buffer grew. -/
theorem WInv.sizes {M : Nat → Nat} {caps : List Nat} {w : Wired} (W : WInv M caps w) : w.buf.buffers.map (·.data.len) = caps := by
  obtain ⟨fr, S⟩ := W.sim
  apply List.ext_getElem?
  intro i
  rw [List.getElem?_map]
  by_cases hi : i < caps.length
  · obtain ⟨r, t, hr, L, _⟩ := S.get (List.getElem?_eq_getElem hi)
    rw [hr, List.getElem?_eq_getElem hi]
    exact congrArg some L.len
  · rw [List.getElem?_eq_none (by rw [S.len]; omega), List.getElem?_eq_none (by omega)]
    rfl

/-- The calls of an operation that brought `new`. -/
theorem wired_calls {M : Nat → Nat} {caps : List Nat} {fr : Nat → Bool} {sl : Option SliceRef} {cs : List Call} (hp : Plain cs) (hq : Paired cs)
    {s s' : Demuxer} {w : Wired} {new : List AVPacket} (hw : w.dem = s')
    (S : Sim M caps fr (fun i => (refsOf i w.refs).map fun x => (x.1.data, true))
      (fun i => (refsOf i w.refs).map fun x => some (x.2, x.1.data)) w.buf w.mem)
    (hr : ∀ x ∈ w.refs, ∃ i : Nat, i < caps.length ∧ x.1.bufferIndex = i)
    (hkeys : ∀ b, (refsOf b w.refs).map (fun x => bare x.1) = (ofBuffer b s.packets.flatten).map bare ++ (ofBuffer b new).map bare)
    (hgot : w.got = (delivered s.calls).map fun p => some p.data)
    (hc : s.Conserved) (hc' : s'.Conserved)
    (hd : delivered s'.calls = delivered s.calls ++ delivered cs) (ht : taken s'.calls = taken s.calls ++ new)
    (h0 : ∀ b, (ofBuffer b s.packets.flatten).map bare = ((ofBuffer b (taken s.calls)).map bare).drop (ofBuffer b (delivered s.calls)).length)
    (h1 : ∀ b, (ofBuffer b s'.packets.flatten).map bare = ((ofBuffer b (taken s'.calls)).map bare).drop (ofBuffer b (delivered s'.calls)).length) :
    ∃ w', w.playAll sl cs = ok w' ∧ w'.dem = s' ∧ WInv M caps w' := by
  have hgood := sim_good S hr
  have hstep := fun b => queue_step hc hc' hd ht b (h0 b) (h1 b)
  have hrefs : ∀ b, refsOf b (eraseAll w.refs (delivered cs)) = (refsOf b w.refs).drop (ofBuffer b (delivered cs)).length := by
    intro b
    refine refs_step (Q := ofBuffer b s'.packets.flatten) ?_ ?_
    · rw [hkeys]; exact (hstep b).1
    · rw [hkeys]; exact (hstep b).2
  -- every delivered packet has an entry
  have hmem : ∀ p ∈ delivered cs, ∃ x ∈ w.refs, packetKey x.1 = packetKey p := by
    intro p hp
    have : bare p ∈ (ofBuffer p.bufferIndex (delivered cs)).map bare := List.mem_map.2 ⟨p, by simp [ofBuffer, hp], rfl⟩
    have := (hstep p.bufferIndex).2.subset (List.mem_append_left _ this)
    rw [← hkeys] at this
    obtain ⟨x, hx, e⟩ := List.mem_map.1 this
    exact ⟨x, (mem_refsOf.1 hx).1, (congrArg packetKey e : packetKey (bare x.1) = packetKey (bare p))⟩
  have hperm : ∃ rest, ((delivered cs).map packetKey ++ rest).Perm (w.refs.map fun x => packetKey x.1) := by
    have hsub : ((delivered cs).map packetKey).Subperm (w.refs.map fun x => packetKey x.1) := by
      rw [List.subperm_ext_iff]
      intro k _
      have hcnt : ∀ l : List AVPacket, List.count k (l.map packetKey) = List.count k ((ofBuffer k.1 l).map packetKey) := by
        intro l
        induction l with
        | nil => rfl
        | cons p l ih =>
          by_cases h : p.bufferIndex = k.1
          · have e : ofBuffer k.1 (p :: l) = p :: ofBuffer k.1 l := by simp [ofBuffer, h]
            rw [e, List.map_cons, List.map_cons, List.count_cons, List.count_cons, ih]
          · have e : ofBuffer k.1 (p :: l) = ofBuffer k.1 l := by simp [ofBuffer, h]
            rw [e, List.map_cons, List.count_cons_of_ne (by rintro rfl; exact h rfl), ih]
      have e1 : (w.refs.map fun x => packetKey x.1) = (w.refs.map Prod.fst).map packetKey := by rw [List.map_map]; rfl
      rw [e1, hcnt (delivered cs), hcnt (w.refs.map Prod.fst)]
      have e2 : ofBuffer k.1 (w.refs.map Prod.fst) = (refsOf k.1 w.refs).map Prod.fst := by
        unfold ofBuffer refsOf; rw [List.filter_map]; rfl
      have hp2 := ((hstep k.1).2.map packetKey)
      rw [← hkeys, List.map_append, List.map_map, List.map_map, List.map_map] at hp2
      have e3 : ((refsOf k.1 w.refs).map Prod.fst).map packetKey = (refsOf k.1 w.refs).map (packetKey ∘ fun x => bare x.1) := by
        rw [List.map_map]; rfl
      rw [e2, e3, ← hp2.count_eq, List.count_append]
      exact Nat.le_add_right ..
    obtain ⟨l, hl, hl'⟩ := hsub
    obtain ⟨rest, hrest⟩ := hl'.exists_perm_append
    exact ⟨rest, (hl.symm.append_right rest).trans hrest.symm⟩
  obtain ⟨b', e, S'⟩ := playAll_wired (sl := sl) hp hq S (w := w)
    (by intro p hp
        obtain ⟨x, hx, e⟩ := hmem p hp
        obtain ⟨i, hi, hb⟩ := hr x hx
        exact ⟨i, hi, by rw [← hb]; exact (congrArg Prod.fst e).symm⟩) hperm hgood
  refine ⟨_, e, hw, ⟨fr, ?_⟩, ?_, ?_, ?_, ?_⟩
  · have e1 : (fun i : Nat => (refsOf i (eraseAll w.refs (delivered cs))).map fun x => (x.1.data, true)) =
        fun i : Nat => ((refsOf i w.refs).map fun x => (x.1.data, true)).drop (ofBuffer i (delivered cs)).length := by
      funext i; rw [hrefs, List.map_drop]
    have e2 : (fun i : Nat => (refsOf i (eraseAll w.refs (delivered cs))).map fun x => some (x.2, x.1.data)) =
        fun i : Nat => ((refsOf i w.refs).map fun x => some (x.2, x.1.data)).drop (ofBuffer i (delivered cs)).length := by
      funext i; rw [hrefs, List.map_drop]
    dsimp only
    rw [e1, e2]
    exact S'
  · exact fun x hx => hgood x (eraseAll_sublist.subset hx)
  · intro b
    dsimp only
    rw [hw, hrefs, List.map_drop, hkeys]
    exact (hstep b).1.symm
  · exact fun x hx => hr x (eraseAll_sublist.subset hx)
  · dsimp only
    rw [hw, hd, List.map_append, hgot]

/-- What `wired_calls` asks of the demuxer before and after. -/
structure Steps (s s' : Demuxer) : Prop where
  c0 : s.Conserved
  c1 : s'.Conserved
  q0 : ∀ b, (ofBuffer b s.packets.flatten).map bare = ((ofBuffer b (taken s.calls)).map bare).drop (ofBuffer b (delivered s.calls)).length
  q1 : ∀ b, (ofBuffer b s'.packets.flatten).map bare = ((ofBuffer b (taken s'.calls)).map bare).drop (ofBuffer b (delivered s'.calls)).length

theorem queuedBytes_eq {M : Nat → Nat} {caps : List Nat} {w : Wired} (W : WInv M caps w) (b : Int) :
    Sim.bytes ((refsOf b w.refs).map fun x => (x.1.data, true)) = queuedBytes b w.dem := by
  have h := congrArg (List.map fun p : AVPacket => p.data.length) (W.keys b)
  rw [List.map_map, List.map_map] at h
  have e1 : Sim.bytes ((refsOf b w.refs).map fun x => (x.1.data, true)) = ((refsOf b w.refs).map fun x => x.1.data.length).sum := by
    unfold Sim.bytes; rw [List.map_map]; rfl
  have e2 : ∀ l : List AVPacket, ((ofBuffer b l).map fun p => p.data.length).sum = (l.map fun p => if p.bufferIndex = b then p.data.length else 0).sum := by
    intro l
    induction l with
    | nil => rfl
    | cons p l ih =>
      by_cases hp : p.bufferIndex = b
      · have e : ofBuffer b (p :: l) = p :: ofBuffer b l := by simp [ofBuffer, hp]
        rw [e, List.map_cons, List.map_cons, List.sum_cons, List.sum_cons, ih, if_pos hp]
      · have e : ofBuffer b (p :: l) = ofBuffer b l := by simp [ofBuffer, hp]
        rw [e, List.map_cons, List.sum_cons, ih, if_neg hp, Nat.zero_add]
  rw [e1]
  unfold queuedBytes
  rw [← e2]
  exact congrArg List.sum h

/-- Without a block. -/
theorem wired_quiet {M : Nat → Nat} {caps : List Nat} {w : Wired} (W : WInv M caps w) {o : Oracle} {e : DemuxOp} {s' : Demuxer} {cs : List Call}
    (chunks : List Bytes) (hk : e.block = none) (hr : e.run o w.dem = ok s') (hcs : s'.calls = w.dem.calls ++ cs) (hp : Plain cs) (hq : Paired cs)
    (hs : Steps w.dem s') : ∃ w', w.step o e chunks = ok w' ∧ w'.dem = s' ∧ WInv M caps w' := by
  obtain ⟨fr, S⟩ := W.sim
  obtain ⟨w', e1, e2, W'⟩ := wired_calls (sl := none) hp hq (s := w.dem) (s' := s') (w := { w with dem := s' }) (new := []) rfl S W.range
    (by intro b; rw [W.keys b]; simp [ofBuffer]) W.got hs.c0 hs.c1 (by rw [hcs, Demuxer.delivered_append])
    (by rw [hcs, Demuxer.taken_append, hp.taken]) hs.q0 hs.q1
  refine ⟨w', ?_, e2, W'⟩
  unfold Wired.step Wired.fill
  rw [hk]
  simp only [ok_bind, hr, hcs, List.drop_left]
  exact e1

theorem fill_eq {w : Wired} {e : DemuxOp} {chunks : List Bytes} {i : Nat} {d : Bytes} (hk : e.block = some ((i : Int), d)) {s₁ s' : StreamsBuf}
    {m' : Mem} {sl : SliceRef} (e1 : w.buf.writeAll w.mem i e.isVideo chunks = ok (s₁, m')) (e2 : s₁.fetch m' i = ok (some sl, s', m')) :
    w.fill e chunks = ok (some sl, { w with buf := s', mem := m' }) := by
  unfold Wired.fill
  rw [hk]
  dsimp only
  rw [if_neg (by omega), Int.toNat_natCast, e1]
  simp only [ok_bind, e2, Go.pure_def]

/-- The caller's part, in an old or a new buffer. -/
theorem wired_fill {M : Nat → Nat} {caps caps' : List Nat} {w : Wired} (W : WInv M caps w) {e : DemuxOp} {chunks : List Bytes} {i cap : Nat} {d : Bytes}
    (hk : e.block = some ((i : Int), d)) (hne : chunks ≠ []) (hfl : chunks.flatten = d)
    (hcaps : i < caps.length ∧ caps' = caps ∨ i = caps.length ∧ caps' = caps ++ [if e.isVideo then 2097152 else 576000])
    (hc : caps'[i]? = some cap) (hM : d.length ≤ M i) (hcap : queuedBytes i w.dem + d.length + 2 * M i ≤ cap) :
    ∃ fr sl s' m', w.fill e chunks = ok (some sl, { w with buf := s', mem := m' }) ∧ m'.read sl = d ∧ caps.length ≤ caps'.length ∧
      i < caps'.length ∧ fr i = true ∧
      Sim M caps' fr (Function.update (fun i => (refsOf i w.refs).map fun x => (x.1.data, true)) i ((refsOf i w.refs).map (fun x => (x.1.data, true)) ++ [(d, true)]))
        (Function.update (fun i => (refsOf i w.refs).map fun x => some (x.2, x.1.data)) i ((refsOf i w.refs).map (fun x => some (x.2, x.1.data)) ++ [some (sl, d)])) s' m' := by
  obtain ⟨fr, S⟩ := W.sim
  have hb := queuedBytes_eq W i
  have hT : ∀ x, ((refsOf (i : Int) w.refs).map fun x => (x.1.data, true)).getLast? = some x → x.2 = true := by
    intro x hx
    obtain ⟨y, _, rfl⟩ := List.mem_map.1 (List.mem_of_getLast? hx)
    rfl
  have hH : ∀ x, ((refsOf (i : Int) w.refs).map fun x => (some (x.2, x.1.data) : Option (SliceRef × Bytes))).getLast? = some x → x ≠ none := by
    intro x hx
    obtain ⟨y, _, rfl⟩ := List.mem_map.1 (List.mem_of_getLast? hx)
    simp
  rcases hcaps with ⟨hi, rfl⟩ | ⟨hi, rfl⟩
  · obtain ⟨s₁, m', sl, s', e1, e2, e3, S'⟩ := S.block hc e.isVideo hne hT hH (by rw [hb, hfl]; exact hcap) (by rw [hfl]; exact hM)
    rw [hfl] at e3 S'
    exact ⟨_, sl, s', m', fill_eq hk e1 e2, e3, Nat.le_refl _, hi, Function.update_self .., S'⟩
  · have S1 := S.create (if e.isVideo then 2097152 else 576000)
    obtain ⟨s₁, m', sl, s', e1, e2, e3, S'⟩ := S1.block hc e.isVideo hne hT hH (by rw [hb, hfl]; exact hcap) (by rw [hfl]; exact hM)
    rw [hfl] at e3 S'
    rw [← Sim.writeAll_create (by rw [S.len]; exact hi) e.isVideo hne] at e1
    exact ⟨_, sl, s', m', fill_eq hk e1 e2, e3, by simp, by simp [hi], Function.update_self .., S'⟩

/-- The block is taken back. -/
theorem wired_reject {M : Nat → Nat} {caps caps' : List Nat} {w : Wired} (W : WInv M caps w) {o : Oracle} {e : DemuxOp} {s' : Demuxer} {chunks : List Bytes}
    {i cap : Nat} {d : Bytes} (hk : e.block = some ((i : Int), d)) (hne : chunks ≠ []) (hfl : chunks.flatten = d)
    (hcaps : i < caps.length ∧ caps' = caps ∨ i = caps.length ∧ caps' = caps ++ [if e.isVideo then 2097152 else 576000])
    (hc : caps'[i]? = some cap) (hM : d.length ≤ M i) (hcap : queuedBytes i w.dem + d.length + 2 * M i ≤ cap)
    (hr : e.run o w.dem = ok s') (hcs : s'.calls = w.dem.calls ++ [.discardBack i]) (hs : Steps w.dem s') :
    ∃ w', w.step o e chunks = ok w' ∧ w'.dem = s' ∧ WInv M caps' w' := by
  obtain ⟨fr, sl, s₁, m₁, ef, er, hle, hi, hfr, S⟩ := wired_fill W hk hne hfl hcaps hc hM hcap
  obtain ⟨s₂, e2, S2⟩ := S.popBack hc hfr (by rw [Function.update_self]; simp)
  simp only [Function.update_self, List.dropLast_concat, Function.update_idem, Function.update_eq_self] at S2
  have hr' : ∀ x ∈ w.refs, ∃ i : Nat, i < caps'.length ∧ x.1.bufferIndex = i := by
    intro x hx
    obtain ⟨j, hj, e⟩ := W.range x hx
    exact ⟨j, by omega, e⟩
  obtain ⟨w', e1, e3, W'⟩ := wired_calls (sl := some sl) (cs := []) (by simp [Plain]) trivial (s := w.dem) (s' := s')
    (w := { w with dem := s', buf := s₂, mem := m₁ }) (new := []) rfl S2 hr'
    (by intro b; rw [W.keys b]; simp [ofBuffer]) W.got hs.c0 hs.c1
    (by rw [hcs, Demuxer.delivered_append]; rfl) (by rw [hcs, Demuxer.taken_reject]; simp) hs.q0 hs.q1
  refine ⟨w', ?_, e3, W'⟩
  unfold Wired.step
  rw [ef]
  simp only [ok_bind]
  rw [er, withBlock_self hk, hr, ok_bind, hcs, List.drop_left]
  simp only [Wired.playAll, Wired.play]
  rw [if_neg (by omega), Int.toNat_natCast, e2]
  simp only [ok_bind, Go.pure_def]
  exact e1

/-- The packet is taken. -/
theorem wired_accept {M : Nat → Nat} {caps caps' : List Nat} {w : Wired} (W : WInv M caps w) {o : Oracle} {e : DemuxOp} {s' : Demuxer} {chunks : List Bytes}
    {i cap : Nat} {d : Bytes} (hk : e.block = some ((i : Int), d)) (hne : chunks ≠ []) (hfl : chunks.flatten = d)
    (hcaps : i < caps.length ∧ caps' = caps ∨ i = caps.length ∧ caps' = caps ++ [if e.isVideo then 2097152 else 576000])
    (hc : caps'[i]? = some cap) (hM : d.length ≤ M i) (hcap : queuedBytes i w.dem + d.length + 2 * M i ≤ cap)
    (hr : e.run o w.dem = ok s') {p : AVPacket} (hpb : p.bufferIndex = i) (hpd : p.data = d) {cs : List Call}
    (hcs : s'.calls = w.dem.calls ++ .accepted p :: cs) (hp : Plain cs) (hq : Paired cs) (hs : Steps w.dem s') :
    ∃ w', w.step o e chunks = ok w' ∧ w'.dem = s' ∧ WInv M caps' w' := by
  obtain ⟨fr, sl, s₁, m₁, ef, er, hle, hi, hfr, S⟩ := wired_fill W hk hne hfl hcaps hc hM hcap
  have hone : ∀ j : Nat, refsOf j [(p, sl)] = if j = i then [(p, sl)] else [] := by
    intro j
    unfold refsOf
    by_cases hj : j = i
    · rw [if_pos hj, List.filter_cons_of_pos (by simp [hpb, hj])]; rfl
    · rw [if_neg hj, List.filter_cons_of_neg (by simp [hpb]; omega)]; rfl
  have hT : ∀ {α : Type} (f : AVPacket × SliceRef → α), Function.update (fun i : Nat => (refsOf i w.refs).map f) i ((refsOf i w.refs).map f ++ [f (p, sl)]) =
      fun i : Nat => (refsOf i (w.refs ++ [(p, sl)])).map f := by
    intro α f
    funext j
    rw [refsOf_append, hone, List.map_append]
    by_cases hj : j = i
    · subst hj; rw [Function.update_self, if_pos rfl]; rfl
    · rw [Function.update_of_ne hj, if_neg hj, List.map_nil, List.append_nil]
  have S' : Sim M caps' fr (fun i => (refsOf i (w.refs ++ [(p, sl)])).map fun x => (x.1.data, true))
      (fun i => (refsOf i (w.refs ++ [(p, sl)])).map fun x => some (x.2, x.1.data)) s₁ m₁ := by
    rw [← hT, ← hT]
    dsimp only
    rw [hpd]
    exact S
  have hr' : ∀ x ∈ w.refs ++ [(p, sl)], ∃ i : Nat, i < caps'.length ∧ x.1.bufferIndex = i := by
    intro x hx
    rcases List.mem_append.1 hx with hx | hx
    · obtain ⟨j, hj, e⟩ := W.range x hx
      exact ⟨j, by omega, e⟩
    · rw [List.mem_singleton] at hx; subst hx; exact ⟨i, hi, hpb⟩
  obtain ⟨w', e1, e3, W'⟩ := wired_calls (sl := some sl) (cs := cs) hp hq (s := w.dem) (s' := s')
    (w := { w with dem := s', buf := s₁, mem := m₁, refs := w.refs ++ [(p, sl)] }) (new := [p]) rfl S' hr'
    (by intro b
        rw [refsOf_append, List.map_append, W.keys b]
        congr 1
        unfold refsOf ofBuffer
        by_cases hb : p.bufferIndex = b
        · rw [List.filter_cons_of_pos (by simp [hb]), List.filter_cons_of_pos (by simp [hb])]; rfl
        · rw [List.filter_cons_of_neg (by simp [hb]), List.filter_cons_of_neg (by simp [hb])]; rfl) W.got hs.c0 hs.c1
    (by rw [hcs, Demuxer.delivered_append]; rfl)
    (by rw [hcs, Demuxer.taken_append, show taken (.accepted p :: cs) = p :: taken cs from rfl, hp.taken]) hs.q0 hs.q1
  refine ⟨w', ?_, e3, W'⟩
  unfold Wired.step
  rw [ef]
  simp only [ok_bind]
  rw [er, withBlock_self hk, hr, ok_bind, hcs, List.drop_left]
  simp only [Wired.playAll, Wired.play, ok_bind]
  exact e1

/-- What is queued of a buffer are the packets taken last. -/
def Waiting (s : Demuxer) : Prop :=
  ∀ b, (ofBuffer b s.packets.flatten).map bare = ((ofBuffer b (taken s.calls)).map bare).drop (ofBuffer b (delivered s.calls)).length

/-- A whole history. -/
theorem wired_run {M : Nat → Nat} {name : String} {rest : List (Oracle × DemuxOp × List Bytes)} : ∀ {before : List (Oracle × DemuxOp)}
    {caps : List Nat} {w : Wired} {s : Demuxer}, WInv M caps w → Reached name true before w.dem →
    Reached name true (before ++ operations rest) s →
    (∀ l1 l2 s1, before ++ operations rest = l1 ++ l2 → Reached name true l1 s1 → Waiting s1) → KeepsData (operations rest) →
    InPieces rest → LightInput M caps w.dem (operations rest) → runDemux w.dem (operations rest) = ok s →
    ∃ w', w.run rest = ok w' ∧ w'.dem = s ∧ WInv M (bufferSizes caps (operations rest)) w' := by
  induction rest with
  | nil =>
    intro before caps w s W _ _ _ _ _ _ hrun
    injection hrun with hrun
    exact ⟨w, rfl, hrun, W⟩
  | cons x rest ih =>
    intro before caps w s W hb hr hp hd hin hl hrun
    obtain ⟨o, e, chunks⟩ := x
    have hops : operations ((o, e, chunks) :: rest) = (o, e) :: operations rest := rfl
    rw [hops] at hr hp hd hl hrun
    obtain ⟨s1, h1, hrun⟩ := bind_eq_ok.1 hrun
    have ho : o.Valid := hr.1 (o, e) (by simp)
    have hv : ∀ x ∈ [(o, e)], x.1.Valid := by intro x hx; rw [List.mem_singleton] at hx; subst hx; exact ho
    have hb1 : Reached name true (before ++ [(o, e)]) s1 := Reached.append hb hv (by show (e.run o w.dem >>= _) = _; rw [h1]; rfl)
    have hs : Steps w.dem s1 := ⟨Demuxer.Reached.conserved hb, Demuxer.Reached.conserved hb1, hp _ _ _ rfl hb, hp _ (operations rest) _ (by simp) hb1⟩
    have hfr : Demuxer.Frees w.dem := (show Demuxer.Frees (Demuxer.new name true) from ⟨rfl, trivial⟩).micros (Demuxer.Reached.micros hb)
    have hfr1 : Demuxer.Frees s1 := (show Demuxer.Frees (Demuxer.new name true) from ⟨rfl, trivial⟩).micros (Demuxer.Reached.micros hb1)
    have hd0 : ∀ p, (o.preprocess p).data = p.data := hd (o, e) (List.mem_cons_self ..)
    have key : ∃ caps' w', w.step o e chunks = ok w' ∧ w'.dem = s1 ∧ WInv M caps' w' ∧ LightInput M caps' s1 (operations rest) ∧
        bufferSizes caps ((o, e) :: operations rest) = bufferSizes caps' (operations rest) := by
      have hsz : ∀ (i : Nat) (d : Bytes) (caps' : List Nat), e.block = some ((i : Int), d) →
          (i < caps.length ∧ caps' = caps ∨ i = caps.length ∧ caps' = caps ++ [if e.isVideo then 2097152 else 576000]) →
          bufferSizes caps ((o, e) :: operations rest) = bufferSizes caps' (operations rest) := by
        intro i d caps' hk hc
        rw [bufferSizes, hk]
        dsimp only
        rcases hc with ⟨h1, rfl⟩ | ⟨h1, rfl⟩
        · rw [if_pos (by omega)]
        · rw [if_neg (by omega)]
      have hsn : e.block = none → bufferSizes caps ((o, e) :: operations rest) = bufferSizes caps (operations rest) := by
        intro hk
        rw [bufferSizes, hk]
      unfold LightInput at hl
      cases Demuxer.run_shape ho (Demuxer.Reached.inv hb) h1 with
      | plain cs h hpl _ hk =>
        rw [hk] at hl
        obtain ⟨w', e1, e2, W'⟩ := wired_quiet W chunks hk h1 h hpl (hfr.2.tail (by rw [← h]; exact hfr1.2)) hs
        exact ⟨caps, w', e1, e2, W', hl s1 h1, hsn hk⟩
      | track b h _ _ =>
        rcases h with ⟨h, hk⟩ | ⟨d, h, hk⟩
        · rw [hk] at hl
          obtain ⟨w', e1, e2, W'⟩ := wired_quiet W (cs := []) chunks hk h1 (by rw [h, List.append_nil]) (by simp [Plain]) trivial hs
          exact ⟨caps, w', e1, e2, W', hl s1 h1, hsn hk⟩
        · rw [hk] at hl
          obtain ⟨i, cap, caps', rfl, hcaps, hc, hM, hcap, hl⟩ := hl
          obtain ⟨g1, g2⟩ := hin _ (List.mem_cons_self ..) _ _ hk
          obtain ⟨w', e1, e2, W'⟩ := wired_reject W hk g1 g2 hcaps hc hM hcap h1 h hs
          exact ⟨caps', w', e1, e2, W', hl s1 h1, hsz _ _ _ hk hcaps⟩
      | reject b d hk h _ _ =>
        rw [hk] at hl
        obtain ⟨i, cap, caps', rfl, hcaps, hc, hM, hcap, hl⟩ := hl
        obtain ⟨g1, g2⟩ := hin _ (List.mem_cons_self ..) _ _ hk
        obtain ⟨w', e1, e2, W'⟩ := wired_reject W hk g1 g2 hcaps hc hM hcap h1 h hs
        exact ⟨caps', w', e1, e2, W', hl s1 h1, hsz _ _ _ hk hcaps⟩
      | accept p cs d hk hd' h hpl _ =>
        rw [hk] at hl
        obtain ⟨i, cap, caps', hbi, hcaps, hc, hM, hcap, hl⟩ := hl
        obtain ⟨g1, g2⟩ := hin _ (List.mem_cons_self ..) _ _ hk
        have hq : Paired cs := by
          have : Paired (.accepted p :: cs) := hfr.2.tail (by rw [← h]; exact hfr1.2)
          exact this
        rw [hbi] at hk hcap
        obtain ⟨w', e1, e2, W'⟩ := wired_accept W hk g1 g2 hcaps hc hM hcap h1 hbi (hd' hd0) h hpl hq hs
        exact ⟨caps', w', e1, e2, W', hl s1 h1, hsz _ _ _ hk hcaps⟩
    obtain ⟨caps', w', e1, e2, W', hl', hz⟩ := key
    subst e2
    obtain ⟨w'', e3, e4, W''⟩ := ih W' hb1 (by rw [List.append_assoc]; exact hr) (by rw [List.append_assoc]; exact hp)
      (fun x hx => hd x (List.mem_cons_of_mem _ hx)) (fun x hx => hin x (List.mem_cons_of_mem _ hx)) hl' hrun
    exact ⟨w'', by show (w.step o e chunks >>= _) = _; rw [e1]; exact e3, e4, by rw [hops, hz]; exact W''⟩

/-- For every history in which what is queued of a buffer are always the packets taken last. -/
theorem wired_all {name : String} {h : List (Oracle × DemuxOp × List Bytes)} {s : Demuxer} {M : Nat → Nat} (m : Mem)
    (hr : Reached name true (operations h) s) (hp : ∀ l1 l2 s1, operations h = l1 ++ l2 → Reached name true l1 s1 → Waiting s1)
    (hd : KeepsData (operations h)) (hin : InPieces h) (hl : LightInput M [] (Demuxer.new name true) (operations h)) :
    ∃ w, ({ dem := Demuxer.new name true, mem := m } : Wired).run h = ok w ∧ w.dem = s ∧
      w.got = (delivered s.calls).map (fun p => some p.data) ∧
      (∀ b, (w.refs.filter fun x => x.1.bufferIndex = b).map (fun x => w.mem.read x.2) = (ofBuffer b s.packets.flatten).map AVPacket.data) ∧
      w.buf.buffers.map (·.data.len) = bufferSizes [] (operations h) := by
  have W : WInv M [] ({ dem := Demuxer.new name true, mem := m } : Wired) :=
    ⟨⟨_, Sim.new M m⟩, by simp, fun _ => rfl, by simp, rfl⟩
  obtain ⟨w, e1, rfl, W'⟩ := wired_run (before := []) W ⟨fun _ hx => (by cases hx), rfl⟩ hr hp hd hin hl hr.2
  refine ⟨w, e1, rfl, W'.got, fun b => ?_, W'.sizes⟩
  have h1 := congrArg (List.map AVPacket.data) (W'.keys b)
  rw [List.map_map, List.map_map] at h1
  refine Eq.trans (List.map_congr_left fun x hx => ?_) h1
  exact W'.good x (List.mem_of_mem_filter hx)

end Avf
