import Verif.Spec.DemuxerLanes
import Verif.Lemmas.DemuxerProbe
/-! # Lemmas: queues and deliveries of all histories, by lanes -/
namespace Avf
open Go

theorem lanes_concat (ps : List AVPacket) (p : AVPacket) : lanes (ps ++ [p]) = putLane (lanes ps) p := by
  unfold lanes; rw [List.foldl_append]; rfl

theorem lateOf_concat (ls : List (List AVPacket)) (ps : List AVPacket) (p : AVPacket) :
    lateOf ls (ps ++ [p]) = lateOf ls ps ++
      ((inFront (ps.foldl putLane ls) p).map fun x => { x with duration := wrap64 (p.dts - x.dts) }).toList := by
  induction ps generalizing ls with
  | nil => simp [lateOf]
  | cons q ps ih => simp only [List.cons_append, lateOf, ih, List.foldl_cons, List.append_assoc]

theorem map_modify {α β : Type} (f : α → β) (g : α → α) (h : β → β) (e : ∀ a, f (g a) = h (f a)) (l : List α) (n : Nat) :
    (l.modify n g).map f = (l.map f).modify n h := by
  induction l generalizing n with
  | nil => simp
  | cons a l ih =>
    cases n with
    | zero => simp [e]
    | succ n => simp [ih]

theorem push_lanes (ls : List (List AVPacket)) (p : AVPacket) :
    Demuxer.push (ls.map queueOf) p = (putLane ls p).map queueOf := by
  unfold Demuxer.push putLane
  rw [List.length_map]
  split
  · exact (map_modify _ _ _ (fun l => (stamp_queueOf l p).symm) _ _).symm
  · simp [queueOf, timed]

/-- The last packet of a lane. -/
def laneLast (l : List AVPacket) : List AVPacket := l.getLast?.toList

theorem laneLast_concat (l : List AVPacket) (p : AVPacket) : laneLast (l ++ [p]) = [p] := by simp [laneLast]

theorem putLane_last (ls : List (List AVPacket)) (p : AVPacket) :
    (putLane ls p).map laneLast =
      if p.index < (ls.map laneLast).length then (ls.map laneLast).modify p.index.toNat fun _ => [p] else ls.map laneLast ++ [[p]] := by
  unfold putLane
  rw [List.length_map]
  split
  · exact map_modify _ _ _ (fun l => laneLast_concat l p) _ _
  · simp [laneLast]

theorem slot_inFront (ls : List (List AVPacket)) (p x : AVPacket) (h0 : 0 ≤ p.index) :
    (ls.map laneLast)[Demuxer.slot (ls.map laneLast) p]? = some [x] ↔ inFront ls p = some x := by
  unfold Demuxer.slot inFront
  rw [List.length_map]
  split
  · rename_i h
    have hl : p.index.toNat < ls.length := by omega
    rw [List.getElem?_map, List.getElem?_eq_getElem hl]
    simp only [Option.map_some, Option.bind_some, Option.some.injEq, laneLast]
    cases (ls[p.index.toNat]).getLast? <;> simp
  · simp

namespace Demuxer

/-- The queues and the deliveries, in terms of the packets taken. -/
structure LInv (s : Demuxer) : Prop where
  probing : s.completed = false → delivered s.calls = [] ∧ s.packets = (lanes (taken s.calls)).map queueOf
  done : s.completed = true → ∃ after early, taken s.calls = taken (beforeComplete s.calls) ++ after ∧
    delivered s.calls = early ++ lateOf (lanes (taken (beforeComplete s.calls))) after ∧
    (early.Pairwise fun a b => ¬ b.dts < a.dts) ∧ early.Perm ((lanes (taken (beforeComplete s.calls))).flatMap timed) ∧
    s.packets = (lanes (taken s.calls)).map laneLast

theorem LInv.congr {s s' : Demuxer} (h : LInv s) (h1 : s'.packets = s.packets) (h2 : s'.completed = s.completed)
    (h3 : taken s'.calls = taken s.calls) (h4 : delivered s'.calls = delivered s.calls)
    (h5 : taken (beforeComplete s'.calls) = taken (beforeComplete s.calls)) : LInv s' := by
  obtain ⟨a, b⟩ := h
  refine ⟨?_, ?_⟩
  · rw [h1, h2, h3, h4]; exact a
  · rw [h1, h2, h3, h4, h5]; exact b

theorem LInv.micro {s s' : Demuxer} (hi : Inv s) (hse : Seen s) (hk : TakenKnown s) (h : LInv s) (m : Micro s s') : LInv s' := by
  have hnc : s.completed = false → Call.trackComplete ∉ s.calls := by
    intro hc hm
    have : Call.trackComplete ∈ toHandler s.calls := List.mem_filter.2 ⟨hm, rfl⟩
    rw [hse.1 hc] at this; cases this
  cases m with
  | quiet os pd => exact h.congr rfl rfl rfl rfl rfl
  | register t b hc ht => exact h.congr rfl rfl rfl rfl rfl
  | reject b =>
    exact h.congr rfl rfl (taken_reject _ _) (delivered_reject _ _) (taken_beforeComplete_append (d := [.discardBack b]) rfl)
  | probing p hc hk =>
    obtain ⟨hd, hq⟩ := h.probing hc
    refine ⟨fun _ => ⟨?_, ?_⟩, fun hc' => ?_⟩
    · dsimp only; rw [delivered_accept]; exact hd
    · dsimp only; rw [taken_accept, lanes_concat, hq, push_lanes]
    · rw [show s.completed = true from hc'] at hc; cases hc
  | notFound hc ht =>
    have hnil : taken s.calls = [] := by
      cases e : taken s.calls with
      | nil => rfl
      | cons p r =>
        have := hi.range (hk p (by rw [e]; simp))
        rw [ht] at this; simp at this; omega
    have e : taken (s.calls ++ [.trackNotFound]) = taken s.calls := by rw [taken_append]; show _ ++ [] = _; simp
    have hb : taken (beforeComplete (s.calls ++ [.trackNotFound])) = taken s.calls := by
      rw [beforeComplete_notin (hnc hc), taken_append]; show _ ++ [] = _; simp
    obtain ⟨hd, hq⟩ := h.probing hc
    refine ⟨fun hc' => (by cases hc'), fun _ => ⟨[], [], ?_⟩⟩
    dsimp only
    rw [hb, e, hnil, delivered_append, hd, hq, hnil]
    exact ⟨rfl, rfl, .nil, .refl _, rfl⟩
  | done ts rs hc ht hts hp hs =>
    obtain ⟨hd, hq⟩ := h.probing hc
    have hb : taken (beforeComplete (s.done ts rs).calls) = taken s.calls := by
      rw [done_calls, beforeComplete_notin (hnc hc), beforeComplete_notin (by simp), taken_append, taken_append, taken_tracks]
      show _ ++ ([] ++ []) = _
      simp
    refine ⟨fun hc' => (by cases hc'), fun _ => ⟨[], rs, ?_⟩⟩
    rw [hb, done_taken, done_delivered, hd]
    refine ⟨by simp, by simp [lateOf], hs, ?_, ?_⟩
    · rw [hq, List.flatMap_map] at hp
      simpa only [queueOf_take] using hp
    · show s.packets.map _ = _
      rw [hq, List.map_map]
      refine List.map_congr_left fun l _ => ?_
      simp only [Function.comp, queueOf_drop, laneLast]
  | live p hc hkp =>
    obtain ⟨h0, hlt⟩ := hi.range hkp
    obtain ⟨after, early, ht, hd, hs, hp, hq⟩ := h.done hc
    have hct : Call.trackComplete ∈ s.calls := by
      rcases hse.2 hc with ⟨e, _⟩ | ⟨_, ps, e, _⟩
      · rw [e] at hlt; simp at hlt; omega
      · have : Call.trackComplete ∈ toHandler s.calls := by rw [e]; simp
        exact (List.mem_filter.1 this).1
    have hb : beforeComplete (s.live p).calls = beforeComplete s.calls := by
      by_cases hx : ∃ x, s.packets[slot s.packets p]? = some [x]
      · obtain ⟨x, hx⟩ := hx
        rw [live_calls hx, beforeComplete_in hct]
      · rw [live_calls' (by simpa using hx), beforeComplete_in hct]
    have hcomp : (s.live p).completed = true := (live_tracks s p).2.2.1.trans hc
    have hfold : after.foldl putLane (lanes (taken (beforeComplete s.calls))) = lanes (taken s.calls) := by
      rw [ht]; unfold lanes; rw [List.foldl_append]
    refine ⟨fun hc' => (by rw [hcomp] at hc'; cases hc'), fun _ => ⟨after ++ [p], early, ?_⟩⟩
    rw [hb, live_taken, lateOf_concat, hfold, lanes_concat, putLane_last]
    refine ⟨by rw [← List.append_assoc, ← ht], ?_, hs, hp, ?_⟩
    · rw [← List.append_assoc, ← hd]
      cases hf : inFront (lanes (taken s.calls)) p with
      | some x =>
        rw [live_delivered (hq ▸ (slot_inFront _ _ _ h0).2 hf)]; rfl
      | none =>
        rw [live_delivered']
        · simp
        · intro x hx
          rw [hq, slot_inFront _ _ _ h0, hf] at hx; cases hx
    · cases hf : inFront (lanes (taken s.calls)) p with
      | some x =>
        have hx := hq ▸ (slot_inFront _ _ _ h0).2 hf
        rw [live_packets hx, ← hq]
        have hlt : p.index < s.packets.length := by
          by_contra hge
          have : slot s.packets p = s.packets.length := by unfold slot; rw [if_neg hge]
          rw [this, List.getElem?_eq_none (Nat.le_refl _)] at hx; cases hx
        rw [if_pos hlt]
        unfold slot
        rw [if_pos hlt, List.set_eq_modify]
      | none =>
        have hx : ∀ x, s.packets[slot s.packets p]? ≠ some [x] := by
          intro x hx
          rw [hq, slot_inFront _ _ _ h0, hf] at hx; cases hx
        rw [live_packets' hx, ← hq]
        unfold push
        by_cases hlt : p.index < s.packets.length
        · rw [if_pos hlt, if_pos hlt]
          have hn : p.index.toNat < s.packets.length := by omega
          have hsl : slot s.packets p = p.index.toNat := by unfold slot; rw [if_pos hlt]
          have : s.packets[p.index.toNat]? = some [] := by
            cases hg : s.packets[p.index.toNat]? with
            | none => rw [List.getElem?_eq_getElem hn] at hg; cases hg
            | some q =>
              have hsh := hi.short hc q (List.mem_of_getElem? hg)
              rcases q with _ | ⟨y, _ | ⟨z, r⟩⟩
              · rfl
              · exact absurd (hsl ▸ hg) (hx y)
              · simp at hsh
          refine List.ext_getElem? fun i => ?_
          rw [List.getElem?_modify, List.getElem?_modify]
          by_cases hin : p.index.toNat = i
          · subst hin; rw [this]; simp [stamp]
          · simp [hin]
        · rw [if_neg hlt, if_neg hlt]

theorem Reached.lanes {name : String} {a : Bool} {l : List (Oracle × DemuxOp)} {s : Demuxer} (h : Reached name a l s) : LInv s := by
  have : LInv s ∧ Seen s ∧ TakenKnown s := by
    refine Reached.induct (P := fun s => LInv s ∧ Seen s ∧ TakenKnown s) h ?_ ?_
    · exact ⟨⟨fun _ => ⟨rfl, rfl⟩, fun hc => by cases hc⟩, ⟨fun _ => rfl, fun hc => by cases hc⟩, by intro p hp; cases hp⟩
    · intro s s' hi hs m
      exact ⟨hs.1.micro hi hs.2.1 hs.2.2 m, hs.2.1.micro hi m, hs.2.2.micro m⟩
  exact this.1

/-- The queue that a packet joins. -/
theorem LInv.joins {s : Demuxer} (h : LInv s) (hc : s.completed = false) (p : AVPacket) (Q : List AVPacket → Prop) :
    (∃ q x, s.packets[slot s.packets p]? = some (q ++ [x]) ∧ Q (q ++ [{ x with duration := wrap64 (p.dts - x.dts) }])) ↔
      ∃ x l, (Avf.lanes (taken s.calls))[slot (Avf.lanes (taken s.calls)) p]? = some (l ++ [x]) ∧ Q (timed (l ++ [x] ++ [p])) := by
  have hq := (h.probing hc).2
  have hsl : slot s.packets p = slot (Avf.lanes (taken s.calls)) p := by unfold slot; rw [hq, List.length_map]
  rw [hsl, hq, List.getElem?_map]
  generalize slot (Avf.lanes (taken s.calls)) p = n
  cases he : (Avf.lanes (taken s.calls))[n]? with
  | none => simp
  | some l =>
    rw [Option.map_some]
    rcases List.eq_nil_or_concat l with rfl | ⟨l, y, rfl⟩
    · constructor
      · rintro ⟨q, x, h1, _⟩; simp [queueOf, timed] at h1
      · rintro ⟨x, l, h1, _⟩; simp at h1
    · rw [List.concat_eq_append, queueOf_concat]
      constructor
      · rintro ⟨q, x, h1, h2⟩
        obtain ⟨rfl, h3⟩ := List.append_inj' (Option.some.inj h1) rfl
        cases h3
        exact ⟨y, l, rfl, by rw [timed_concat]; exact h2⟩
      · rintro ⟨x, l', h1, h2⟩
        obtain ⟨rfl, h3⟩ := List.append_inj' (Option.some.inj h1) rfl
        cases h3
        exact ⟨_, y, rfl, by rw [timed_concat] at h2; exact h2⟩

end Demuxer

/-! ## When lanes are tracks -/

theorem lanes_length_le (ls : List (List AVPacket)) (p : AVPacket) : ls.length ≤ (putLane ls p).length := by
  unfold putLane; split <;> simp

theorem putLane_getD {ls : List (List AVPacket)} {p : AVPacket} (h0 : 0 ≤ p.index) (i : Nat) :
    (putLane ls p).getD i [] = if i = Demuxer.slot ls p then ls.getD i [] ++ [p] else ls.getD i [] := by
  unfold putLane Demuxer.slot
  simp only [List.getD_eq_getElem?_getD]
  by_cases hl : p.index < ls.length
  · rw [if_pos hl, if_pos hl, List.getElem?_modify]
    by_cases hi : i = p.index.toNat
    · have : p.index.toNat < ls.length := by omega
      rw [if_pos hi, hi, List.getElem?_eq_getElem this]; simp
    · rw [if_neg hi]
      have : ¬ p.index.toNat = i := fun e => hi e.symm
      simp [this]
  · rw [if_neg hl, if_neg hl, List.getElem?_append]
    by_cases hi : i = ls.length
    · rw [if_pos hi, if_neg (by omega), hi]; simp
    · rw [if_neg hi]
      by_cases hlt : i < ls.length
      · rw [if_pos hlt]
      · rw [if_neg hlt, List.getElem?_eq_none (show ls.length ≤ i by omega), List.getElem?_eq_none (by simp; omega)]

/-- With first packets in index order the lanes are the tracks. -/
theorem lanes_firsts {ps : List AVPacket} (hn : ∀ p ∈ ps, 0 ≤ p.index) (hf : FirstsInOrder ps) :
    (∀ i, (lanes ps).getD i [] = ofTrack i ps) ∧ ∀ i : Nat, i < (lanes ps).length ↔ ∃ p ∈ ps, p.index = (i : Int) := by
  induction ps using List.reverseRecOn with
  | nil => exact ⟨fun i => by simp [lanes, ofTrack], fun i => by simp [lanes]⟩
  | append_singleton ps p ih =>
    obtain ⟨h1, h2⟩ := ih (fun q hq => hn q (List.mem_append_left _ hq)) hf.prefix
    have h0 := hn p (by simp)
    have hle : p.index ≤ (lanes ps).length := by
      by_contra hlt
      obtain ⟨q, hq, e⟩ := hf ps p [] rfl (lanes ps).length (by omega)
      exact absurd ((h2 _).2 ⟨q, hq, e⟩) (Nat.lt_irrefl _)
    have hs : (Demuxer.slot (lanes ps) p : Int) = p.index := by unfold Demuxer.slot; split <;> omega
    rw [lanes_concat]
    constructor
    · intro i
      rw [putLane_getD h0, h1 i, ofTrack_append, ofTrack_single]
      by_cases hi : i = Demuxer.slot (lanes ps) p
      · rw [if_pos hi, if_pos (by omega)]
      · rw [if_neg hi, if_neg (by omega), List.append_nil]
    · intro i
      have hlen : (putLane (lanes ps) p).length = if p.index < (lanes ps).length then (lanes ps).length else (lanes ps).length + 1 := by
        unfold putLane; split <;> simp
      rw [hlen]
      simp only [List.mem_append, List.mem_singleton]
      constructor
      · intro hi
        split at hi
        · obtain ⟨q, hq, e⟩ := (h2 i).1 hi
          exact ⟨q, .inl hq, e⟩
        · by_cases hi' : i < (lanes ps).length
          · obtain ⟨q, hq, e⟩ := (h2 i).1 hi'
            exact ⟨q, .inl hq, e⟩
          · exact ⟨p, .inr rfl, by omega⟩
      · rintro ⟨q, hq | rfl, e⟩
        · have := (h2 i).2 ⟨q, hq, e⟩
          split <;> omega
        · split <;> omega

/-- A packet that opens a lane opens the next one. -/
theorem lanes_nonempty (ps : List AVPacket) (hn : ∀ p ∈ ps, 0 ≤ p.index) : ∀ l ∈ lanes ps, l ≠ [] := by
  induction ps using List.reverseRecOn with
  | nil => intro l hl; cases hl
  | append_singleton ps p ih =>
    have ih := ih fun q hq => hn q (List.mem_append_left _ hq)
    intro l hl
    rw [lanes_concat] at hl
    unfold putLane at hl
    split at hl
    · obtain ⟨i, hi⟩ := List.mem_iff_getElem?.1 hl
      rw [List.getElem?_modify] at hi
      cases he : (lanes ps)[i]? with
      | none => rw [he] at hi; cases hi
      | some m =>
        rw [he, Option.map_eq_map, Option.map_some, Option.some.injEq] at hi
        split at hi
        · rw [← hi]; simp
        · rw [← hi]; exact ih m (List.mem_of_getElem? he)
    · rcases List.mem_append.1 hl with h | h
      · exact ih l h
      · rw [List.mem_singleton.1 h]; simp

/-- Lanes grow at their ends. -/
theorem lanes_grow (ps qs : List AVPacket) (hn : ∀ p ∈ ps ++ qs, 0 ≤ p.index) (i : Nat) :
    (lanes ps).getD i [] <+: (lanes (ps ++ qs)).getD i [] := by
  induction qs using List.reverseRecOn with
  | nil => rw [List.append_nil]; exact List.prefix_rfl
  | append_singleton qs q ih =>
    have ih := ih fun p hp => hn p (by rcases List.mem_append.1 hp with h | h <;> simp [h])
    rw [← List.append_assoc, lanes_concat, putLane_getD (hn q (by simp))]
    split
    · exact ih.trans (List.prefix_append _ _)
    · exact ih

/-- Lanes are the tracks only if first packets come in index order. -/
theorem firsts_lanes {ps : List AVPacket} (hn : ∀ p ∈ ps, 0 ≤ p.index) (h : ∀ i, (lanes ps).getD i [] = ofTrack i ps) :
    FirstsInOrder ps := by
  intro l p r e j hj
  by_contra hno
  have h0 := hn p (by rw [e]; simp)
  -- lane `j` has no packet yet when `p` comes
  have hpre : ∀ i, (lanes l).getD i [] <+: ofTrack i ps := by
    intro i
    rw [← h i, e]
    exact lanes_grow l (p :: r) (by rw [← e]; exact hn) i
  have hl : (lanes l).length ≤ j := by
    by_contra hlt
    have hjl : j < (lanes l).length := by omega
    have hne := lanes_nonempty l (fun q hq => hn q (by rw [e]; simp [hq])) ((lanes l)[j]) (List.getElem_mem hjl)
    obtain ⟨x, hx⟩ := List.exists_mem_of_ne_nil _ hne
    have hg : (lanes l).getD j [] = (lanes l)[j] := by rw [List.getD_eq_getElem?_getD, List.getElem?_eq_getElem hjl]; rfl
    have hx' : x ∈ ofTrack j ps := (hpre j).subset (by rw [hg]; exact hx)
    refine hno ⟨x, ?_, (mem_ofTrack.1 hx').2⟩
    -- members of lanes come from the list
    have hmem : ∀ (l : List AVPacket), (∀ q ∈ l, 0 ≤ q.index) → ∀ i, ∀ y ∈ (lanes l).getD i [], y ∈ l := by
      intro l
      induction l using List.reverseRecOn with
      | nil => intro _ i y hy; simp [lanes] at hy
      | append_singleton l q ih =>
        intro hn i y hy
        have ih := ih fun q hq => hn q (List.mem_append_left _ hq)
        rw [lanes_concat, putLane_getD (hn q (by simp))] at hy
        split at hy
        · rcases List.mem_append.1 hy with hy | hy
          · exact List.mem_append_left _ (ih i y hy)
          · exact List.mem_append_right _ hy
        · exact List.mem_append_left _ (ih i y hy)
    exact hmem l (fun q hq => hn q (by rw [e]; simp [hq])) j x (by rw [hg]; exact hx)
  -- so `p` opens lane `(lanes l).length`, which is not its own
  have h1 : p ∈ (lanes (l ++ [p])).getD (lanes l).length [] := by
    rw [lanes_concat, putLane_getD h0, if_pos]
    · simp
    · unfold Demuxer.slot; rw [if_neg (by omega)]
  have h2 : p ∈ ofTrack (lanes l).length ps := by
    rw [← h, e]
    have := lanes_grow (l ++ [p]) r (by rw [List.append_assoc, List.singleton_append, ← e]; exact hn) (lanes l).length
    rw [List.append_assoc, List.singleton_append] at this
    exact this.subset h1
  have := (mem_ofTrack.1 h2).2
  omega

end Avf
