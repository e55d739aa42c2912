import Verif.Props.DemuxerLanes
/-! # Lemmas: lanes whose most recent packets are of the tracks with their numbers -/
namespace Avf
open Go

/-- The most recent packet of each lane is of the track with the number of the lane. -/
def Settled (ls : List (List AVPacket)) : Prop := ∀ j : Nat, j < ls.length → ∃ x, (ls.getD j []).getLast? = some x ∧ x.index = j

/-- The most recent packet of a lane. -/
def heldIn (ls : List (List AVPacket)) (i : Nat) : List AVPacket := laneLast (ls.getD i [])

theorem putLane_length (ls : List (List AVPacket)) (p : AVPacket) :
    (putLane ls p).length = if p.index < ls.length then ls.length else ls.length + 1 := by
  unfold putLane; split <;> simp

theorem modify_flatten (p : AVPacket) : ∀ (ls : List (List AVPacket)) (n : Nat), n < ls.length →
    (ls.modify n (· ++ [p])).flatten.Perm (ls.flatten ++ [p]) := by
  intro ls
  induction ls with
  | nil => intro n h; cases h
  | cons l ls ih =>
    intro n h
    cases n with
    | zero =>
      simp only [List.modify_zero_cons, List.flatten_cons, List.append_assoc]
      exact List.Perm.append_left _ List.perm_append_comm
    | succ n =>
      simp only [List.modify_succ_cons, List.flatten_cons, List.append_assoc]
      exact List.Perm.append_left _ (ih n (Nat.lt_of_succ_lt_succ h))

/-- No packet is lost or doubled. -/
theorem lanes_flatten (ps : List AVPacket) (hn : ∀ p ∈ ps, 0 ≤ p.index) : (lanes ps).flatten.Perm ps := by
  induction ps using List.reverseRecOn with
  | nil => exact .nil
  | append_singleton ps p ih =>
    have ih := ih fun q hq => hn q (List.mem_append_left _ hq)
    have h0 := hn p (by simp)
    rw [lanes_concat]
    refine List.Perm.trans ?_ (List.Perm.append_right _ ih)
    unfold putLane
    split
    · exact modify_flatten p _ _ (by omega)
    · rw [List.flatten_append]; simp

/-- If the most recent packet of lane `i` is of track `i`, it is the most recent one of the track. -/
theorem lanes_recent (ps : List AVPacket) (hn : ∀ p ∈ ps, 0 ≤ p.index) (i : Nat) (x : AVPacket) (hx : ((lanes ps).getD i []).getLast? = some x)
    (hxi : x.index = i) : (ofTrack i ps).getLast? = some x := by
  induction ps using List.reverseRecOn with
  | nil => simp [lanes] at hx
  | append_singleton ps p ih =>
    have ih := ih fun q hq => hn q (List.mem_append_left _ hq)
    have h0 := hn p (by simp)
    rw [lanes_concat, putLane_getD h0] at hx
    rw [ofTrack_append, ofTrack_single]
    by_cases hi : i = Demuxer.slot (lanes ps) p
    · rw [if_pos hi] at hx
      simp only [List.getLast?_append, List.getLast?_singleton, Option.some_or, Option.some.injEq] at hx
      subst hx
      rw [if_pos hxi]
      simp
    · rw [if_neg hi] at hx
      have hlt : i < (lanes ps).length := by
        by_contra hge
        rw [List.getD_eq_getElem?_getD, List.getElem?_eq_none (by omega)] at hx
        cases hx
      have hpi : p.index ≠ i := by
        intro e
        apply hi
        unfold Demuxer.slot
        rw [if_pos (by omega)]; omega
      rw [if_neg hpi, List.append_nil]
      exact ih hx

theorem ofTrack_flatMap {α : Type} (i : Nat) (f : α → List AVPacket) (l : List α) :
    ofTrack i (l.flatMap f) = l.flatMap fun x => ofTrack i (f x) := by
  unfold ofTrack; rw [List.filter_flatMap]

/-- The most recent packets of the lanes. -/
theorem settled_lasts (i : Nat) : ∀ (ls : List (List AVPacket)) (k : Nat),
    (∀ j : Nat, j < ls.length → ∃ x, (ls.getD j []).getLast? = some x ∧ x.index = ((j + k : Nat) : Int)) →
    ofTrack i (ls.flatMap laneLast) = if k ≤ i then laneLast (ls.getD (i - k) []) else [] := by
  intro ls
  induction ls with
  | nil => intro k _; simp [ofTrack, laneLast]
  | cons l ls ih =>
    intro k h
    rw [List.flatMap_cons, ofTrack_append, ih (k + 1) fun j hj => by
      obtain ⟨x, h1, h2⟩ := h (j + 1) (by simp; omega)
      exact ⟨x, by simpa using h1, by rw [h2]; congr 1; omega⟩]
    obtain ⟨x, h1, h2⟩ := h 0 (by simp)
    simp only [List.getD_cons_zero] at h1
    have hl : laneLast l = [x] := by simp [laneLast, h1]
    rw [hl, ofTrack_single]
    by_cases h3 : i = k
    · subst h3
      rw [if_pos (by rw [h2]; simp), if_neg (by omega), if_pos (Nat.le_refl _), Nat.sub_self, List.getD_cons_zero, hl]
      rfl
    · rw [if_neg (by rw [h2]; omega), List.nil_append]
      by_cases h4 : k ≤ i
      · rw [if_pos (by omega), if_pos h4]
        obtain ⟨m, rfl⟩ : ∃ m, i = k + 1 + m := ⟨i - (k + 1), by omega⟩
        rw [show k + 1 + m - (k + 1) = m by omega, show k + 1 + m - k = m + 1 by omega, List.getD_cons_succ]
      · rw [if_neg (by omega), if_neg h4]

theorem dropLast_laneLast (l : List AVPacket) : l.dropLast ++ laneLast l = l := by
  obtain rfl | ⟨l, x, rfl⟩ := List.eq_nil_or_concat l
  · rfl
  · simp [laneLast]

theorem flatMap_split (ls : List (List AVPacket)) : (ls.flatMap List.dropLast ++ ls.flatMap laneLast).Perm ls.flatten := by
  induction ls with
  | nil => exact .nil
  | cons l ls ih =>
    simp only [List.flatMap_cons, List.flatten_cons, List.append_assoc]
    rw [show l ++ ls.flatten = l.dropLast ++ (laneLast l ++ ls.flatten) by rw [← List.append_assoc, dropLast_laneLast]]
    refine List.Perm.append_left _ ?_
    refine List.Perm.trans ?_ (List.Perm.append_left _ ih)
    rw [← List.append_assoc, ← List.append_assoc]
    exact List.Perm.append_right _ List.perm_append_comm

theorem ofTrack_perm {i : Nat} {l l' : List AVPacket} (h : l.Perm l') : (ofTrack i l).Perm (ofTrack i l') := h.filter _

theorem ofTrack_map_bare (i : Nat) (l : List AVPacket) : (ofTrack i l).map bare = ofTrack i (l.map bare) := by
  unfold ofTrack; rw [List.filter_map]; rfl

theorem timed_map_bare' (l : List AVPacket) : (timed l).map bare = l.dropLast.map bare := by
  rw [timed_map_bare, List.dropLast_eq_take]

/-- Of the packets of a track, the lanes have all but the most recent one in front of the last places. -/
theorem settled_early {ps : List AVPacket} (hn : ∀ p ∈ ps, 0 ≤ p.index) (hs : Settled (lanes ps)) (i : Nat) :
    ∃ xs, ofTrack i ps = xs ++ heldIn (lanes ps) i ∧ (ofTrack i ((lanes ps).flatMap List.dropLast)).Perm xs := by
  have h1 : (ofTrack i ((lanes ps).flatMap List.dropLast) ++ heldIn (lanes ps) i).Perm (ofTrack i ps) := by
    have := ofTrack_perm (i := i) ((flatMap_split (lanes ps)).trans (lanes_flatten ps hn))
    rw [ofTrack_append, settled_lasts i (lanes ps) 0 hs] at this
    exact this
  cases hh : ((lanes ps).getD i []).getLast? with
  | none =>
    have h2 : heldIn (lanes ps) i = [] := by unfold heldIn laneLast; rw [hh]; rfl
    rw [h2, List.append_nil] at h1
    exact ⟨ofTrack i ps, by rw [h2, List.append_nil], h1⟩
  | some x =>
    have h2 : heldIn (lanes ps) i = [x] := by unfold heldIn laneLast; rw [hh]; rfl
    have hlt : i < (lanes ps).length := by
      by_contra hge
      rw [List.getD_eq_getElem?_getD, List.getElem?_eq_none (by omega)] at hh
      cases hh
    obtain ⟨y, hy, hyi⟩ := hs i hlt
    rw [hh] at hy
    cases hy
    have h3 := lanes_recent ps hn i x hh hyi
    obtain h4 | ⟨l, y, h4⟩ := List.eq_nil_or_concat (ofTrack i ps)
    · rw [h4] at h3; cases h3
    · rw [List.concat_eq_append] at h4
      rw [h4] at h3
      simp only [List.getLast?_append, List.getLast?_singleton, Option.some_or, Option.some.injEq] at h3
      subst h3
      refine ⟨l, by rw [h4, h2], ?_⟩
      rw [h4, h2] at h1
      exact (List.perm_append_right_iff _).1 h1

/-- One more packet. -/
theorem settled_put {ls : List (List AVPacket)} (hs : Settled ls) {p : AVPacket} (h0 : 0 ≤ p.index) (hp : p.index ≤ ls.length) :
    Settled (putLane ls p) ∧ ls.length ≤ (putLane ls p).length ∧
    (∀ i, heldIn (putLane ls p) i = if p.index = i then [p] else heldIn ls i) ∧
    inFront ls p = ((ls.getD p.index.toNat []).getLast?) := by
  have hslot : (Demuxer.slot ls p : Int) = p.index := by unfold Demuxer.slot; split <;> omega
  refine ⟨fun j hj => ?_, lanes_length_le ls p, fun i => ?_, ?_⟩
  · rw [putLane_getD h0]
    split
    · exact ⟨p, by simp, by omega⟩
    · refine hs j ?_
      rw [putLane_length] at hj
      split at hj <;> omega
  · unfold heldIn
    rw [putLane_getD h0]
    by_cases h : p.index = i
    · rw [if_pos (by omega), if_pos h, laneLast_concat]
    · rw [if_neg (by omega), if_neg h]
  · unfold inFront
    split
    · rw [List.getD_eq_getElem?_getD, List.getElem?_eq_getElem (show p.index.toNat < ls.length by omega)]
      rfl
    · rw [List.getD_eq_getElem?_getD, List.getElem?_eq_none (show ls.length ≤ p.index.toNat by omega)]
      rfl

/-- After the end of probing: for each track, the packets that were held and those that came are those delivered and those held. -/
theorem settled_late {n : Nat} (i : Nat) : ∀ (after : List AVPacket) (ls : List (List AVPacket)), Settled ls → n ≤ ls.length + 1 →
    (∀ p ∈ after, 0 ≤ p.index ∧ p.index < n) →
    (ofTrack i (lateOf ls after) ++ heldIn (after.foldl putLane ls) i).map bare = (heldIn ls i ++ ofTrack i after).map bare := by
  intro after
  induction after with
  | nil => intro ls _ _ _; simp [lateOf, ofTrack]
  | cons p after ih =>
    intro ls hs hn hp
    obtain ⟨h0, h1⟩ := hp p (List.mem_cons_self ..)
    obtain ⟨h2, h3, h4, h5⟩ := settled_put hs h0 (by omega)
    have ih := ih (putLane ls p) h2 (by omega) fun q hq => hp q (List.mem_cons_of_mem _ hq)
    simp only [List.foldl_cons, lateOf]
    rw [ofTrack_append, List.append_assoc, List.map_append, ih, h4 i, h5, show p :: after = [p] ++ after from rfl, ofTrack_append, ofTrack_single]
    have hfront : (ofTrack i ((((ls.getD p.index.toNat []).getLast?).map fun x => { x with duration := wrap64 (p.dts - x.dts) }).toList)).map bare =
        if p.index = i then (heldIn ls i).map bare else [] := by
      by_cases hlt : p.index.toNat < ls.length
      · obtain ⟨x, hx, hxi⟩ := hs _ hlt
        have e : x.index = p.index := by omega
        rw [hx]
        show (ofTrack i [({ x with duration := wrap64 (p.dts - x.dts) } : AVPacket)]).map bare = _
        rw [ofTrack_single]
        show (if x.index = (i : Int) then _ else _ : List AVPacket).map bare = _
        by_cases hpi : p.index = i
        · rw [if_pos (e.trans hpi), if_pos hpi]
          unfold heldIn laneLast
          rw [show i = p.index.toNat by omega, hx]
          rfl
        · rw [if_neg (fun h => hpi (e.symm.trans h)), if_neg hpi]; rfl
      · have hnil : ls.getD p.index.toNat [] = [] := by
          rw [List.getD_eq_getElem?_getD, List.getElem?_eq_none (by omega)]; rfl
        rw [hnil]
        by_cases hpi : p.index = i
        · rw [if_pos hpi]
          unfold heldIn laneLast
          rw [show i = p.index.toNat by omega, hnil]
          rfl
        · rw [if_neg hpi]; rfl
    rw [hfront]
    by_cases hpi : p.index = i
    · simp [hpi]
    · simp [hpi]

/-- Two lists with the same packets, in order of DTS, where the DTS differ. -/
theorem eq_of_dts {l l' : List AVPacket} (h : l.Perm l') (h1 : l.Pairwise fun a b => a.dts ≤ b.dts) (h2 : l'.Pairwise fun a b => a.dts < b.dts) :
    l = l' := by
  refine List.Perm.eq_of_pairwise (le := fun a b => a.dts ≤ b.dts) ?_ h1 (h2.imp (by intro a b; exact Int.le_of_lt)) h
  intro x y hx hy hxy hyx
  have hx' := h.subset hx
  by_contra hne
  rcases List.pairwise_iff_getElem.1 h2 with hpair
  obtain ⟨m, hm, rfl⟩ := List.mem_iff_getElem.1 hx'
  obtain ⟨n, hn, rfl⟩ := List.mem_iff_getElem.1 hy
  rcases Nat.lt_trichotomy m n with hlt | rfl | hlt
  · have := hpair m n hm hn hlt; omega
  · exact hne rfl
  · have := hpair n m hn hm hlt; omega

/-- Two tracks, and packets of track 0: lane 0 ends with one. -/
theorem two_settled (ps : List AVPacket) (hn : ∀ p ∈ ps, p.index = 0 ∨ p.index = 1) :
    (lanes ps).length ≤ 2 ∧ (ps ≠ [] → 1 ≤ (lanes ps).length) ∧
    ((∃ p ∈ ps, p.index = 0) → ∃ x, ((lanes ps).getD 0 []).getLast? = some x ∧ x.index = 0) ∧
    (1 < (lanes ps).length → ∃ x, ((lanes ps).getD 1 []).getLast? = some x ∧ x.index = 1) := by
  induction ps using List.reverseRecOn with
  | nil => simp [lanes]
  | append_singleton ps p ih =>
    obtain ⟨h1, h2, h3, h4⟩ := ih fun q hq => hn q (List.mem_append_left _ hq)
    have hp := hn p (by simp)
    have h0 : 0 ≤ p.index := by omega
    rw [lanes_concat]
    have hlen := putLane_length (lanes ps) p
    refine ⟨?_, fun _ => ?_, fun hex => ?_, fun hl => ?_⟩
    · rw [hlen]; split <;> omega
    · rw [hlen]; split <;> omega
    · rw [putLane_getD h0]
      rcases hp with hp | hp
      · have hsl : (0 : Nat) = Demuxer.slot (lanes ps) p := by
          unfold Demuxer.slot
          split <;> omega
        rw [if_pos hsl]
        exact ⟨p, by simp, hp⟩
      · obtain ⟨q, hq, hq0⟩ := hex
        have hq : q ∈ ps := by
          rcases List.mem_append.1 hq with h | h
          · exact h
          · rw [List.mem_singleton] at h; subst h; omega
        have : 1 ≤ (lanes ps).length := h2 (List.ne_nil_of_mem hq)
        have hsl : ¬ (0 : Nat) = Demuxer.slot (lanes ps) p := by
          unfold Demuxer.slot
          split <;> omega
        rw [if_neg hsl]
        exact h3 ⟨q, hq, hq0⟩
    · rw [putLane_getD h0]
      rw [hlen] at hl
      rcases hp with hp | hp
      · have hsl : ¬ (1 : Nat) = Demuxer.slot (lanes ps) p := by
          unfold Demuxer.slot
          split at hl <;> split <;> omega
        rw [if_neg hsl]
        refine h4 ?_
        split at hl <;> omega
      · have hsl : (1 : Nat) = Demuxer.slot (lanes ps) p := by
          unfold Demuxer.slot
          split at hl <;> split <;> omega
        rw [if_pos hsl]
        exact ⟨p, by simp, hp⟩

/-- Two tracks and no lane 1: at most one packet of track 1. -/
theorem two_single (ps : List AVPacket) (hn : ∀ p ∈ ps, p.index = 0 ∨ p.index = 1) (h : (lanes ps).length ≤ 1) : (ofTrack 1 ps).length ≤ 1 := by
  induction ps using List.reverseRecOn with
  | nil => simp [ofTrack]
  | append_singleton ps p ih =>
    have hn' : ∀ q ∈ ps, q.index = 0 ∨ q.index = 1 := fun q hq => hn q (List.mem_append_left _ hq)
    have hp := hn p (by simp)
    rw [lanes_concat, putLane_length] at h
    rw [ofTrack_append, ofTrack_single, List.length_append]
    by_cases h0 : ps = []
    · subst h0
      have : ofTrack 1 ([] : List AVPacket) = [] := rfl
      rw [this]
      split <;> simp
    · have := (two_settled ps hn').2.1 h0
      rw [if_neg (by split at h <;> omega)]
      exact ih hn' (by split at h <;> omega)

end Avf
